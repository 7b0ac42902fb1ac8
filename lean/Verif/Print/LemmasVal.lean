import Verif.Print.LemmasTree
import Verif.Print.Laws

/-! The value of a printed expression. -/
namespace Verif.Print

open Verif.CExpr
open Verif.Codegen (Interp Fn Cmp Name Expr Stmt)

variable {α : Type} [DecidableEq α]

/-- arithmetic operators on `double`s -/
def arithOp (I : Interp α) : Op → α → α → Option α
  | .add, a, b => some (I.add a b)
  | .sub, a, b => some (I.sub a b)
  | .mul, a, b => some (I.mul a b)
  | .div, a, b => some (I.div a b)
  | _, _, _ => none

/-- value of an expression computed with `double`s only -/
def rval (A : Arith α) (env : CEnv α) : T α → Option α
  | .num (.int n) => some (A.ofInt n)
  | .num (.real v) => some v
  | .id _ => none
  | .idx (.id s) i => (env.pos i).bind fun k => env.arr s k
  | .idx _ _ => none
  | .call1 f a => match mathFn f, rval A env a with
    | some g, some v => some (A.I.un g v)
    | _, _ => none
  | .call2 f a b => if f = "pow" then
      match rval A env a, rval A env b with
      | some u, some v => some (A.I.pow u v)
      | _, _ => none
    else none
  | .paren t => rval A env t
  | .neg t => (rval A env t).map A.I.neg
  | .cond (.bin o l r) b c => match cmpOf o, rval A env l, rval A env r with
    | some k, some u, some v => if A.I.cmp k u v then rval A env b else rval A env c
    | _, _, _ => none
  | .cond _ _ _ => none
  | .bin o a b => match rval A env a, rval A env b with
    | some u, some v => arithOp A.I o u v
    | _, _ => none

/-- bound of the value of an `int` expression -/
def ib : T α → Nat
  | .num (.int n) => n
  | .num (.real _) => 0
  | .id _ | .idx _ _ | .call1 _ _ | .call2 _ _ _ => 0
  | .paren t => ib t
  | .neg t => ib t
  | .cond _ b c => max (ib b) (ib c)
  | .bin .add a b | .bin .sub a b => ib a + ib b
  | .bin .mul a b => ib a * ib b
  | .bin .div a _ => ib a
  | .bin _ _ _ => 1

/-- no overflow and no division of `int`s -/
def Fits : T α → Prop
  | .num (.int n) => n < 2 ^ 31
  | .num (.real _) | .id _ | .idx _ _ => True
  | .call1 _ a => Fits a
  | .call2 _ a b => Fits a ∧ Fits b
  | .paren t => Fits t
  | .neg t => Fits t ∧ (ty t = .int → ib t < 2 ^ 31)
  | .cond (.bin o l r) b c => (cmpOf o).isSome ∧ Fits l ∧ Fits r ∧ Fits b ∧ Fits c
  | .cond _ _ _ => False
  | .bin o a b => Fits a ∧ Fits b ∧ 5 ≤ o.prec ∧ (ty a = .int → ty b = .int → o ≠ .div ∧ ib (.bin o a b) < 2 ^ 31)

/-- a value of the type of the tree -/
def HasTy (t : T α) (v : Val α) : Prop :=
  (ty t = .int → ∃ z : Int, v = .int z ∧ z.natAbs ≤ ib t ∧ z.natAbs < 2 ^ 31) ∧ (ty t = .double → ∃ d, v = .dbl d)

theorem intRes_ok {z : Int} (h : z.natAbs < 2 ^ 31) : intRes z = some (Val.int (α := α) z) := by
  unfold intRes; rw [if_pos]; omega

theorem cmp_bin {A : Arith α} (L : SignLaws A) {o : Op} {k : Cmp} (hk : cmpOf o = some k) {l r : T α} {u v : Val α}
    (hu : HasTy l u) (hv : HasTy r v) : binVal A o u v = some (boolVal (A.I.cmp k (u.toD A) (v.toD A))) := by
  have key : ∀ a b : Int, u = .int a → v = .int b → intCmp k a b = A.I.cmp k (u.toD A) (v.toD A) := by
    intro a b ha hb
    have h1 : a.natAbs < 2 ^ 31 := by
      cases ht : ty l with
      | int => obtain ⟨z, e, _, h⟩ := hu.1 ht; rw [ha] at e; cases e; exact h
      | double => obtain ⟨d, e⟩ := hu.2 ht; rw [ha] at e; cases e
    have h2 : b.natAbs < 2 ^ 31 := by
      cases ht : ty r with
      | int => obtain ⟨z, e, _, h⟩ := hv.1 ht; rw [hb] at e; cases e; exact h
      | double => obtain ⟨d, e⟩ := hv.2 ht; rw [hb] at e; cases e
    subst ha hb
    exact (L.ofInt_cmp k a b (by omega) (by omega)).symm
  cases o <;> simp only [cmpOf, reduceCtorEq, Option.some.injEq] at hk <;> subst hk <;>
    cases u <;> cases v <;> simp only [binVal, Val.toD] at key ⊢ <;> rw [key _ _ rfl rfl]

/-- C arithmetic agrees with the computation in `double` for a tree -/
def Agree (A : Arith α) (env : CEnv α) (t : T α) : Prop :=
  ∀ r : α, Fits t → rval A env t = some r → ∃ v, ceval A env t = some v ∧ v.toD A = r ∧ HasTy t v

theorem agree_both {A : Arith α} (L : SignLaws A) (env : CEnv α) (t : T α) :
    Agree A env t ∧ ∀ o x y, t = .bin o x y → Agree A env x ∧ Agree A env y := by
  induction t with
  | num c =>
    refine ⟨?_, fun _ _ _ h => by cases h⟩
    intro r hf hr
    cases c with
    | int n =>
      have hn : n < 2 ^ 31 := hf
      simp only [rval, Option.some.injEq] at hr
      refine ⟨.int n, intRes_ok (by omega), hr, fun _ => ⟨n, rfl, by simp [ib], by omega⟩, fun h => by simp [ty] at h⟩
    | real v =>
      simp only [rval, Option.some.injEq] at hr
      exact ⟨.dbl v, rfl, hr, fun h => by simp [ty] at h, fun _ => ⟨v, rfl⟩⟩
  | id s =>
    refine ⟨?_, fun _ _ _ h => by cases h⟩
    intro r _ hr; simp [rval] at hr
  | idx a i iha ihi =>
    refine ⟨?_, fun _ _ _ h => by cases h⟩
    intro r _ hr
    cases a with
    | id s =>
      simp only [rval] at hr
      cases hp : env.pos i with
      | none => simp [hp] at hr
      | some k =>
        simp only [hp, Option.bind_some] at hr
        exact ⟨.dbl r, by simp [ceval, hp, hr], rfl, fun h => by simp [ty] at h, fun _ => ⟨r, rfl⟩⟩
    | _ => simp [rval] at hr
  | call1 f a ih =>
    refine ⟨?_, fun _ _ _ h => by cases h⟩
    intro r hf hr
    simp only [rval] at hr
    cases hm : mathFn f with
    | none => simp [hm] at hr
    | some g =>
      cases ha : rval A env a with
      | none => simp [hm, ha] at hr
      | some u =>
        simp only [hm, ha, Option.some.injEq] at hr
        obtain ⟨v, h1, h2, _⟩ := ih.1 u hf ha
        exact ⟨.dbl r, by simp [ceval, hm, h1, h2, hr], rfl, fun h => by simp [ty] at h, fun _ => ⟨r, rfl⟩⟩
  | call2 f a b iha ihb =>
    refine ⟨?_, fun _ _ _ h => by cases h⟩
    intro r hf hr
    simp only [rval] at hr
    by_cases hp : f = "pow"
    · rw [if_pos hp] at hr
      cases ha : rval A env a with
      | none => simp [ha] at hr
      | some u =>
        cases hb : rval A env b with
        | none => simp [ha, hb] at hr
        | some w =>
          simp only [ha, hb, Option.some.injEq] at hr
          obtain ⟨v, h1, h2, _⟩ := iha.1 u hf.1 ha
          obtain ⟨v', h1', h2', _⟩ := ihb.1 w hf.2 hb
          exact ⟨.dbl r, by simp [ceval, hp, h1, h2, h1', h2', hr], rfl, fun h => by simp [ty] at h, fun _ => ⟨r, rfl⟩⟩
    · rw [if_neg hp] at hr; cases hr
  | paren t ih =>
    refine ⟨?_, fun _ _ _ h => by cases h⟩
    intro r hf hr
    obtain ⟨v, h1, h2, h3⟩ := ih.1 r hf hr
    exact ⟨v, h1, h2, h3.1, h3.2⟩
  | neg t ih =>
    refine ⟨?_, fun _ _ _ h => by cases h⟩
    intro r hf hr
    simp only [rval, Option.map_eq_some_iff] at hr
    obtain ⟨u, hu, rfl⟩ := hr
    obtain ⟨v, h1, h2, h3⟩ := ih.1 u hf.1 hu
    cases ht : ty t with
    | int =>
      obtain ⟨z, rfl, hz, _⟩ := h3.1 ht
      have hb := hf.2 ht
      refine ⟨.int (-z), ?_, ?_, fun _ => ⟨-z, rfl, by simp only [ib]; omega, by omega⟩, fun h => by simp [ty, ht] at h⟩
      · simp only [ceval, h1, Option.bind_some, negVal]
        exact intRes_ok (by omega)
      · rw [← h2]; exact L.ofInt_neg z (by omega)
    | double =>
      obtain ⟨d, rfl⟩ := h3.2 ht
      refine ⟨.dbl (A.I.neg d), by simp [ceval, h1, negVal], by simp only [Val.toD] at h2 ⊢; rw [h2], fun h => by simp [ty, ht] at h, fun _ => ⟨_, rfl⟩⟩
  | cond a b c iha ihb ihc =>
    refine ⟨?_, fun _ _ _ h => by cases h⟩
    intro r hf hr
    cases a with
    | bin o x y =>
      obtain ⟨ho, hx, hy, hfb, hfc⟩ := hf
      obtain ⟨k, hk⟩ := Option.isSome_iff_exists.mp ho
      simp only [rval, hk] at hr
      cases hux : rval A env x with
      | none => simp [hux] at hr
      | some u =>
        cases huy : rval A env y with
        | none => simp [hux, huy] at hr
        | some w =>
          simp only [hux, huy] at hr
          obtain ⟨ax, ay⟩ := iha.2 o x y rfl
          obtain ⟨v, h1, h2, h3⟩ := ax u hx hux
          obtain ⟨v', h1', h2', h3'⟩ := ay w hy huy
          have hc : ceval A env (.bin o x y) = some (boolVal (A.I.cmp k u w)) := by
            simp only [ceval, h1, h1']
            rw [cmp_bin L hk h3 h3', h2, h2']
          have fin : ∀ v : Val α, ∀ t' : T α, HasTy t' v → (t' = b ∨ t' = c) →
              (v.conv A ((ty b).join (ty c))).toD A = v.toD A ∧ HasTy (.cond (.bin o x y) b c) (v.conv A ((ty b).join (ty c))) := by
            intro v t' hv ht'
            cases hb : ty b <;> cases hcc : ty c
            · have ht : ty t' = .int := by rcases ht' with rfl | rfl <;> assumption
              refine ⟨rfl, fun _ => ?_, fun h => by simp [ty, hb, hcc, Ty.join] at h⟩
              obtain ⟨z, e, hz, hz'⟩ := hv.1 ht
              refine ⟨z, e, ?_, hz'⟩
              simp only [ib]
              rcases ht' with rfl | rfl <;> omega
            all_goals exact ⟨rfl, fun h => by simp [ty, hb, hcc, Ty.join] at h, fun _ => ⟨_, rfl⟩⟩
          by_cases hcmp : A.I.cmp k u w = true
          · rw [if_pos hcmp] at hr
            obtain ⟨vb, e1, e2, e3⟩ := ihb.1 r hfb hr
            obtain ⟨f1, f2⟩ := fin vb b e3 (.inl rfl)
            refine ⟨_, ?_, f1.trans e2, f2⟩
            simp only [ceval] at hc ⊢
            rw [hc]
            simp [boolVal, hcmp, e1]
          · rw [if_neg hcmp] at hr
            obtain ⟨vb, e1, e2, e3⟩ := ihc.1 r hfc hr
            obtain ⟨f1, f2⟩ := fin vb c e3 (.inr rfl)
            refine ⟨_, ?_, f1.trans e2, f2⟩
            simp only [ceval] at hc ⊢
            rw [hc]
            simp [boolVal, hcmp, e1]
    | _ => exact absurd hf (by simp [Fits])
  | bin o a b iha ihb =>
    refine ⟨?_, fun _ _ _ h => by cases h; exact ⟨iha.1, ihb.1⟩⟩
    intro r hf hr
    simp only [rval] at hr
    cases ha : rval A env a with
    | none => simp [ha] at hr
    | some u =>
      cases hb : rval A env b with
      | none => simp [ha, hb] at hr
      | some w =>
        simp only [ha, hb] at hr
        obtain ⟨v, h1, h2, h3⟩ := iha.1 u hf.1 ha
        obtain ⟨v', h1', h2', h3'⟩ := ihb.1 w hf.2.1 hb
        obtain ⟨ho, hbd⟩ := hf.2.2
        have hcn : cmpOf o = none := by cases o <;> simp [Op.prec] at ho <;> rfl
        have hty : ty (.bin o a b) = (ty a).join (ty b) := by simp [ty, hcn]
        have hev : ceval A env (.bin o a b) = binVal A o v v' := by simp only [ceval, h1, h1']
        by_cases hints : ty a = .int ∧ ty b = .int
        · obtain ⟨z, rfl, hz, hzl⟩ := h3.1 hints.1
          obtain ⟨z', rfl, hz', hzl'⟩ := h3'.1 hints.2
          obtain ⟨hnd, hlt⟩ := hbd hints.1 hints.2
          have fin : ∀ q : Int, q.natAbs ≤ ib (.bin o a b) → binVal A o (.int z) (.int z') = intRes q → A.ofInt q = r →
              ∃ v, ceval A env (.bin o a b) = some v ∧ v.toD A = r ∧ HasTy (.bin o a b) v := by
            intro q hq e1 e2
            refine ⟨.int q, ?_, e2, fun _ => ⟨q, rfl, hq, by omega⟩, fun h => ?_⟩
            · rw [hev, e1]; exact intRes_ok (by omega)
            · rw [hty, hints.1, hints.2] at h; simp [Ty.join] at h
          simp only [Val.toD] at h2 h2'
          cases o <;> simp only [Op.prec] at ho <;> try omega
          · have hm : (z * z').natAbs ≤ ib a * ib b := by rw [Int.natAbs_mul]; exact Nat.mul_le_mul hz hz'
            have h2e : ib a * ib b < 2 ^ 31 := hlt
            simp only [arithOp, Option.some.injEq] at hr
            refine fin (z * z') hm rfl ?_
            rw [L.ofInt_mul z z' hzl hzl' (by omega), h2, h2', hr]
          · exact absurd rfl hnd
          · have hs : ib a + ib b < 2 ^ 31 := hlt
            refine fin (z + z') (by simp only [ib]; omega) rfl ?_
            rw [L.ofInt_add z z' (by omega) (by omega) (by omega), h2, h2']
            simpa [arithOp] using hr
          · have hs : ib a + ib b < 2 ^ 31 := hlt
            refine fin (z - z') (by simp only [ib]; omega) rfl ?_
            rw [L.ofInt_sub z z' (by omega) (by omega) (by omega), h2, h2']
            simpa [arithOp] using hr
        · have hd : ty (.bin o a b) = .double := by
            rw [hty]
            cases ha' : ty a <;> cases hb' : ty b <;> simp_all [Ty.join]
          have hnn : ∀ x y : Int, v = .int x → v' = .int y → False := by
            intro x y e e'
            apply hints
            constructor
            · cases hta : ty a with
              | int => rfl
              | double => obtain ⟨d, e1⟩ := h3.2 hta; rw [e] at e1; cases e1
            · cases hta : ty b with
              | int => rfl
              | double => obtain ⟨d, e1⟩ := h3'.2 hta; rw [e'] at e1; cases e1
          refine ⟨.dbl r, ?_, rfl, fun h => (by rw [hd] at h; cases h), fun _ => ⟨r, rfl⟩⟩
          rw [hev]
          cases o <;> simp only [Op.prec] at ho <;> (try omega) <;> simp only [arithOp, Option.some.injEq] at hr <;>
            cases v <;> cases v' <;> simp only [binVal, h2, h2', hr] <;> exact (hnn _ _ rfl rfl).elim

theorem ceval_rval {A : Arith α} (L : SignLaws A) (env : CEnv α) (t : T α) (r : α) (hf : Fits t) (hr : rval A env t = some r) :
    ∃ v, ceval A env t = some v ∧ v.toD A = r ∧ HasTy t v := (agree_both L env t).1 r hf hr

end Verif.Print
