import Verif.Print.LemmasVal

/-! No overflow and no division of `int`s in a printed expression. -/
namespace Verif.Print

open Verif.CExpr
open Verif.Codegen (Interp Fn Cmp Name Expr Stmt)

variable {α : Type} [DecidableEq α]

/-- bound of a tree if it is an `int` -/
def ibi (t : T α) : Nat := if ty t = .int then ib t else 0

/-- bound of the `int` operands of a chain of sums -/
def pb : T α → Nat
  | .bin .add t1 t2 => pb t1 + ibi t2
  | .bin .sub t1 t2 => pb t1 + ibi t2
  | t => ibi t

/-- factors of type `int` of a chain of products have values of at most one, an `int` is not divided by an `int` -/
def MulOk : T α → Prop
  | .bin .mul t1 t2 => MulOk t1 ∧ (ty t2 = .int → ib t2 ≤ 1)
  | .bin .div t1 t2 => MulOk t1 ∧ (ty t1 = .int → ty t2 = .double)
  | t => ty t = .int → ib t ≤ 1

theorem join_int {a b : Ty} (h : a.join b = .int) : a = .int ∧ b = .int := by
  cases a <;> cases b <;> simp_all [Ty.join]

theorem join_assoc (a b c : Ty) : (a.join b).join c = a.join (b.join c) := by
  cases a <;> cases b <;> cases c <;> rfl

theorem ty_add (a b : T α) : ty (.bin .add a b) = (ty a).join (ty b) := rfl
theorem ty_sub (a b : T α) : ty (.bin .sub a b) = (ty a).join (ty b) := rfl
theorem ty_mul (a b : T α) : ty (.bin .mul a b) = (ty a).join (ty b) := rfl
theorem ty_div (a b : T α) : ty (.bin .div a b) = (ty a).join (ty b) := rfl

theorem joinAdd_other {a t : T α} (h1 : ∀ t1 t2, t ≠ .bin .add t1 t2) (h2 : ∀ t1 t2, t ≠ .bin .sub t1 t2) :
    joinAdd a t = .bin .add a t := by
  unfold joinAdd
  split
  · exact absurd rfl (h1 _ _)
  · exact absurd rfl (h2 _ _)
  · rfl

theorem joinMul_other {a t : T α} (h1 : ∀ t1 t2, t ≠ .bin .mul t1 t2) (h2 : ∀ t1 t2, t ≠ .bin .div t1 t2) :
    joinMul a t = .bin .mul a t := by
  unfold joinMul
  split
  · exact absurd rfl (h1 _ _)
  · exact absurd rfl (h2 _ _)
  · rfl

theorem negT_other {t : T α} (h1 : ∀ t1 t2, t ≠ .bin .mul t1 t2) (h2 : ∀ t1 t2, t ≠ .bin .div t1 t2) :
    negT t = .neg t := by
  unfold negT
  split
  · exact absurd rfl (h1 _ _)
  · exact absurd rfl (h2 _ _)
  · rfl

theorem pb_other {t : T α} (h1 : ∀ t1 t2, t ≠ .bin .add t1 t2) (h2 : ∀ t1 t2, t ≠ .bin .sub t1 t2) :
    pb t = ibi t := by
  unfold pb
  split
  · exact absurd rfl (h1 _ _)
  · exact absurd rfl (h2 _ _)
  · rfl

theorem mulOk_other {t : T α} (h1 : ∀ t1 t2, t ≠ .bin .mul t1 t2) (h2 : ∀ t1 t2, t ≠ .bin .div t1 t2) :
    MulOk t ↔ (ty t = .int → ib t ≤ 1) := by
  unfold MulOk
  split
  · exact absurd rfl (h1 _ _)
  · exact absurd rfl (h2 _ _)
  · rfl

theorem joinAdd_ty (a t : T α) : ty (joinAdd a t) = (ty a).join (ty t) := by
  induction t using joinAdd.induct with
  | case1 t1 t2 ih => rw [joinAdd, ty_add, ty_add, ih, join_assoc]
  | case2 t1 t2 ih => rw [joinAdd, ty_sub, ty_sub, ih, join_assoc]
  | case3 t h1 h2 => rw [joinAdd_other h1 h2]; rfl

theorem joinMul_ty (a t : T α) : ty (joinMul a t) = (ty a).join (ty t) := by
  induction t using joinMul.induct with
  | case1 t1 t2 ih => rw [joinMul, ty_mul, ty_mul, ih, join_assoc]
  | case2 t1 t2 ih => rw [joinMul, ty_div, ty_div, ih, join_assoc]
  | case3 t h1 h2 => rw [joinMul_other h1 h2]; rfl

theorem negT_ty (t : T α) : ty (negT t) = ty t := by
  induction t using negT.induct with
  | case1 t1 t2 ih => rw [negT, ty_mul, ty_mul, ih]
  | case2 t1 t2 ih => rw [negT, ty_div, ty_div, ih]
  | case3 t h1 h2 => rw [negT_other h1 h2]; rfl

theorem ib_le_pb (t : T α) (h : ty t = .int) : ib t ≤ pb t := by
  induction t using pb.induct with
  | case1 t1 t2 ih =>
    obtain ⟨a, b⟩ := join_int h
    have := ih a
    simp only [ib, pb, ibi, b, if_true]; omega
  | case2 t1 t2 ih =>
    obtain ⟨a, b⟩ := join_int h
    have := ih a
    simp only [ib, pb, ibi, b, if_true]; omega
  | case3 t h1 h2 => rw [pb_other h1 h2, ibi, if_pos h]; exact Nat.le_refl _

theorem joinAdd_pb (a t : T α) : pb (joinAdd a t) = pb a + pb t := by
  induction t using joinAdd.induct with
  | case1 t1 t2 ih => rw [joinAdd, pb, pb, ih]; omega
  | case2 t1 t2 ih => rw [joinAdd, pb, pb, ih]; omega
  | case3 t h1 h2 => rw [joinAdd_other h1 h2, pb, pb_other h1 h2]

theorem joinAdd_fits {a t : T α} (ha : Fits a) (ht : Fits t) (h : pb a + pb t < 2 ^ 31) : Fits (joinAdd a t) := by
  induction t using joinAdd.induct with
  | case1 t1 t2 ih =>
    have hw : pb (.bin .add (joinAdd a t1) t2) = pb (joinAdd a (.bin .add t1 t2)) := rfl
    rw [joinAdd_pb] at hw
    have h' : pb a + pb t1 < 2 ^ 31 := by simp only [pb] at h; omega
    refine ⟨ih ht.1 h', ht.2.1, by decide, fun e1 e2 => ⟨by simp, ?_⟩⟩
    have := ib_le_pb (.bin .add (joinAdd a t1) t2) (by rw [ty_add, e1, e2]; rfl)
    omega
  | case2 t1 t2 ih =>
    have hw : pb (.bin .sub (joinAdd a t1) t2) = pb (joinAdd a (.bin .sub t1 t2)) := rfl
    rw [joinAdd_pb] at hw
    have h' : pb a + pb t1 < 2 ^ 31 := by simp only [pb] at h; omega
    refine ⟨ih ht.1 h', ht.2.1, by decide, fun e1 e2 => ⟨by simp, ?_⟩⟩
    have := ib_le_pb (.bin .sub (joinAdd a t1) t2) (by rw [ty_sub, e1, e2]; rfl)
    omega
  | case3 t h1 h2 =>
    have hw := joinAdd_pb a t
    rw [joinAdd_other h1 h2] at hw ⊢
    refine ⟨ha, ht, by decide, fun e1 e2 => ⟨by simp, ?_⟩⟩
    have := ib_le_pb (.bin .add a t) (by rw [ty_add, e1, e2]; rfl)
    omega

theorem mulOk_int {t : T α} (h : MulOk t) (hi : ty t = .int) : ib t ≤ 1 := by
  induction t using MulOk.induct with
  | case1 t1 t2 ih =>
    obtain ⟨a, b⟩ := join_int hi
    have h1 := ih h.1 a
    have h2 := h.2 b
    calc ib t1 * ib t2 ≤ 1 * 1 := Nat.mul_le_mul h1 h2
      _ = 1 := rfl
  | case2 t1 t2 ih =>
    obtain ⟨a, b⟩ := join_int hi
    rw [h.2 a] at b; cases b
  | case3 t h1 h2 => exact (mulOk_other h1 h2).mp h hi

theorem joinMul_mulOk {a t : T α} (ha : MulOk a) (ht : MulOk t) : MulOk (joinMul a t) := by
  induction t using joinMul.induct with
  | case1 t1 t2 ih => exact ⟨ih ht.1, ht.2⟩
  | case2 t1 t2 ih => exact ⟨ih ht.1, fun h => ht.2 (join_int ((joinMul_ty _ _).symm.trans h)).2⟩
  | case3 t h1 h2 =>
    rw [joinMul_other h1 h2]
    exact ⟨ha, (mulOk_other h1 h2).mp ht⟩

theorem joinMul_fits {a t : T α} (ha : Fits a) (ht : Fits t) (ma : MulOk a) (mt : MulOk t) : Fits (joinMul a t) := by
  induction t using joinMul.induct with
  | case1 t1 t2 ih =>
    have hw : MulOk (.bin .mul (joinMul a t1) t2) := joinMul_mulOk ma mt
    refine ⟨ih ht.1 mt.1, ht.2.1, by decide, fun e1 e2 => ⟨by simp, ?_⟩⟩
    have := mulOk_int hw (by rw [ty_mul, e1, e2]; rfl)
    omega
  | case2 t1 t2 ih =>
    refine ⟨ih ht.1 mt.1, ht.2.1, by decide, fun e1 e2 => ?_⟩
    rw [mt.2 (join_int ((joinMul_ty _ _).symm.trans e1)).2] at e2; cases e2
  | case3 t h1 h2 =>
    have hw := joinMul_mulOk ma mt
    rw [joinMul_other h1 h2] at hw ⊢
    refine ⟨ha, ht, by decide, fun e1 e2 => ⟨by simp, ?_⟩⟩
    have := mulOk_int hw (by rw [ty_mul, e1, e2]; rfl)
    omega

theorem negT_mulOk {t : T α} (h : MulOk t) : MulOk (negT t) := by
  induction t using negT.induct with
  | case1 t1 t2 ih => exact ⟨ih h.1, h.2⟩
  | case2 t1 t2 ih => exact ⟨ih h.1, fun h' => h.2 (by rw [negT_ty] at h'; exact h')⟩
  | case3 t h1 h2 =>
    rw [negT_other h1 h2]
    exact (mulOk_other h1 h2).mp h

theorem negT_fits {t : T α} (h : Fits t) (m : MulOk t) : Fits (negT t) := by
  induction t using negT.induct with
  | case1 t1 t2 ih =>
    have hw : MulOk (.bin .mul (negT t1) t2) := negT_mulOk m
    refine ⟨ih h.1 m.1, h.2.1, by decide, fun e1 e2 => ⟨by simp, ?_⟩⟩
    have := mulOk_int hw (by rw [ty_mul, e1, e2]; rfl)
    omega
  | case2 t1 t2 ih =>
    refine ⟨ih h.1 m.1, h.2.1, by decide, fun e1 e2 => ?_⟩
    rw [negT_ty] at e1
    rw [m.2 e1] at e2; cases e2
  | case3 t h1 h2 =>
    rw [negT_other h1 h2]
    refine ⟨h, fun e => ?_⟩
    have := mulOk_int m e
    omega

theorem negT_ib (t : T α) : ib (negT t) = ib t := by
  induction t using negT.induct with
  | case1 t1 t2 ih => simp only [negT, ib, ih]
  | case2 t1 t2 ih => simp only [negT, ib, ih]
  | case3 t h1 h2 => rw [negT_other h1 h2]; rfl

/-! ### parameters -/

theorem magLit_int {I : Interp α} {v : α} (h : ty (.num (magLit I v)) = .int) : v = I.zero ∨ v = I.one := by
  unfold magLit at h
  by_cases h0 : v = I.zero
  · exact .inl h0
  · by_cases h1 : v = I.one
    · exact .inr h1
    · simp [h0, h1, ty] at h

theorem paramTree_int {I : Interp α} {v : α} (h : ty (paramTree I v) = .int) : intConst I v = true := by
  unfold paramTree at h
  by_cases hn : nonneg I v = true
  · rw [if_pos hn] at h
    rcases magLit_int h with h | h <;> simp [intConst, h]
  · rw [if_neg hn] at h
    rcases magLit_int h with h | h <;> simp [intConst, h]

theorem paramTree_ib (I : Interp α) (v : α) : ib (paramTree I v) ≤ 1 := by
  unfold paramTree
  split
  · unfold magLit; split
    · simp [ib]
    · split <;> simp [ib]
  · unfold magLit; split
    · simp [ib]
    · split <;> simp [ib]

theorem paramTree_fits (I : Interp α) (v : α) : Fits (paramTree I v) := by
  have hm : ∀ w, Fits (.num (magLit I w) : T α) := by
    intro w
    unfold magLit; split
    · simp [Fits]
    · split <;> simp [Fits]
  have := paramTree_ib I v
  unfold paramTree at this ⊢
  split
  · exact hm _
  · rename_i h
    rw [if_neg h] at this
    exact ⟨hm _, fun _ => by simp only [ib] at this ⊢; omega⟩

theorem paramTree_mulOk (I : Interp α) (v : α) : MulOk (paramTree I v) := by
  rw [mulOk_other]
  · intro _; exact paramTree_ib I v
  · intro _ _; unfold paramTree; split <;> simp
  · intro _ _; unfold paramTree; split <;> simp

theorem paramTree_pb (I : Interp α) (v : α) : pb (paramTree I v) ≤ 1 := by
  rw [pb_other]
  · unfold ibi; split
    · exact paramTree_ib I v
    · omega
  · intro _ _; unfold paramTree; split <;> simp
  · intro _ _; unfold paramTree; split <;> simp

theorem intConst_neg {A : Arith α} (L : SignLaws A) {v : α} (h : intConst A.I (A.I.neg v) = true) : intConst A.I v = true := by
  simp only [intConst, Bool.or_eq_true, decide_eq_true_eq] at h ⊢
  rw [L.neg_neg] at h
  rcases h with ((h | h) | h) | h <;> simp [h]

theorem negParam_some {I : Interp α} {e : Expr α} {v : α} (h : negParam I e = some v) : e = .const v ∧ nonneg I v = false := by
  cases e <;> simp only [negParam, reduceCtorEq] at h
  rename_i w
  by_cases hn : nonneg I w = true
  · rw [if_pos hn] at h; cases h
  · rw [if_neg hn] at h; cases h
    exact ⟨rfl, by simpa using hn⟩

theorem enclosedT_ty (b : Bool) (t : T α) : ty (enclosedT b t) = ty t := by cases b <;> rfl
theorem enclosedT_ib (b : Bool) (t : T α) : ib (enclosedT b t) = ib t := by cases b <;> rfl
theorem enclosedT_fits {b : Bool} {t : T α} (h : Fits t) : Fits (enclosedT b t) := by cases b <;> exact h

/-! ### expressions -/

theorem ptree_int {A : Arith α} (L : SignLaws A) (N : Names) (e : Expr α) (h : ty (ptree A.I N e) = .int) : isInt A.I e = true := by
  induction e with
  | const v => exact paramTree_int h
  | var n => cases n <;> simp [ptree, nameTree, ty] at h
  | un f a ih => simp [ptree, ty] at h
  | pow a b iha ihb => simp [ptree, ty] at h
  | add a b iha ihb =>
    simp only [ptree] at h
    cases hb : negParam A.I b with
    | none =>
      rw [hb] at h
      obtain ⟨h1, h2⟩ := join_int ((joinAdd_ty _ _).symm.trans h)
      simp [isInt, iha h1, ihb h2]
    | some v =>
      rw [hb] at h
      obtain ⟨h1, h2⟩ := join_int h
      obtain ⟨rfl, _⟩ := negParam_some hb
      simp [isInt, iha h1, intConst_neg L (paramTree_int h2)]
  | sub a b iha ihb =>
    simp only [ptree] at h
    cases hb : negParam A.I b with
    | none =>
      rw [hb] at h
      obtain ⟨h1, h2⟩ := join_int h
      rw [enclosedT_ty] at h2
      simp [isInt, iha h1, ihb h2]
    | some v =>
      rw [hb] at h
      obtain ⟨h1, h2⟩ := join_int ((joinAdd_ty _ _).symm.trans h)
      obtain ⟨rfl, _⟩ := negParam_some hb
      simp [isInt, iha h1, intConst_neg L (paramTree_int h2)]
  | mul a b iha ihb =>
    obtain ⟨h1, h2⟩ := join_int ((joinMul_ty _ _).symm.trans h)
    rw [enclosedT_ty] at h1 h2
    simp [isInt, iha h1, ihb h2]
  | div a b iha ihb =>
    obtain ⟨h1, h2⟩ := join_int h
    rw [enclosedT_ty] at h1 h2
    simp [isInt, iha h1, ihb h2]
  | neg a ih =>
    simp only [ptree] at h
    rw [negT_ty, enclosedT_ty] at h
    exact ih h
  | sgn n => rfl
  | ali a ih => exact ih h
  | asg a ih => exact ih h

theorem signTree_ib (I : Interp α) (n : T α) : ib (signTree I n) ≤ 1 := by
  have h1 := paramTree_ib I I.one
  have h2 := paramTree_ib I I.negOne
  have h3 := paramTree_ib I I.zero
  simp only [signTree, ib]; omega

/-- an `int` operand is bounded by one -/
theorem int_ib (I : Interp α) (N : Names) (e : Expr α) (hs : intSafe I e = true) (hi : isInt I e = true) : ib (ptree I N e) ≤ 1 := by
  induction e with
  | const v => exact paramTree_ib I v
  | var n => simp [isInt] at hi
  | un f a ih => simp [isInt] at hi
  | pow a b iha ihb => simp [isInt] at hi
  | add a b iha ihb => simp_all [intSafe, isInt]
  | sub a b iha ihb => simp_all [intSafe, isInt]
  | mul a b iha ihb => simp_all [intSafe, isInt]
  | div a b iha ihb => simp_all [intSafe, isInt]
  | neg a ih =>
    simp only [ptree]
    rw [negT_ib, enclosedT_ib]
    exact ih hs hi
  | sgn n => exact signTree_ib I _
  | ali a ih => exact ih hs hi
  | asg a ih => exact ih hs hi

theorem leaves_pos (e : Expr α) : 1 ≤ leaves e := by
  induction e <;> simp only [leaves] <;> omega

/-- the `int`s in a printed expression stay small -/
theorem ptree_fits {A : Arith α} (L : SignLaws A) (N : Names) (e : Expr α) (hs : intSafe A.I e = true) (hl : leaves e < 2 ^ 31) :
    Fits (ptree A.I N e) ∧ pb (ptree A.I N e) ≤ leaves e ∧ (encloseMul e = false → MulOk (ptree A.I N e)) := by
  have intle : ∀ e : Expr α, intSafe A.I e = true → ty (ptree A.I N e) = .int → ib (ptree A.I N e) ≤ 1 :=
    fun e h1 h2 => int_ib A.I N e h1 (ptree_int L N e h2)
  have encMul : ∀ e : Expr α, intSafe A.I e = true → (encloseMul e = false → MulOk (ptree A.I N e)) →
      MulOk (enclosedT (encloseMul e) (ptree A.I N e)) := by
    intro e h1 h2
    cases hb : encloseMul e with
    | false => exact h2 hb
    | true => exact fun h => intle e h1 h
  have ibile : ∀ (e : Expr α) (b : Bool), intSafe A.I e = true → ibi (enclosedT b (ptree A.I N e)) ≤ leaves e := by
    intro e b h1
    have := leaves_pos e
    unfold ibi
    split
    · rename_i h
      rw [enclosedT_ty] at h; rw [enclosedT_ib]
      have := intle e h1 h
      omega
    · omega
  have dbl : ∀ e : Expr α, isInt A.I e = false → ty (ptree A.I N e) = .double := by
    intro e h
    cases ht : ty (ptree A.I N e) with
    | double => rfl
    | int => rw [ptree_int L N e ht] at h; cases h
  have pbi : ∀ t : T α, t.ok 6 → pb t = ibi t := by
    intro t ht
    apply pb_other
    · rintro a b rfl; exact absurd ht.1 (by decide)
    · rintro a b rfl; exact absurd ht.1 (by decide)
  have noMul : ∀ t : T α, t.ok 7 → (ty t = .int → ib t ≤ 1) → MulOk t := by
    intro t ht h
    rw [mulOk_other]
    · exact h
    · rintro a b rfl; exact absurd ht.1 (by decide)
    · rintro a b rfl; exact absurd ht.1 (by decide)
  induction e with
  | const v => exact ⟨paramTree_fits A.I v, paramTree_pb A.I v, fun _ => paramTree_mulOk A.I v⟩
  | var n =>
    cases n <;> exact ⟨trivial, by simp [ptree, nameTree, pb, ibi, ty], fun _ h => by cases h⟩
  | un f a ih =>
    obtain ⟨h1, h2, h3⟩ := ih hs hl
    exact ⟨h1, by simp [ptree, pb, ibi, ty], fun _ h => by cases h⟩
  | pow a b iha ihb =>
    simp only [intSafe, Bool.and_eq_true] at hs
    simp only [leaves] at hl
    exact ⟨⟨(iha hs.1 (by omega)).1, (ihb hs.2 (by omega)).1⟩, by simp [ptree, pb, ibi, ty], fun _ h => by cases h⟩
  | add a b iha ihb =>
    simp only [intSafe, Bool.and_eq_true] at hs
    simp only [leaves] at hl
    obtain ⟨a1, a2, _⟩ := iha hs.1.1 (by omega)
    obtain ⟨b1, b2, _⟩ := ihb hs.1.2 (by omega)
    refine ⟨?_, ?_, fun h => by simp [encloseMul, strip] at h⟩
    · simp only [ptree]
      cases hb : negParam A.I b with
      | none => exact joinAdd_fits a1 b1 (by omega)
      | some v =>
        refine ⟨a1, paramTree_fits _ _, by decide, fun e1 e2 => ?_⟩
        obtain ⟨rfl, _⟩ := negParam_some hb
        have h1 := ptree_int L N a e1
        have h2 := intConst_neg L (paramTree_int e2)
        have h3 := hs.2
        simp [h1, isInt, h2] at h3
    · simp only [ptree, leaves]
      cases hb : negParam A.I b with
      | none => simp only; rw [joinAdd_pb]; omega
      | some v =>
        simp only [pb, ibi]
        have := paramTree_ib A.I (A.I.neg v)
        have := leaves_pos b
        split <;> omega
  | sub a b iha ihb =>
    simp only [intSafe, Bool.and_eq_true] at hs
    simp only [leaves] at hl
    obtain ⟨a1, a2, _⟩ := iha hs.1.1 (by omega)
    obtain ⟨b1, b2, _⟩ := ihb hs.1.2 (by omega)
    refine ⟨?_, ?_, fun h => by simp [encloseMul, strip] at h⟩
    · simp only [ptree]
      cases hb : negParam A.I b with
      | none =>
        refine ⟨a1, enclosedT_fits b1, by decide, fun e1 e2 => ?_⟩
        rw [enclosedT_ty] at e2
        have h3 := hs.2
        simp [ptree_int L N a e1, ptree_int L N b e2] at h3
      | some v =>
        have := paramTree_pb A.I (A.I.neg v)
        have := leaves_pos b
        exact joinAdd_fits a1 (paramTree_fits _ _) (by omega)
    · simp only [ptree, leaves]
      cases hb : negParam A.I b with
      | none =>
        simp only [pb]
        have := ibile b (encloseMul b) hs.1.2
        omega
      | some v =>
        simp only
        rw [joinAdd_pb]
        have := paramTree_pb A.I (A.I.neg v)
        have := leaves_pos b
        omega
  | mul a b iha ihb =>
    simp only [intSafe, Bool.and_eq_true] at hs
    simp only [leaves] at hl
    obtain ⟨a1, a2, a3⟩ := iha hs.1.1 (by omega)
    obtain ⟨b1, b2, b3⟩ := ihb hs.1.2 (by omega)
    have m1 := encMul a hs.1.1 a3
    have m2 := encMul b hs.1.2 b3
    refine ⟨joinMul_fits (enclosedT_fits a1) (enclosedT_fits b1) m1 m2, ?_, fun _ => joinMul_mulOk m1 m2⟩
    rw [pbi _ ((ptree_ok A.I N (.mul a b)).2.1 rfl), ibi, dbl _ (by simpa only [isInt, Bool.not_eq_true'] using hs.2)]
    simp
  | div a b iha ihb =>
    simp only [intSafe, Bool.and_eq_true] at hs
    simp only [leaves] at hl
    obtain ⟨a1, a2, a3⟩ := iha hs.1.1 (by omega)
    obtain ⟨b1, b2, b3⟩ := ihb hs.1.2 (by omega)
    refine ⟨⟨enclosedT_fits a1, enclosedT_fits b1, by decide, fun e1 e2 => ?_⟩, ?_, fun _ => ?_⟩
    · rw [enclosedT_ty] at e1 e2
      have h3 := hs.2
      simp [ptree_int L N a e1, ptree_int L N b e2] at h3
    · rw [pbi _ ((ptree_ok A.I N (.div a b)).2.1 rfl), ibi, dbl _ (by simpa only [isInt, Bool.not_eq_true'] using hs.2)]
      simp
    · have encDiv : MulOk (enclosedT (encloseDiv a) (ptree A.I N a)) := by
        cases hb : encloseDiv a with
        | true => exact fun h => intle a hs.1.1 h
        | false => exact noMul _ ((ptree_ok A.I N a).2.2 hb) (fun h => intle a hs.1.1 h)
      refine ⟨encDiv, fun h => ?_⟩
      rw [enclosedT_ty] at h ⊢
      apply dbl
      have h3 := hs.2
      simpa [ptree_int L N a h] using h3
  | neg a ih =>
    obtain ⟨h1, h2, h3⟩ := ih hs hl
    have m := encMul a hs h3
    refine ⟨negT_fits (enclosedT_fits h1) m, ?_, fun h => by simp [encloseMul, strip] at h⟩
    have h6 : (ptree A.I N (.neg a)).ok 6 := by
      simp only [ptree]
      apply negT_ok
      cases hb : encloseMul a with
      | false => exact (ptree_ok A.I N a).2.1 hb
      | true => exact Tree.ok_mono (m := 0) (ptree_ok A.I N a).1 (by omega)
    rw [pbi _ h6, ibi]
    split
    · rename_i h
      have := intle (.neg a) hs h
      have := leaves_pos (.neg a)
      omega
    · omega
  | sgn n =>
    have hp := fun v => paramTree_fits A.I v
    have hn : Fits (nameTree N n : T α) := by cases n <;> trivial
    refine ⟨⟨rfl, hn, hp _, hp _, rfl, hn, hp _, hp _, hp _⟩, ?_, fun h => by simp [encloseMul, strip] at h⟩
    have := signTree_ib A.I (nameTree N n)
    simp only [ptree, leaves]
    rw [pb_other (by simp [signTree]) (by simp [signTree]), ibi]
    split <;> omega
  | ali a ih =>
    obtain ⟨h1, h2, h3⟩ := ih hs hl
    exact ⟨h1, h2, h3⟩
  | asg a ih =>
    obtain ⟨h1, h2, h3⟩ := ih hs hl
    exact ⟨h1, h2, fun h => by simp [encloseMul, strip] at h⟩

end Verif.Print
