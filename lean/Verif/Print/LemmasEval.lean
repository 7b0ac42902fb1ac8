import Verif.Print.LemmasFit

/-! The value of the printed expression is the value of the recorded expression. -/
namespace Verif.Print

open Verif.CExpr
open Verif.Codegen (Interp Fn Cmp Name Expr Stmt Env)

variable {α : Type} [DecidableEq α]

/-- the arrays hold the values of the variables -/
def Rel (N : Names) (env : Env α) (c : CEnv α) : Prop :=
  ∀ i, c.arr N.x i = env (.x i) ∧ c.arr N.y i = env (.y i) ∧ c.arr N.v i = env (.v i)

theorem rval_paramTree {A : Arith α} (L : SignLaws A) (c : CEnv α) (v : α) : rval A c (paramTree A.I v) = some v := by
  have hm : ∀ w, rval A c (.num (magLit A.I w)) = some w := by
    intro w
    unfold magLit
    by_cases h0 : w = A.I.zero
    · rw [if_pos h0, h0]; simp [rval, L.ofInt_zero]
    · rw [if_neg h0]
      by_cases h1 : w = A.I.one
      · rw [if_pos h1, h1]; simp [rval, L.ofInt_one]
      · rw [if_neg h1]; rfl
  unfold paramTree
  split
  · exact hm v
  · simp only [rval, hm, Option.map_some, L.neg_neg]

theorem rval_nameTree {A : Arith α} {N : Names} {env : Env α} {c : CEnv α} (h : Rel N env c) (n : Name) :
    rval A c (nameTree N n) = env n := by
  cases n with
  | x i => simp [nameTree, rval, CEnv.pos, (h i).1]
  | y i => simp [nameTree, rval, CEnv.pos, (h i).2.1]
  | v i => simp [nameTree, rval, CEnv.pos, (h i).2.2]

/-- lifted binary operation -/
def lift2 (f : α → α → α) : Option α → Option α → Option α
  | some u, some w => some (f u w)
  | _, _ => none

theorem lift2_do (f : α → α → α) (a b : Option α) : (do let u ← a; let w ← b; pure (f u w)) = lift2 f a b := by
  cases a <;> cases b <;> rfl

theorem rval_add (A : Arith α) (c : CEnv α) (a b : T α) : rval A c (.bin .add a b) = lift2 A.I.add (rval A c a) (rval A c b) := by
  simp only [rval]; cases rval A c a <;> cases rval A c b <;> rfl
theorem rval_sub (A : Arith α) (c : CEnv α) (a b : T α) : rval A c (.bin .sub a b) = lift2 A.I.sub (rval A c a) (rval A c b) := by
  simp only [rval]; cases rval A c a <;> cases rval A c b <;> rfl
theorem rval_mul (A : Arith α) (c : CEnv α) (a b : T α) : rval A c (.bin .mul a b) = lift2 A.I.mul (rval A c a) (rval A c b) := by
  simp only [rval]; cases rval A c a <;> cases rval A c b <;> rfl
theorem rval_div (A : Arith α) (c : CEnv α) (a b : T α) : rval A c (.bin .div a b) = lift2 A.I.div (rval A c a) (rval A c b) := by
  simp only [rval]; cases rval A c a <;> cases rval A c b <;> rfl

theorem rval_joinAdd {A : Arith α} (c : CEnv α) (a t : T α) (h : AssocLaws A.I ∨ t.ok 6) :
    rval A c (joinAdd a t) = lift2 A.I.add (rval A c a) (rval A c t) := by
  rcases h with H | h
  · induction t using joinAdd.induct with
    | case1 t1 t2 ih =>
      rw [joinAdd, rval_add, rval_add, ih]
      cases rval A c a <;> cases rval A c t1 <;> cases rval A c t2 <;> simp [lift2, H.add_add]
    | case2 t1 t2 ih =>
      rw [joinAdd, rval_sub, rval_sub, ih]
      cases rval A c a <;> cases rval A c t1 <;> cases rval A c t2 <;> simp [lift2, H.add_sub]
    | case3 t h1 h2 => rw [joinAdd_other h1 h2, rval_add]
  · rw [joinAdd_other, rval_add]
    · rintro t1 t2 rfl; exact absurd h.1 (by decide)
    · rintro t1 t2 rfl; exact absurd h.1 (by decide)

theorem rval_joinMul {A : Arith α} (c : CEnv α) (a t : T α) (h : AssocLaws A.I ∨ t.ok 7) :
    rval A c (joinMul a t) = lift2 A.I.mul (rval A c a) (rval A c t) := by
  rcases h with H | h
  · induction t using joinMul.induct with
    | case1 t1 t2 ih =>
      rw [joinMul, rval_mul, rval_mul, ih]
      cases rval A c a <;> cases rval A c t1 <;> cases rval A c t2 <;> simp [lift2, H.mul_mul]
    | case2 t1 t2 ih =>
      rw [joinMul, rval_div, rval_div, ih]
      cases rval A c a <;> cases rval A c t1 <;> cases rval A c t2 <;> simp [lift2, H.mul_div]
    | case3 t h1 h2 => rw [joinMul_other h1 h2, rval_mul]
  · rw [joinMul_other, rval_mul]
    · rintro t1 t2 rfl; exact absurd h.1 (by decide)
    · rintro t1 t2 rfl; exact absurd h.1 (by decide)

theorem rval_negT {A : Arith α} (L : SignLaws A) (c : CEnv α) (t : T α) : rval A c (negT t) = (rval A c t).map A.I.neg := by
  induction t using negT.induct with
  | case1 t1 t2 ih =>
    rw [negT, rval_mul, rval_mul, ih]
    cases rval A c t1 <;> cases rval A c t2 <;> simp [lift2, L.neg_mul]
  | case2 t1 t2 ih =>
    rw [negT, rval_div, rval_div, ih]
    cases rval A c t1 <;> cases rval A c t2 <;> simp [lift2, L.neg_div]
  | case3 t h1 h2 => rw [negT_other h1 h2]; rfl

theorem rval_enclosedT (A : Arith α) (c : CEnv α) (b : Bool) (t : T α) : rval A c (enclosedT b t) = rval A c t := by
  cases b <;> rfl

theorem mathFn_fnName (f : Fn) : mathFn (fnName f) = some f := by cases f <;> rfl

theorem ok6_of_not_sum (I : Interp α) (N : Names) (e : Expr α) (h : isSum e = false) : (ptree I N e).ok 6 := by
  have hk := ptree_ok I N e
  induction e with
  | const v => exact hk.2.1 rfl
  | var n => exact hk.2.1 rfl
  | un f a ih => exact hk.2.1 rfl
  | pow a b iha ihb => exact hk.2.1 rfl
  | add a b iha ihb => simp [isSum] at h
  | sub a b iha ihb => simp [isSum] at h
  | mul a b iha ihb => exact hk.2.1 rfl
  | div a b iha ihb => exact hk.2.1 rfl
  | neg a ih =>
    simp only [ptree]
    apply negT_ok
    cases hb : encloseMul a with
    | false => exact (ptree_ok I N a).2.1 hb
    | true => exact Tree.ok_mono (m := 0) (ptree_ok I N a).1 (by omega)
  | sgn n => exact hk.1
  | ali a ih => exact ih h (ptree_ok I N a)
  | asg a ih => exact ih h (ptree_ok I N a)

theorem ok7_of_not_prod (I : Interp α) (N : Names) (e : Expr α) (h : isProd e = false) :
    (enclosedT (encloseMul e) (ptree I N e)).ok 7 := by
  cases hb : encloseMul e with
  | true => exact Tree.ok_mono (m := 0) (ptree_ok I N e).1 (by omega)
  | false =>
    show (ptree I N e).ok 7
    apply (ptree_ok I N e).2.2
    induction e with
    | mul a b => simp [isProd] at h
    | div a b => simp [isProd] at h
    | ali a ih => exact ih h hb
    | _ => simp_all [encloseMul, encloseDiv, strip]

/-- the value of the printed expression -/
theorem rval_ptree {A : Arith α} (L : SignLaws A) (N : Names) {env : Env α} {c : CEnv α} (hr : Rel N env c) (e : Expr α)
    (hg : AssocLaws A.I ∨ grouped e = true) : rval A c (ptree A.I N e) = e.eval A.I env := by
  induction e with
  | const v => exact rval_paramTree L c v
  | var n => exact rval_nameTree hr n
  | un f a ih =>
    have := ih hg
    simp only [ptree, rval, mathFn_fnName, this, Expr.eval]
    cases a.eval A.I env <;> rfl
  | pow a b iha ihb =>
    have h1 := iha (hg.imp id fun h => by simp only [grouped, Bool.and_eq_true] at h; exact h.1)
    have h2 := ihb (hg.imp id fun h => by simp only [grouped, Bool.and_eq_true] at h; exact h.2)
    simp only [ptree, rval, if_true, h1, h2, Expr.eval, lift2_do]
    cases a.eval A.I env <;> cases b.eval A.I env <;> rfl
  | add a b iha ihb =>
    have h1 := iha (hg.imp id fun h => by simp only [grouped, Bool.and_eq_true] at h; exact h.1.1)
    have h2 := ihb (hg.imp id fun h => by simp only [grouped, Bool.and_eq_true] at h; exact h.1.2)
    simp only [ptree, Expr.eval, lift2_do]
    cases hb : negParam A.I b with
    | none =>
      simp only
      rw [rval_joinAdd, h1, h2]
      exact hg.imp id fun h => ok6_of_not_sum _ _ _ (by simp only [grouped, Bool.and_eq_true, Bool.not_eq_true'] at h; exact h.2)
    | some v =>
      obtain ⟨rfl, _⟩ := negParam_some hb
      simp only
      rw [rval_sub, rval_paramTree L, h1]
      cases a.eval A.I env <;> simp [lift2, Expr.eval, L.add_neg]
  | sub a b iha ihb =>
    have h1 := iha (hg.imp id fun h => by simp only [grouped, Bool.and_eq_true] at h; exact h.1)
    have h2 := ihb (hg.imp id fun h => by simp only [grouped, Bool.and_eq_true] at h; exact h.2)
    simp only [ptree, Expr.eval, lift2_do]
    cases hb : negParam A.I b with
    | none =>
      simp only
      rw [rval_sub, rval_enclosedT, h1, h2]
    | some v =>
      obtain ⟨rfl, _⟩ := negParam_some hb
      simp only
      rw [rval_joinAdd, rval_paramTree L, h1]
      · cases a.eval A.I env <;> simp [lift2, Expr.eval, L.sub_neg]
      · exact .inr (Tree.ok_mono (paramTree_ok _ _) (by omega))
  | mul a b iha ihb =>
    have h1 := iha (hg.imp id fun h => by simp only [grouped, Bool.and_eq_true] at h; exact h.1.1)
    have h2 := ihb (hg.imp id fun h => by simp only [grouped, Bool.and_eq_true] at h; exact h.1.2)
    simp only [ptree, Expr.eval, lift2_do]
    rw [rval_joinMul, rval_enclosedT, rval_enclosedT, h1, h2]
    exact hg.imp id fun h => ok7_of_not_prod _ _ _ (by simp only [grouped, Bool.and_eq_true, Bool.not_eq_true'] at h; exact h.2)
  | div a b iha ihb =>
    have h1 := iha (hg.imp id fun h => by simp only [grouped, Bool.and_eq_true] at h; exact h.1)
    have h2 := ihb (hg.imp id fun h => by simp only [grouped, Bool.and_eq_true] at h; exact h.2)
    simp only [ptree, Expr.eval, lift2_do]
    rw [rval_div, rval_enclosedT, rval_enclosedT, h1, h2]
  | neg a ih =>
    have := ih hg
    simp only [ptree, Expr.eval]
    rw [rval_negT L, rval_enclosedT, this]
  | sgn n =>
    have hp := fun v => rval_paramTree L c v
    have hn := rval_nameTree (A := A) hr n
    simp only [ptree, signTree, rval, cmpOf, hp, hn, Expr.eval]
    cases env n with
    | none => rfl
    | some u =>
      simp only [Option.map_some]
      split
      · rfl
      · split <;> rfl
  | ali a ih => exact ih hg
  | asg a ih => exact ih hg

end Verif.Print
