import Verif.Dae.ModelTape
import Mathlib.Analysis.Calculus.Deriv.Add
import Mathlib.Analysis.Calculus.Deriv.Mul
import Mathlib.Analysis.Calculus.Deriv.Comp
import Mathlib.Tactic.Ring
/-
Helper lemmas C78: expressions.
-/
namespace Verif.Dae.Tape
open Verif.Dae.Remove

variable {U : Type}

/-- what the variables are replaced by -/
def prep (vs : List VarOut) (T j : Nat) : Ex U :=
  match (vs[j]?).bind VarOut.der with
  | some u => .tv j u T
  | none => .var j

/-- `subst` with a function -/
def subst' (σ : Nat → Ex U) : Ex U → Ex U
  | .const c => .const c
  | .var k => σ k
  | .add a b => .add (subst' σ a) (subst' σ b)
  | .mul a b => .mul (subst' σ a) (subst' σ b)
  | .un u a => .un u (subst' σ a)
  | .tv x dx t => .tv x dx t

theorem subst_eq {σ : List (Ex U)} {τ : Nat → Ex U} : ∀ {e : Ex U}, (∀ k ∈ e.occ, σ[k]? = some (τ k)) → subst σ e = subst' τ e
  | .const _, _ => rfl
  | .var k, h => by
    have := h k (by simp [Ex.occ])
    simp only [subst, subst', this, Option.getD_some]
  | .add a b, h => by
    simp only [Ex.occ, List.mem_append] at h
    simp only [subst, subst', subst_eq fun k hk => h k (.inl hk), subst_eq fun k hk => h k (.inr hk)]
  | .mul a b, h => by
    simp only [Ex.occ, List.mem_append] at h
    simp only [subst, subst', subst_eq fun k hk => h k (.inl hk), subst_eq fun k hk => h k (.inr hk)]
  | .un u a, h => by
    simp only [subst, subst', subst_eq (e := a) h]
  | .tv _ _ _, _ => rfl

theorem subst'_var : ∀ e : Ex U, subst' .var e = e
  | .const _ => rfl
  | .var _ => rfl
  | .add a b => by simp only [subst', subst'_var a, subst'_var b]
  | .mul a b => by simp only [subst', subst'_var a, subst'_var b]
  | .un _ a => by simp only [subst', subst'_var a]
  | .tv _ _ _ => rfl

theorem fwd_prep (vs : List VarOut) (T j : Nat) : fwd (prep (U := U) vs T j) = .var j := by
  unfold prep
  cases (vs[j]?).bind VarOut.der <;> rfl

theorem fwd_subst (vs : List VarOut) (T : Nat) : ∀ {e : Ex U}, e.Plain → fwd (subst' (prep vs T) e) = e
  | .const _, _ => rfl
  | .var k, _ => fwd_prep vs T k
  | .add a b, h => by simp only [subst', fwd, fwd_subst vs T h.1, fwd_subst vs T h.2]
  | .mul a b, h => by simp only [subst', fwd, fwd_subst vs T h.1, fwd_subst vs T h.2]
  | .un _ a, h => by simp only [subst', fwd, fwd_subst vs T (e := a) h]
  | .tv _ _ _, h => h.elim

/-- the derivative with respect to time -/
def dt (d : U → U) (vs : List VarOut) (T : Nat) (e : Ex U) : Ex U :=
  if isParam (subst' (prep vs T) e) then .const 0 else rev d T (.const 1) (subst' (prep vs T) e)

/-! ### which variables occur -/

theorem rev_plain (d : U → U) (vs : List VarOut) (T : Nat) : ∀ {e p : Ex U}, e.Plain → p.Plain → (rev d T p (subst' (prep vs T) e)).Plain
  | .const _, _, _, _ => trivial
  | .var k, p, _, hp => by
    simp only [subst', prep]
    cases (vs[k]?).bind VarOut.der with
    | none => simp only [rev]; split <;> [exact hp; trivial]
    | some u =>
      simp only [rev, timeDiffReverse, Ex.Plain]
      refine ⟨?_, ?_, ?_⟩ <;> split <;> simp [Ex.Plain, hp]
  | .add a b, p, h, hp => ⟨rev_plain d vs T h.1 hp, rev_plain d vs T h.2 hp⟩
  | .mul a b, p, h, hp => by
    simp only [subst', rev, fwd_subst vs T h.1, fwd_subst vs T h.2]
    exact ⟨rev_plain d vs T h.1 ⟨hp, h.2⟩, rev_plain d vs T h.2 ⟨hp, h.1⟩⟩
  | .un u a, p, h, hp => by
    simp only [subst', rev, fwd_subst vs T (e := a) h]
    exact rev_plain d vs T (e := a) h ⟨hp, h⟩
  | .tv _ _ _, _, h, _ => h.elim

theorem dt_plain (d : U → U) (vs : List VarOut) (T : Nat) {e : Ex U} (h : e.Plain) : (dt d vs T e).Plain := by
  unfold dt
  split
  · trivial
  · exact rev_plain d vs T h trivial

theorem rev_occ (d : U → U) (vs : List VarOut) (T : Nat) : ∀ {e p : Ex U}, e.Plain → ∀ k ∈ (rev d T p (subst' (prep vs T) e)).occ,
    k ∈ p.occ ∨ k ∈ e.occ ∨ ∃ j ∈ e.occ, (vs[j]?).bind VarOut.der = some k
  | .const _, _, _, k, hk => by simp [subst', rev, Ex.occ] at hk
  | .var j, p, _, k, hk => by
    simp only [subst', prep] at hk
    cases hd : (vs[j]?).bind VarOut.der with
    | none =>
      rw [hd] at hk
      simp only [rev] at hk
      split at hk
      · exact .inl hk
      · simp [Ex.occ] at hk
    | some u =>
      rw [hd] at hk
      simp only [rev, timeDiffReverse, Ex.occ, List.mem_append] at hk
      rcases hk with hk | hk | hk
      · split at hk
        · simp only [Ex.occ, List.append_nil] at hk; exact .inl hk
        · simp [Ex.occ] at hk
      · split at hk <;> simp [Ex.occ] at hk
      · split at hk
        · simp only [Ex.occ, List.mem_append, List.mem_singleton] at hk
          rcases hk with hk | rfl
          · exact .inl hk
          · exact .inr (.inr ⟨j, by simp [Ex.occ], hd⟩)
        · simp [Ex.occ] at hk
  | .add a b, p, h, k, hk => by
    simp only [subst', rev, Ex.occ, List.mem_append] at hk ⊢
    rcases hk with hk | hk
    · rcases rev_occ d vs T h.1 k hk with x | x | ⟨j, x, y⟩
      · exact .inl x
      · exact .inr (.inl (.inl x))
      · exact .inr (.inr ⟨j, .inl x, y⟩)
    · rcases rev_occ d vs T h.2 k hk with x | x | ⟨j, x, y⟩
      · exact .inl x
      · exact .inr (.inl (.inr x))
      · exact .inr (.inr ⟨j, .inr x, y⟩)
  | .mul a b, p, h, k, hk => by
    simp only [subst', rev, fwd_subst vs T h.1, fwd_subst vs T h.2, Ex.occ, List.mem_append] at hk ⊢
    rcases hk with hk | hk
    · rcases rev_occ d vs T h.1 k hk with x | x | ⟨j, x, y⟩
      · simp only [Ex.occ, List.mem_append] at x
        rcases x with x | x
        · exact .inl x
        · exact .inr (.inl (.inr x))
      · exact .inr (.inl (.inl x))
      · exact .inr (.inr ⟨j, .inl x, y⟩)
    · rcases rev_occ d vs T h.2 k hk with x | x | ⟨j, x, y⟩
      · simp only [Ex.occ, List.mem_append] at x
        rcases x with x | x
        · exact .inl x
        · exact .inr (.inl (.inl x))
      · exact .inr (.inl (.inr x))
      · exact .inr (.inr ⟨j, .inr x, y⟩)
  | .un u a, p, h, k, hk => by
    simp only [subst', rev, fwd_subst vs T (e := a) h] at hk
    rcases rev_occ d vs T (e := a) h k hk with x | x | x
    · simp only [Ex.occ, List.mem_append] at x
      rcases x with x | x
      · exact .inl x
      · exact .inr (.inl x)
    · exact .inr (.inl x)
    · exact .inr (.inr x)
  | .tv _ _ _, _, h, _, _ => h.elim

theorem dt_occ (d : U → U) (vs : List VarOut) (T : Nat) {e : Ex U} (h : e.Plain) : ∀ k ∈ (dt d vs T e).occ,
    k ∈ e.occ ∨ ∃ j ∈ e.occ, (vs[j]?).bind VarOut.der = some k := by
  intro k hk
  unfold dt at hk
  split at hk
  · simp [Ex.occ] at hk
  · rcases rev_occ d vs T h k hk with x | x
    · simp [Ex.occ] at x
    · exact x

/-! ### values -/

variable {F : Fns U} {info : List VarInfo} {vs : List VarOut} {T : Nat} {X : ℝ → Nat → ℝ} {t : ℝ}

/-- the derivative of a variable which occurs is known -/
structure Known (vs : List VarOut) (T : Nat) (X : ℝ → Nat → ℝ) (t : ℝ) (j : Nat) : Prop where
  der : ∀ u, (vs[j]?).bind VarOut.der = some u → j ≠ T ∧ HasDerivAt (fun s => X s j) (X t u) t
  const : (vs[j]?).bind VarOut.der = none → HasDerivAt (fun s => X s j) (if j = T then 1 else 0) t

theorem rev_right : ∀ {e : Ex U}, e.Plain → Defined F (X t) e → (∀ j ∈ e.occ, Known vs T X t j) →
    ∃ D, HasDerivAt (fun s => eval F (X s) e) D t ∧ ∀ p : Ex U,
      eval F (X t) (rev F.d T p (subst' (prep vs T) e)) = eval F (X t) p * D ∧
      (Defined F (X t) p → Defined F (X t) (rev F.d T p (subst' (prep vs T) e)))
  | .const c, _, _, _ => ⟨0, hasDerivAt_const t _, fun p => ⟨by simp [subst', rev, eval], fun _ => trivial⟩⟩
  | .var j, _, _, hK => by
    have K := hK j (by simp [Ex.occ])
    cases hd : (vs[j]?).bind VarOut.der with
    | none =>
      refine ⟨_, K.const hd, fun p => ?_⟩
      simp only [subst', prep, hd, rev]
      by_cases h : j = T
      · simp [h]
      · simp [h, eval, Defined]
    | some u =>
      refine ⟨_, (K.der u hd).2, fun p => ?_⟩
      have h := (K.der u hd).1
      simp only [subst', prep, hd, rev, timeDiffReverse, h, if_true, if_false, eval, Defined]
      refine ⟨?_, fun hp => ?_⟩
      · by_cases h2 : u = T <;> simp [h2, eval]
      · by_cases h2 : u = T <;> simp [h2, Defined, hp]
  | .add a b, h, hD, hK => by
    simp only [Ex.occ, List.mem_append] at hK
    obtain ⟨A, a1, a2⟩ := rev_right h.1 hD.1 fun j hj => hK j (.inl hj)
    obtain ⟨B, b1, b2⟩ := rev_right h.2 hD.2 fun j hj => hK j (.inr hj)
    refine ⟨A + B, a1.add b1, fun p => ⟨?_, fun hp => ⟨(a2 p).2 hp, (b2 p).2 hp⟩⟩⟩
    simp only [subst', rev, eval, (a2 p).1, (b2 p).1]
    ring
  | .mul a b, h, hD, hK => by
    simp only [Ex.occ, List.mem_append] at hK
    obtain ⟨A, a1, a2⟩ := rev_right h.1 hD.1 fun j hj => hK j (.inl hj)
    obtain ⟨B, b1, b2⟩ := rev_right h.2 hD.2 fun j hj => hK j (.inr hj)
    refine ⟨_, a1.mul b1, fun p => ?_⟩
    simp only [subst', rev, fwd_subst vs T h.1, fwd_subst vs T h.2]
    refine ⟨?_, fun hp => ⟨(a2 _).2 ⟨hp, hD.2⟩, (b2 _).2 ⟨hp, hD.1⟩⟩⟩
    simp only [eval, (a2 _).1, (b2 _).1]
    ring
  | .un u a, h, hD, hK => by
    obtain ⟨A, a1, a2⟩ := rev_right (e := a) h hD.1 hK
    refine ⟨_, (F.deriv u _ hD.2).comp t a1, fun p => ?_⟩
    simp only [subst', rev, fwd_subst vs T (e := a) h]
    refine ⟨?_, fun hp => (a2 _).2 ⟨hp, hD.1, F.next u _ hD.2⟩⟩
    simp only [eval, (a2 _).1]
    ring
  | .tv _ _ _, h, _, _ => h.elim

theorem param_const : ∀ {e : Ex U}, isParam (subst' (prep vs T) e) = true → ∀ X Y, eval F X e = eval F Y e
  | .const _, _, _, _ => rfl
  | .var j, h, _, _ => by
    simp only [subst', prep] at h
    cases hd : (vs[j]?).bind VarOut.der <;> rw [hd] at h <;> simp [isParam] at h
  | .add a b, h, X, Y => by
    simp only [subst', isParam, Bool.and_eq_true] at h
    simp only [eval, param_const h.1 X Y, param_const h.2 X Y]
  | .mul a b, h, X, Y => by
    simp only [subst', isParam, Bool.and_eq_true] at h
    simp only [eval, param_const h.1 X Y, param_const h.2 X Y]
  | .un _ a, h, X, Y => by
    simp only [subst', isParam] at h
    simp only [eval, param_const (e := a) h X Y]
  | .tv _ _ _, h, _, _ => by simp [subst', isParam] at h

theorem dt_right {e : Ex U} (h : e.Plain) (hD : Defined F (X t) e) (hK : ∀ j ∈ e.occ, Known vs T X t j) :
    HasDerivAt (fun s => eval F (X s) e) (eval F (X t) (dt F.d vs T e)) t ∧ Defined F (X t) (dt F.d vs T e) := by
  unfold dt
  split
  · rename_i hp
    refine ⟨?_, trivial⟩
    have : (fun s => eval F (X s) e) = fun _ => eval F (X t) e := funext fun s => param_const hp _ _
    rw [this]
    simpa [eval] using hasDerivAt_const t (eval F (X t) e)
  · obtain ⟨D, h1, h2⟩ := rev_right (vs := vs) (T := T) h hD hK
    obtain ⟨h3, h4⟩ := h2 (.const 1)
    refine ⟨?_, h4 trivial⟩
    rw [h3]
    simpa [eval] using h1

end Verif.Dae.Tape
