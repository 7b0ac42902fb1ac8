import Verif.Sparsity.Spec
/-
Specification of the sparsity patterns an atomic function has to give, from the pattern `dep` of its Jacobian (result,
argument) and the patterns `hdep i` of the Hessians of its results. `m` results, `n` arguments.
-/
namespace Verif.Atomic
open Verif.Sparsity

/-- the pattern of `f'(x) R` -/
def ForPattern (dep : Nat → Nat → Prop) (n : Nat) (r : Pattern) (i c : Nat) : Prop := ∃ j, j < n ∧ dep i j ∧ Entry r j c

/-- the pattern of `f'(x)^T R^T` -/
def RevPattern (dep : Nat → Nat → Prop) (m : Nat) (rT : Pattern) (j c : Nat) : Prop := ∃ i, i < m ∧ dep i j ∧ Entry rT i c

/-- the pattern of `f'(x)^T U + Σ_i s_i f_i''(x) R` -/
def HesPattern (dep : Nat → Nat → Prop) (hdep : Nat → Nat → Nat → Prop) (m n : Nat) (s : List Bool) (r u : Pattern)
    (j c : Nat) : Prop :=
  (∃ i, i < m ∧ dep i j ∧ Entry u i c) ∨ ∃ i k, i < m ∧ k < n ∧ s[i]? = some true ∧ hdep i j k ∧ Entry r k c

/-- the arguments on which a selected result depends: the pattern of `s^T f'(x)` -/
def SelPattern (dep : Nat → Nat → Prop) (m : Nat) (s : List Bool) (j : Nat) : Prop :=
  ∃ i, i < m ∧ s[i]? = some true ∧ dep i j

end Verif.Atomic
