/-
Specification of eliminations: what residuals depend on after substitutions, sequences of substitutions.
-/
namespace Verif.Dae.Elim

/-- `subst` gives `h1` from `h0` by the substitutions of the pairs (equation, variable) -/
def Run {σ : Type} (subst : σ → Nat → Nat → Option σ) : σ → List (Nat × Nat) → σ → Prop
  | h0, [], h1 => h1 = h0
  | h0, (i, j) :: ps, h1 => ∃ h, subst h0 i j = some h ∧ Run subst h ps h1

/-- Solving equation `i` for `j` and substituting in the other equations. `dep h e k`: residual `e` depends on `k`.
* the other equations no longer depend on `j`, and otherwise on what they or, when they depended on `j`, equation `i`
  depended on,
* equation `i` depends on nothing new,
* an equation without `j` can be solved for what it could be solved for. -/
structure Right {σ : Type} (solvable : σ → Nat → Nat → Bool) (subst : σ → Nat → Nat → Option σ) (dep : σ → Nat → Nat → Prop) :
    Prop where
  other : ∀ h i j h', subst h i j = some h' → ∀ e k, e ≠ i → dep h' e k → k ≠ j ∧ (dep h e k ∨ (dep h e j ∧ dep h i k))
  own : ∀ h i j h', subst h i j = some h' → ∀ k, dep h' i k → dep h i k
  keep : ∀ h i j h', subst h i j = some h' → ∀ e k, e ≠ i → ¬ dep h e j → solvable h' e k = solvable h e k

/-- equations which are said to be solvable can be solved -/
def Exact {σ : Type} (solvable : σ → Nat → Nat → Bool) (subst : σ → Nat → Nat → Option σ) : Prop :=
  ∀ h i j, solvable h i j = true → subst h i j ≠ none

end Verif.Dae.Elim
