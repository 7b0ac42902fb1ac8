import Verif.Colors.Spec

/-
Specification of the Jacobian and the Hessians of the model of a loop, in maps.
-/
namespace Verif.Colors

/-- the elements of the pattern have their values, all others are as before; `none` is an element which is not in the map -/
def Filled {R : Type} (p : List (List Nat)) (A : Nat → Nat → R) (old new : Nat → Nat → Option R) : Prop :=
  ∀ i j, (InPattern p i j → new i j = some (A i j)) ∧ (¬ InPattern p i j → new i j = old i j)

/-- the part of a pattern which has to be evaluated -/
structure ToEvaluate (m n : Nat) (p eval : List (List Nat)) : Prop where
  size : p.length = m
  evalSize : eval.length = m
  cols : ∀ i j, InPattern p i j → j < n
  inside : ∀ i j, InPattern eval i j → InPattern p i j

/-- element of a vector of maps -/
def inVector {R : Type} (v : List (Nat → Option R)) (i j : Nat) : Option R := v[i]?.bind fun r => r j

/-- element of a map of maps -/
def inMap {R : Type} (M : Nat → Option (Nat → Option R)) (i j : Nat) : Option R := (M i).bind fun r => r j

end Verif.Colors
