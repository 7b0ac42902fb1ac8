import Verif.Loops.Spec

/-
Specification for products of weights with the Jacobian of a model with loops. The requested elements are given by row.
-/
namespace Verif.Loops

/-- the requested elements: equations with their variables. No equation and no variable of an equation is listed twice, equations are among the
`m` of the model and computed by it. -/
structure Model.Rows (M : Model) (m : Nat) (elements : List (Nat × List Nat)) : Prop where
  rows : (elements.map (·.1)).Nodup
  vars : ∀ c ∈ elements, c.2.Nodup
  lt : ∀ c ∈ elements, c.1 < m
  computes : ∀ c ∈ elements, M.Computes c.1

/-- the product of weights, given as equations with factors, with the requested elements has the value `v` at variable `j`: the sum over the
equations for which the variable is requested -/
inductive Model.RowProduct {α : Type} [CommRing α] (M : Model) (D : Nat → Nat → Nat → Nat → α) (G : Nat → Nat → α) (elements : List (Nat × List Nat)) (j : Nat) :
    List (Nat × α) → α → Prop
  | nil : RowProduct M D G elements j [] 0
  | take {i : Nat} {d v w : α} {ds : List (Nat × α)} (hi : ∃ vars, (i, vars) ∈ elements ∧ j ∈ vars) (hd : M.Deriv D G i j v)
      (h : RowProduct M D G elements j ds w) : RowProduct M D G elements j ((i, d) :: ds) (v * d + w)
  | skip {i : Nat} {d w : α} {ds : List (Nat × α)} (hi : ¬ ∃ vars, (i, vars) ∈ elements ∧ j ∈ vars) (h : RowProduct M D G elements j ds w) :
      RowProduct M D G elements j ((i, d) :: ds) w

end Verif.Loops
