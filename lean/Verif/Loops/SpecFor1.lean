import Verif.Loops.Spec

/-
Specification for products of the Jacobian of a model with loops with directions. The requested elements are given by column.
-/
namespace Verif.Loops

/-- the requested elements: columns of the Jacobian with their equations. No column and no equation of a column is listed twice, columns
are variables of the model (there are `n`), equations are computed by the model. -/
structure Model.Columns (M : Model) (n : Nat) (elements : List (Nat × List Nat)) : Prop where
  cols : (elements.map (·.1)).Nodup
  rows : ∀ c ∈ elements, c.2.Nodup
  lt : ∀ c ∈ elements, c.1 < n
  computes : ∀ c ∈ elements, ∀ i ∈ c.2, M.Computes i

/-- Equation `i` of a loop depends on variable `j` through a temporary. -/
def Model.ThroughTmp (M : Model) (q : Nat) (i j : Nat) : Prop :=
  ∃ (tapeI it p k : Nat) (l : Loop) (jac : List (List Nat)) (row sp : List Nat) (fr : Free), M.loops[q]? = some (l, jac) ∧
    l.eq tapeI it = some i ∧ jac[tapeI]? = some row ∧ l.tmp[p]? = some k ∧ l.ind.length + l.non.length + p ∈ row ∧ M.free = some fr ∧
    fr.jac[fr.eqs.length + k]? = some sp ∧ j ∈ sp

/-- Equation `i` of a loop depends on the non-indexed variable `j` of the loop directly. -/
def Model.Directly (M : Model) (q : Nat) (i j : Nat) : Prop :=
  ∃ (tapeI it p : Nat) (l : Loop) (jac : List (List Nat)) (row : List Nat), M.loops[q]? = some (l, jac) ∧
    l.eq tapeI it = some i ∧ jac[tapeI]? = some row ∧ l.non[p]? = some j ∧ l.ind.length + p ∈ row

/-- If the loop has `j` as a non-indexed variable and an element of the column of `j` is requested for an equation which depends on `j` through a
temporary, then an element is requested as well for an equation of the loop which depends on `j` directly. True when all elements
which are not zero are requested and every non-indexed variable of a loop is used by one of its equations. -/
def Model.DirectToo (M : Model) (elements : List (Nat × List Nat)) : Prop :=
  ∀ (q : Nat) (l : Loop) (jac : List (List Nat)), M.loops[q]? = some (l, jac) → ∀ c ∈ elements, c.1 ∈ l.non →
    (∃ i ∈ c.2, M.ThroughTmp q i c.1) → ∃ i ∈ c.2, M.Directly q i c.1

/-- the product of the requested elements with a direction, given as columns with factors, has the value `v` at equation `i`: the sum over the
columns in which the equation is requested -/
inductive Model.Product {α : Type} [CommRing α] (M : Model) (D : Nat → Nat → Nat → Nat → α) (G : Nat → Nat → α) (elements : List (Nat × List Nat)) (i : Nat) :
    List (Nat × α) → α → Prop
  | nil : Product M D G elements i [] 0
  | take {j : Nat} {d v w : α} {ds : List (Nat × α)} (hi : ∃ rows, (j, rows) ∈ elements ∧ i ∈ rows) (hd : M.Deriv D G i j v)
      (h : Product M D G elements i ds w) : Product M D G elements i ((j, d) :: ds) (v * d + w)
  | skip {j : Nat} {d w : α} {ds : List (Nat × α)} (hi : ¬ ∃ rows, (j, rows) ∈ elements ∧ i ∈ rows) (h : Product M D G elements i ds w) :
      Product M D G elements i ((j, d) :: ds) w

end Verif.Loops
