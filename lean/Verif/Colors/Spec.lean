import Mathlib.Algebra.BigOperators.Group.Finset.Basic
import Mathlib.Algebra.Ring.Defs

/-
Specification of the evaluation of elements of a sparse Jacobian and of sparse Hessians.
-/
namespace Verif.Colors

open Finset

/-- element `k` of the request is the element in row `i` and column `j` -/
def Requested (row col : List Nat) (k i j : Nat) : Prop := row[k]? = some i ∧ col[k]? = some j

/-- the element is in the pattern, given by the columns of each row -/
def InPattern (p : List (List Nat)) (i j : Nat) : Prop := ∃ s, p[i]? = some s ∧ j ∈ s

/-- a request for elements of a matrix with `m` rows and `n` columns, all of which are in the pattern -/
structure ValidRequest (m n : Nat) (p : List (List Nat)) (row col : List Nat) : Prop where
  size : row.length = col.length
  rows : ∀ i ∈ row, i < m
  cols : ∀ j ∈ col, j < n
  pattern : p.length = m
  inside : ∀ k i j, Requested row col k i j → InPattern p i j

/-- the elements outside of the pattern are zero -/
def Covers {R : Type} [Zero R] (m n : Nat) (p : List (List Nat)) (A : Nat → Nat → R) : Prop :=
  ∀ i < m, ∀ j < n, ¬ InPattern p i j → A i j = 0

/-- `sort` gives the positions of the elements of a list in the order of their values, elements with the same value in any order -/
def SortsPositions (sort : List Nat → List Nat) : Prop :=
  ∀ l, (sort l).Perm (List.range l.length) ∧ (sort l).Pairwise fun a b => l.getD a 0 ≤ l.getD b 0

/-- first order forward mode gives the product of the Jacobian and the direction -/
def ForwardOne {R : Type} [CommSemiring R] (m n : Nat) (J : Nat → Nat → R) (fwd : List R → List R) : Prop :=
  ∀ u, u.length = n → (fwd u).length = m ∧ ∀ i < m, (fwd u)[i]? = some (∑ j ∈ range n, J i j * u.getD j 0)

/-- after the forward mode, second order reverse mode gives at odd places the product of the direction and the Hessian of the weighted sum -/
def ReverseTwo {R : Type} [CommSemiring R] (n : Nat) (H : Nat → Nat → R) (rev : List R → List R) : Prop :=
  ∀ u, u.length = n → ∀ j < n, (rev u)[j * 2 + 1]? = some (∑ i ∈ range n, H i j * u.getD i 0)

/-- all requested elements have their values -/
def Stored {R : Type} (row col : List Nat) (A : Nat → Nat → R) (out : List R) : Prop :=
  ∀ k i j, Requested row col k i j → out[k]? = some (A i j)

end Verif.Colors
