import Mathlib.Algebra.Ring.Defs
import Mathlib.Algebra.BigOperators.Group.List.Basic

/-
What the second order reverse mode of a loop has to compute, given what the analysis of the requested elements found: for each group of equations
which are in the same iterations and for each pair of variables, row, location and number of additions at each iteration.
-/
namespace Verif.Loops.Rev2

/-- an element of the Hessian at one iteration: row, location in the row, number of additions (0 if there is none) -/
structure El where
  row : Nat
  loc : Nat
  cnt : Nat
deriving DecidableEq

/-- the kinds of pairs with locations which depend on the iteration: both variables indexed, an indexed and a non-indexed variable, an indexed variable
and one used by temporaries, and the last two in the other order -/
inductive Kind
  | indexedIndexed
  | indexedNon
  | indexedTemp
  | nonIndexed
  | tempIndexed
deriving DecidableEq

def kinds : List Kind := [.indexedIndexed, .indexedNon, .indexedTemp, .nonIndexed, .tempIndexed]

/-- Equations which are in the same iterations `its`. `pos` has the elements of each pair by iteration, `val` its second derivative at an iteration; `cval`
is the second derivative for pairs of variables whose location does not depend on the iteration. -/
structure EqGroup (α : Type) where
  its : List Nat
  pos : Kind → List ((Nat × Nat) × List El)
  val : Kind → Nat × Nat → Nat → α
  cval : Nat × Nat → Nat → α

/-- One loop: number of iterations, groups of equations, locations which do not depend on the iteration, and for the latter the part of the second
derivative which comes from the second derivatives of temporaries. -/
structure Info (α : Type) where
  iters : Nat
  groups : List (EqGroup α)
  const : List ((Nat × Nat) × Nat)
  tmp : Nat × Nat → Nat → α

variable {α : Type}

/-- the tables fit together: the row of a pair at an iteration does not depend on the group of equations -/
structure Info.Ok (I : Info α) (n : Nat) : Prop where
  pos : 0 < I.iters
  size : I.iters - 1 < 2 ^ 64
  keys : ∀ g ∈ I.groups, ∀ k, ((g.pos k).map (·.1)).Nodup
  len : ∀ g ∈ I.groups, ∀ k, ∀ p ∈ g.pos k, p.2.length = I.iters
  row : ∀ g ∈ I.groups, ∀ k, ∀ p ∈ g.pos k, ∀ x ∈ p.2, 0 < x.cnt → x.row < n
  same : ∀ g ∈ I.groups, ∀ g' ∈ I.groups, ∀ (k : Kind) (K : Nat × Nat) (es es' : List El), (K, es) ∈ g.pos k → (K, es') ∈ g'.pos k →
    ∀ (it : Nat) (x x' : El), es[it]? = some x → es'[it]? = some x' → 0 < x.cnt → 0 < x'.cnt → x.row = x'.row
  consts : (I.const.map (·.1)).Nodup
  crow : ∀ p ∈ I.const, p.1.1 < n
  its : ∀ g ∈ I.groups, g.its ≠ [] ∧ g.its.Nodup ∧ ∀ it ∈ g.its, it < I.iters

variable [CommRing α]

/-- what one element of a table adds to location `e` of row `j` -/
def El.adds (x : El) (j e : Nat) (v : α) : α := if x.row = j ∧ x.loc = e then (x.cnt : α) * v else 0

/-- second derivative for location `e` of row `j` at one iteration -/
def Info.atIt (I : Info α) (j e it : Nat) : α :=
  (I.groups.map fun g => (kinds.map fun k => ((g.pos k).map fun p =>
    match p.2[it]? with
    | some x => x.adds j e (g.val k p.1 it)
    | none => 0).sum).sum).sum +
  (I.const.map fun p => if p.1.1 = j ∧ p.2 = e then (I.groups.map fun g => if it ∈ g.its then g.cval p.1 it else 0).sum + I.tmp p.1 it else 0).sum

/-- Location `e` of row `j` of the Hessian (weights are part of the values): the equations outside of the loops, if the row has any, and the loops. -/
def hess (loops : List (Info α)) (free : Option (Nat → α)) (j e : Nat) : α :=
  (match free with
    | some f => f e
    | none => 0) + (loops.map fun I => ((List.range I.iters).map fun it => I.atIt j e it).sum).sum

/-- Component `v` of the product of a direction, given by its elements, with the Hessian; `vars j` has the variable of each location of row `j`. -/
def product (loops : List (Info α)) (free : Nat → Option (Nat → α)) (vars : Nat → List Nat) (dir : List (Nat × α)) (v : Nat) : α :=
  (dir.map fun d => ((List.range (vars d.1).length).map fun e => if (vars d.1)[e]? = some v then hess loops (free d.1) d.1 e * d.2 else 0).sum).sum

/-- the locations of row `j` are in its array -/
def Info.Within (I : Info α) (j size : Nat) : Prop :=
  (∀ g ∈ I.groups, ∀ k, ∀ p ∈ g.pos k, ∀ x ∈ p.2, 0 < x.cnt → x.row = j → x.loc < size) ∧ ∀ p ∈ I.const, p.1.1 = j → p.2 < size

end Verif.Loops.Rev2
