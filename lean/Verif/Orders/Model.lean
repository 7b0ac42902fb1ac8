import Verif.Orders.Spec
import Mathlib.Order.Defs.LinearOrder
import Mathlib.Data.Nat.Basic
/-
Model of the comparison functions given to `std::sort`, `qsort` and ordered containers.
All paths below /repo/include/cppad/cg.
-/
namespace Verif.Orders

/-- loop of `compare`, util.hpp l.622-629, on sets of the same size (increasing lists) -/
def compareElems {T : Type} [LinearOrder T] : List T → List T → Int
  | a :: as, b :: bs => if a < b then -1 else if a > b then 1 else compareElems as bs
  | _, _ => 0

/-- `compare`, util.hpp l.615-631 -/
def compareSets {T : Type} [LinearOrder T] (s1 s2 : List T) : Int :=
  if s1.length < s2.length then -1 else if s1.length > s2.length then 1 else compareElems s1 s2

/-- `SetComparator`, util.hpp l.633-639 -/
def setLess {T : Type} [LinearOrder T] (a b : List T) : Bool := compareSets a b == -1

/-- `operator<` of `Reverse2Jrow2Iter` (model/patterns/model_c_source_gen_loops_rev2.hpp l.899-906)
and of `Forward1Jcol2Iter` (model_c_source_gen_loops_for1.hpp l.467-474) -/
def rowIterLess (l r : Nat × List Nat) : Bool :=
  if l.1 < r.1 then true else if l.1 > r.1 then false else compareSets l.2 r.2 == -1

/-- chain of comparisons of sets: `HessianTermContrib` (rev2.hpp l.1266-1281, six sets of pairs) and
`JacobianTermContrib` (for1.hpp l.495-502, two sets) -/
def contribLess {T : Type} [LinearOrder T] : List (List T) → List (List T) → Bool
  | a :: as, b :: bs =>
    let c := compareSets a b
    if c ≠ 0 then c == -1 else contribLess as bs
  | _, _ => false

/-- `UniqueEquationPair`, patterns/dependent_pattern_matcher.hpp l.31-40: an equation is known by its
`depRefIndex` -/
def uniquePair (e1 e2 : Nat) : Nat × Nat := if e1 < e2 then (e1, e2) else (e2, e1)

/-- its `operator<`, l.42-45 -/
def pairLess (p1 p2 : Nat × Nat) : Bool :=
  p1.1 < p2.1 || (!(p2.1 < p1.1) && p1.2 < p2.2)

/-- `IndependentNodeSorter`, patterns/independent_node_sorter.hpp l.31-53; a node is given by the
index in its info, `none` is a null pointer -/
def indepNodeLess (a b : Option Nat) : Bool :=
  match a, b with
  | none, none => false
  | none, some _ => true
  | some _, none => false
  | some i, some j => if i < j then true else false

/-- `IndexedIndepSorter`, patterns/loop.hpp l.1186-1217: the orders of the iterations have the same
size (asserted l.1190), shorter second lists would be read out of bounds -/
def indexedIndepLess : List (Option Nat) → List (Option Nat) → Bool
  | [], _ => false
  | none :: as, none :: bs => indexedIndepLess as bs
  | none :: _, some _ :: _ => false
  | some _ :: _, none :: _ => true
  | some i :: as, some j :: bs => if i < j then true else if i > j then false else indexedIndepLess as bs
  | _ :: _, [] => false

/-- `OperationPathNode::operator<`, operation_path_node.hpp l.43-45; addresses are numbers -/
def pathNodeLess (l r : Nat × Nat) : Bool := l.1 < r.1 || l.2 < r.2

/-- `sortVnodesByOrder`, dae_index_reduction/dummy_deriv_util.hpp l.30-34 -/
def vnodeLess (i j : Nat) : Bool := i > j

/-- `DaeVarOrderInfo`, dummy_deriv_util.hpp l.39-61 -/
structure VarOrder where
  originalIndex : Nat
  originalIndex0 : Nat
  hasDerivatives : Bool
  order : Int
deriving DecidableEq

/-- `sortVariablesByOrder`, dummy_deriv_util.hpp l.100-111 -/
def varLess (i j : VarOrder) : Bool :=
  if j.order < i.order then true
  else if j.order > i.order then false
  else if i.hasDerivatives = j.hasDerivatives then j.originalIndex > i.originalIndex
  else i.hasDerivatives

/-- `DaeEqOrderInfo`, dummy_deriv_util.hpp l.66-90 -/
structure EqOrder where
  originalIndex : Nat
  originalIndex0 : Nat
  differential : Bool
  assignedVar : Int
deriving DecidableEq

/-- `sortEquationByAssignedOrder2`, dummy_deriv_util.hpp l.121-139 -/
def eqLess (i j : EqOrder) : Bool :=
  if i.differential then
    if j.differential then i.assignedVar < j.assignedVar else true
  else if j.differential then false
  else if i.originalIndex0 = j.originalIndex0 then i.originalIndex == j.originalIndex0
  else i.originalIndex0 < j.originalIndex0

/-- `comparePair`, model/threadpool/pthread_pool.c l.290-296; `lt` and `eq` are the comparisons of the
measured times (`float`) -/
def comparePair {F : Type} (lt eq : F → F → Bool) (a b : F) : Int :=
  if lt a b then -1 else if eq a b then 0 else 1

end Verif.Orders
