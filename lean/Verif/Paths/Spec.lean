import Verif.Codegen.Spec
/-
Specification of routes through an operation graph: a route from `n` is the list of the argument
numbers taken, starting at `n`.
-/
namespace Verif.Paths
open Verif.Codegen

variable {α : Type}

/-- the node where the route `is` from `n` ends -/
def follow (G : Graph α) : Nat → List Nat → Option Nat
  | n, [] => some n
  | n, i :: is =>
    match (G n).args[i]? with
    | some (.node m) => follow G m is
    | _ => none

/-- the route `is` leads from `n` to `t` -/
def Route (G : Graph α) (n : Nat) (is : List Nat) (t : Nat) : Prop := follow G n is = some t

instance (G : Graph α) (n : Nat) (is : List Nat) (t : Nat) : Decidable (Route G n is t) :=
  inferInstanceAs (Decidable (_ = _))

/-- there is a route from `n` to `t` -/
def Reaches (G : Graph α) (n t : Nat) : Prop := ∃ is, Route G n is t

/-- the nodes passed after `n`, each with the number of the argument by which it is reached -/
def stepsDown (G : Graph α) : Nat → List Nat → List (Nat × Nat)
  | _, [] => []
  | n, i :: is =>
    match (G n).args[i]? with
    | some (.node m) => (m, i) :: stepsDown G m is
    | _ => []

/-- the nodes passed, each with the number of the argument taken from it; the last has none -/
def stepsUp (G : Graph α) : Nat → List Nat → List (Nat × Option Nat)
  | n, [] => [(n, none)]
  | n, i :: is =>
    match (G n).args[i]? with
    | some (.node m) => (n, some i) :: stepsUp G m is
    | _ => []

/-- the graph has no cycles: operands have a smaller rank -/
def Ranked (G : Graph α) (rank : Nat → Nat) : Prop := ∀ n, ∀ m ∈ kids G n, rank m < rank n

/-- From a node which can be reached from `root` in several ways, each argument leads to `t` in at
most one way. -/
def OneWay (G : Graph α) (root t : Nat) : Prop :=
  ∀ n r r', Route G root r n → Route G root r' n → r ≠ r' →
    ∀ i is is', Route G n (i :: is) t → Route G n (i :: is') t → is = is'

end Verif.Paths
