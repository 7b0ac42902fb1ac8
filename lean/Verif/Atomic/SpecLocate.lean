/-
Specification of the search for atomic functions in an operation graph.
-/
namespace Verif.Atomic.Locate

/-- kinds of operations -/
inductive LOp
  /-- an independent variable; its number is the position of the node -/
  | inv
  /-- an array with one argument per element -/
  | array
  /-- the evaluation of the atomic function with this identifier -/
  | call (id : Nat)
  | other
deriving DecidableEq

/-- an operation; arguments without node are constants -/
structure LNode where
  op : LOp
  args : List (Option Nat)
deriving DecidableEq

/-- nodes which are needed for the dependents -/
inductive Needed (nd : Nat → LNode) (deps : List (Option Nat)) : Nat → Prop
  | dep {n : Nat} : some n ∈ deps → Needed nd deps n
  | arg {u n : Nat} : Needed nd deps u → some n ∈ (nd u).args → Needed nd deps n

/-- the value of the node depends on the independent variable -/
inductive Depends (nd : Nat → LNode) : Nat → Nat → Prop
  | self {i : Nat} : (nd i).op = .inv → Depends nd i i
  | arg {u n i : Nat} : some n ∈ (nd u).args → Depends nd n i → Depends nd u i

/-- the numbers of arguments and results of the evaluation of an atomic function -/
def Sizes (nd : Nat → LNode) (n : Nat) (s : Nat × Nat) : Prop :=
  ∃ tx ty rest, (nd n).args = some tx :: some ty :: rest ∧ s = ((nd tx).args.length, (nd ty).args.length)

/-- operation graphs -/
structure Graph (nd : Nat → LNode) : Prop where
  acyclic : ∃ R : Nat → Nat, ∀ u n, some n ∈ (nd u).args → R n < R u
  inv : ∀ n, (nd n).op = .inv → (nd n).args = []
  call : ∀ n id, (nd n).op = .call id → ∃ tx ty rest, (nd n).args = some tx :: some ty :: rest

end Verif.Atomic.Locate
