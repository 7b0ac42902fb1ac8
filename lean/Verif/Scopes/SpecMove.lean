import Mathlib.Data.List.Forall2

/-
Specification of values which are the same in all iterations of a loop.
-/
namespace Verif.Scopes.Move

/-- kinds of nodes, as far as they are told apart when values are moved out of a loop -/
inductive Kind
  /-- declaration of an index -/
  | index
  /-- an independent variable -/
  | inv
  | tmpDcl
  /-- assignment to a temporary: the declaration and the value -/
  | indexedTmp
  /-- element of an array or call of an atomic function -/
  | array
  | assign
  | other
deriving DecidableEq

/-- arguments are nodes or constants (`none`) -/
structure Node where
  kind : Kind
  args : List (Option Nat)
deriving DecidableEq

/-- the value depends on the index -/
inductive Depends (nd : Nat → Node) (ix : Nat) : Nat → Prop
  | index : Depends nd ix ix
  | arg {n a : Nat} : some a ∈ (nd n).args → Depends nd ix a → Depends nd ix n

/-- nodes in the loop: those which are used to compute the arguments of its last node -/
inductive InLoop (nd : Nat → Node) (ends : List Nat) : Nat → Prop
  | last {n : Nat} : n ∈ ends → InLoop nd ends n
  | arg {n a : Nat} : InLoop nd ends n → some a ∈ (nd n).args → InLoop nd ends a

/-- a value computed before the loop; independents are always there, the declaration of a temporary is no value, and for the assignment to a
temporary the value assigned counts -/
inductive Ready (nd : Nat → Node) (moved : List Nat) : Nat → Prop
  | moved {n : Nat} : n ∈ moved → Ready nd moved n
  | inv {n : Nat} : (nd n).kind = .inv → Ready nd moved n
  | tmpDcl {n : Nat} : (nd n).kind = .tmpDcl → Ready nd moved n
  | constant {n : Nat} {d : Option Nat} {r : List (Option Nat)} : nd n = ⟨.indexedTmp, d :: none :: r⟩ → Ready nd moved n
  | value {n v : Nat} {d : Option Nat} {r : List (Option Nat)} : nd n = ⟨.indexedTmp, d :: some v :: r⟩ → v ∈ moved → Ready nd moved n

/-- the value of the second node is the value of the first, possibly assigned to other variables -/
inductive Same (nd : Nat → Node) : Option Nat → Option Nat → Prop
  | refl {x : Option Nat} : Same nd x x
  | assign {x : Option Nat} {y : Nat} {z : Option Nat} : nd y = ⟨.assign, [z]⟩ → Same nd x z → Same nd x (some y)

/-- node `n` computes the same value in both graphs -/
def SameNode (nd nd' : Nat → Node) (n : Nat) : Prop :=
  (nd' n).kind = (nd n).kind ∧ List.Forall₂ (Same nd') (nd n).args (nd' n).args

/-- graphs without cycles in which nodes are numbered below `N`; indexes have no arguments, and the assignment to a temporary has two -/
structure Graph (nd : Nat → Node) (N : Nat) : Prop where
  acyclic : ∃ R : Nat → Nat, ∀ n < N, ∀ a, some a ∈ (nd n).args → R a < R n
  closed : ∀ n < N, ∀ a, some a ∈ (nd n).args → a < N
  index : ∀ n < N, (nd n).kind = .index → (nd n).args = []
  tmp : ∀ n < N, (nd n).kind = .indexedTmp → 2 ≤ (nd n).args.length

end Verif.Scopes.Move
