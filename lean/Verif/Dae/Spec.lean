import Mathlib.Data.Finset.Card
import Mathlib.Data.Finset.Union
/-
Assignments of equations to variables, and structurally singular sets of equations: what the structural
analysis of a DAE is about.
-/
namespace Verif.Dae

/-- `a` assigns equations to distinct variables which they contain (`inc i`: the variables of equation `i`) -/
def IsMatching (inc : Nat → List Nat) (a : Nat → Option Nat) : Prop :=
  (∀ i j, a i = some j → j ∈ inc i) ∧ ∀ i i' j, a i = some j → a i' = some j → i = i'

/-- all equations of `E` are assigned -/
def Covers (a : Nat → Option Nat) (E : Set Nat) : Prop := ∀ i ∈ E, a i ≠ none

/-- the equations `E` contain fewer variables than there are equations -/
def Singular (inc : Nat → List Nat) (E : Finset Nat) : Prop :=
  (E.biUnion fun i => (inc i).toFinset).card < E.card

/-- the equations reached from `i` by going to a variable of the equation and on to the equation this
variable is assigned to -/
inductive Alternating (inc : Nat → List Nat) (a : Nat → Option Nat) (i : Nat) : Nat → Prop
  | start : Alternating inc a i i
  | step {k k' j : Nat} : Alternating inc a i k → j ∈ inc k → a k' = some j → Alternating inc a i k'

/-- `b` is `a` or a derivative of `a` of any order (`anti j`: the variable of which `j` is the derivative) -/
inductive DerivOf (anti : Nat → Option Nat) (a : Nat) : Nat → Prop
  | refl : DerivOf anti a a
  | step {b c : Nat} : DerivOf anti a b → anti c = some b → DerivOf anti a c

/-- the first `m` equations can be matched with variables they contain, no one a derivative of another: a
structurally regular system -/
def Regular (m : Nat) (inc : Nat → Nat → Prop) (anti : Nat → Option Nat) : Prop :=
  ∃ f : Nat → Nat, (∀ i, i < m → inc i (f i)) ∧ ∀ i i', i < m → i' < m → DerivOf anti (f i) (f i') → i = i'

/-- `c` is reached from `a` in `n` steps -/
inductive Chain (next : Nat → Option Nat) (a : Nat) : Nat → Nat → Prop
  | zero : Chain next a 0 a
  | succ {n b c : Nat} : Chain next a n b → next b = some c → Chain next a (n + 1) c

/-- the equation `i` was differentiated `n` times (`next`: the derivative of an equation) -/
def Differentiated (next : Nat → Option Nat) (i n : Nat) : Prop := ∃ k, Chain next i n k ∧ next k = none

end Verif.Dae
