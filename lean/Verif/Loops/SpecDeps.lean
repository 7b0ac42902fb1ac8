import Mathlib.Algebra.Ring.Defs

/-
What the assignments of indexed dependent variables have to do: each variable is assigned, or added to, in their order.
-/
namespace Verif.Loops.Deps

variable {R V : Type}

/-- an assignment at one iteration: the element (`none` if the index is not defined), kind of assignment (1: added), value -/
structure Target (R V : Type) where
  index : Option R
  mode : Nat
  value : V

/-- one element gets the new value; `asg` is the meaning of the assignment operator of dependent variables -/
def Target.run [DecidableEq R] [Add V] (asg : V → V → V) (t : Target R V) (m : R → V) : Option (R → V) :=
  t.index.map fun i k => if k = i then (if t.mode = 1 then m k + t.value else asg (m k) t.value) else m k

/-- the assignments one after the other -/
def runAll [DecidableEq R] [Add V] (asg : V → V → V) : List (Target R V) → (R → V) → Option (R → V)
  | [], m => some m
  | t :: ts, m => (t.run asg m).bind (runAll asg ts)

end Verif.Loops.Deps
