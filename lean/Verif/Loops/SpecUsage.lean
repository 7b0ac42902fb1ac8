import Mathlib.Algebra.Ring.Defs
import Mathlib.Algebra.BigOperators.Group.List.Basic

/-
What the sparse Jacobian or Hessian of a model with loops has to contain: for each requested element the sum of what the functions of its row
(or column) compute for it. `req` are the requested elements (key, index) in the order of the user; the key is the row or the column for which there
are functions. Nothing here knows how the function which calls them is generated.
-/
namespace Verif.Loops.Usage

variable {α : Type}

/-- the function for the equations outside of the loops: it assigns `size` elements of an array, those at `els` with `val`, the others with zero -/
structure Free (α : Type) where
  key : Nat
  size : Nat
  els : List Nat
  val : Nat → α

/-- the function of a group of a loop: for each key the positions of the elements of its row to which it adds, and what it adds -/
structure Call (α : Type) where
  keys : List (Nat × List Nat)
  val : Nat → Nat → α

/-- the requested elements of a key, in their order -/
def elems (req : List (Nat × Nat)) (k : Nat) : List Nat := (req.filter (·.1 == k)).map (·.2)

/-- the elements of a key are requested one after the other -/
def Consecutive (req : List (Nat × Nat)) (k : Nat) : Prop :=
  ∃ start : Nat, ∀ (e i : Nat), (elems req k)[e]? = some i → req[start + e]? = some (k, i)

section
variable [Zero α] [Add α]

/-- what a function outside of the loops computes for position `e` of key `k` -/
def Free.part (f : Free α) (k e : Nat) : α := if f.key = k ∧ e ∈ f.els then f.val e else 0

/-- what the function of a group computes for position `e` of key `k` -/
def Call.part (c : Call α) (k e : Nat) : α := if c.keys.any (fun p => p.1 == k && p.2.contains e) then c.val k e else 0

/-- the element at position `e` of key `k` -/
def entry (fs : List (Free α)) (cs : List (Call α)) (k e : Nat) : α := (fs.map fun f => f.part k e).sum + (cs.map fun c => c.part k e).sum
end

/-- a function outside of the loops fits the request: positions below its size, which is at most the number of elements of the key -/
structure Free.Ok (f : Free α) (req : List (Nat × Nat)) : Prop where
  size : f.size ≤ (elems req f.key).length
  some : 0 < (elems req f.key).length
  els : f.els.Pairwise (· < ·)
  below : ∀ e ∈ f.els, e < f.size

/-- a group fits the request: keys and positions in ascending order (they are in maps and sets), none empty, positions of requested elements -/
structure Call.Ok (c : Call α) (req : List (Nat × Nat)) : Prop where
  ne : c.keys ≠ []
  sorted : c.keys.Pairwise fun p q => p.1 < q.1
  size : ∀ p ∈ c.keys, p.1 < 2 ^ 64
  els : ∀ p ∈ c.keys, p.2 ≠ [] ∧ p.2.Pairwise (· < ·)
  below : ∀ p ∈ c.keys, ∀ e ∈ p.2, e < (elems req p.1).length

/-- the temporary array is as long as the longest row which is not consecutive; it has room for a group if all rows of the group are consecutive, or if
all positions are below the length of such a row -/
def Call.Room (c : Call α) (req : List (Nat × Nat)) : Prop :=
  (∀ p ∈ c.keys, Consecutive req p.1) ∨ ∀ p ∈ c.keys, ∀ e ∈ p.2, ∃ k, ¬ Consecutive req k ∧ e < (elems req k).length

end Verif.Loops.Usage
