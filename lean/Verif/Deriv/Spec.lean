/-
Specification for the generated functions which assemble derivatives: sparse Jacobians and Hessians, products with
directions, sparsity tables. Matrices are functions of row and column; nothing here knows how code is generated.
-/
namespace Verif.Deriv

/-- array of values, `none` where nothing was stored yet -/
abbrev Mem (V : Type) := List (Option V)

/-- the array holds the requested elements (row, column) of `D`, in the order of the request -/
def Holds {V : Type} (D : Nat → Nat → V) (req : List (Nat × Nat)) (a : Mem V) : Prop :=
  a.length = req.length ∧ ∀ (e i j : Nat), req[e]? = some (i, j) → a[e]? = some (some (D i j))

/-- `l` is an interleaving of the sequences `ws` -/
inductive Interleaves {α : Type} : List (List α) → List α → Prop
  | nil {ws : List (List α)} : (∀ w ∈ ws, w = []) → Interleaves ws []
  | step {ws : List (List α)} {i : Nat} {a : α} {rest l : List α} : ws[i]? = some (a :: rest) →
      Interleaves (ws.set i rest) l → Interleaves ws (a :: l)

/-- the list stored for a key, empty if there is none -/
def valueAt (m : List (Nat × List Nat)) (k : Nat) : List Nat :=
  match m.find? (·.1 == k) with
  | some g => g.2
  | none => []

/-- sum over `j < n` -/
def sumTo {V : Type} [Zero V] [Add V] : Nat → (Nat → V) → V
  | 0, _ => 0
  | n + 1, f => sumTo n f + f n

end Verif.Deriv
