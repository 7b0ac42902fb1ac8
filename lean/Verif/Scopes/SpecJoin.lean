import Verif.Scopes.SpecOrder

/-
Specification for the joining of conditionals: the nodes which are run in an iteration.
-/
namespace Verif.Scopes.Join

open Verif.Scopes Verif.Scopes.Order

/-- the condition of a branch holds in an iteration -/
def holds (rs : List (Nat × Nat)) (it : Nat) : Bool := rs.any fun r => decide (r.1 ≤ it) && decide (it ≤ r.2)

/-- an open conditional: whether or not the current branch is run, and whether or not this or a previous branch was taken -/
structure Frame where
  on : Bool
  taken : Bool

/-- The nodes which are run in the iteration `it`, and the conditionals which are still open. `startIf` is printed as `if(...) {`, `elseIf`
and `els` as `} else if(...) {` and `} else {`, `endIf` as `}`. Loops are not unrolled: their first and last nodes are part of the result.
There is no result when braces do not match. -/
def runs (op : Nat → Op) (it : Nat) : List Frame → List Nat → Option (List Nat × List Frame)
  | S, [] => some ([], S)
  | S, n :: l =>
    match op n, S with
    | .startIf rs, S => runs op it (⟨holds rs it, holds rs it⟩ :: S) l
    | .elseIf rs, F :: S => runs op it (⟨!F.taken && holds rs it, F.taken || holds rs it⟩ :: S) l
    | .els, F :: S => runs op it (⟨!F.taken, true⟩ :: S) l
    | .endIf, _ :: S => runs op it S l
    | .elseIf _, [] => none
    | .els, [] => none
    | .endIf, [] => none
    | .tmpDcl, S => runs op it S l
    | _, S => (runs op it S l).map fun r => (if S.all (·.on) then n :: r.1 else r.1, r.2)

/-- nodes at the beginning and at the end of conditionals with one branch -/
def isIf : Op → Bool
  | .startIf _ | .endIf => true
  | _ => false

/-- code which does the same with less conditionals -/
structure Same (op : Nat → Op) (l l' : List Nat) : Prop where
  /-- in every iteration the same operations are run, in the same order -/
  runs : ∀ it, ∃ t, Join.runs op it [] l = some (t, []) ∧ Join.runs op it [] l' = some (t, [])
  /-- nothing is new -/
  old : ∀ x ∈ l', x ∈ l
  /-- only conditionals may be missing -/
  kept : ∀ x ∈ l, isIf (op x) = false → x ∈ l'
  once : l'.Nodup
  /-- declarations stay before everything they were before -/
  declared : ∀ d x, op d = .tmpDcl → op x ≠ .tmpDcl → x ∈ l' → Before l d x → Before l' d x

/-- the first and last nodes of scopes are of the same kind, and the results of conditionals are their other arguments -/
structure Matched (nd : Nat → Node) (reached : Nat → Prop) : Prop where
  loops : ∀ e b as, reached e → (nd e).op.isEnd = true → (nd e).args = b :: as → ((nd e).op = .loopEnd ↔ (nd b).op = .loopStart)
  results : ∀ e b as, reached e → (nd e).op = .endIf → (nd e).args = b :: as → ∀ r ∈ as, (nd r).op = .condRes ∧ (nd r).args ≠ []

/-- What operations use is kept: arguments stay the same, except the node at the beginning of a conditional of which something is a
result, and ends of conditionals which are only there for the order. -/
structure Kept (nd nd' : Nat → Node) (x : Nat) : Prop where
  op : (nd' x).op = (nd x).op
  plain : (nd x).op ≠ .condRes → (nd x).op ≠ .tmp → (∀ rs, (nd x).op ≠ .startIf rs) → (nd x).op ≠ .loopStart → (nd' x).args = (nd x).args
  results : (nd x).op = .condRes → (nd' x).args.tail = (nd x).args.tail
  /-- the declaration of a temporary is its first argument -/
  tmp : (nd x).op = .tmp → (nd' x).args.head? = (nd x).args.head?
  order : (nd x).op ≠ .condRes → (nd' x).args.filter (fun a => decide ((nd a).op ≠ .endIf)) = (nd x).args.filter fun a => decide ((nd a).op ≠ .endIf)

end Verif.Scopes.Join
