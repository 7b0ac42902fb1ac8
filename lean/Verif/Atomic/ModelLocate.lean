import Verif.Atomic.SpecLocate

/-
Model of atomic_dependency_locator.hpp l.62-144 (`findAtomicsUsage`): the atomic functions used by a model, the sizes of their arguments and
results and the independent variables they depend on.

Simplifications: a set is its characteristic function. The recursion has fuel (running out of fuel is an own outcome). The operation graph
recorded by the tape is given. Maps with identifiers as keys are functions (`used` has the keys). Exceptions and invalid pointers are the
outcome `undefined`.
-/
namespace Verif.Atomic.Locate

inductive Err
  | fuel
  | undefined
deriving DecidableEq

abbrev NSet := Nat → Bool

def NSet.empty : NSet := fun _ => false
def NSet.one (i : Nat) : NSet := fun j => decide (j = i)
def NSet.union (a b : NSet) : NSet := fun i => a i || b i

structure LSt where
  visited : Nat → Bool
  /-- `indeps_` -/
  indeps : Nat → Option NSet
  /-- the keys of `atomicInfo_` -/
  used : Nat → Bool
  /-- `outerIndeps` -/
  outer : Nat → NSet
  /-- `sizes` -/
  sizes : Nat → Nat × Nat → Bool

def LSt.init : LSt := ⟨fun _ => false, fun _ => none, fun _ => false, fun _ => .empty, fun _ _ => false⟩

def put {α : Type} (f : Nat → α) (k : Nat) (v : α) : Nat → α := fun i => if i = k then v else f i

/-- l.121-141 -/
def record (nd : Nat → LNode) (n : Nat) (s : NSet) (st : LSt) : Except Err LSt :=
  match (nd n).op with
  | .call id =>
    match (nd n).args with
    | some tx :: some ty :: _ =>
      .ok { st with
        used := put st.used id true
        outer := put st.outer id ((st.outer id).union s)
        sizes := put st.sizes id fun p => st.sizes id p || decide (p = ((nd tx).args.length, (nd ty).args.length)) }
    | _ => .error .undefined
  | _ => .ok st

/-- the loop over the arguments, l.113-118; `go` is the search in one argument -/
def collect (go : Option Nat → LSt → Except Err (NSet × LSt)) : List (Option Nat) → NSet → LSt → Except Err (NSet × LSt)
  | [], s, st => .ok (s, st)
  | a :: as, s, st =>
    match go a st with
    | .error x => .error x
    | .ok (sa, st) => collect go as (s.union sa) st

/-- `findAtomicsUsage(node)`, l.94-144 -/
def find (nd : Nat → LNode) : Nat → Option Nat → LSt → Except Err (NSet × LSt)
  | 0, _, _ => .error .fuel
  | _ + 1, none, st => .ok (.empty, st)
  | f + 1, some n, st =>
    if (nd n).op = .inv then .ok (.one n, st)
    else if st.visited n then
      match st.indeps n with
      | some s => .ok (s, st)
      | none => .error .undefined
    else
      match collect (find nd f) (nd n).args .empty { st with visited := put st.visited n true } with
      | .error x => .error x
      | .ok (s, st) =>
        match record nd n s { st with indeps := put st.indeps n (some s) } with
        | .error x => .error x
        | .ok st => .ok (s, st)

/-- l.78-80 -/
def locate (nd : Nat → LNode) (fuel : Nat) (deps : List (Option Nat)) : Except Err LSt :=
  match collect (find nd fuel) deps .empty .init with
  | .error x => .error x
  | .ok (_, st) => .ok st

end Verif.Atomic.Locate
