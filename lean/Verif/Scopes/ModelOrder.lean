import Verif.Scopes.Model

/-
Model of the order in which the values are computed in code with scopes: `checkVariableCreation` (code_handler_impl.hpp l.1444-1609),
`addToEvaluationQueue` (l.1612-1633), `addScopeToVarOrder` (l.1225-1246) and the part of `generateCode` which calls them (l.345-397).

Simplifications: the navigation with a stack (operation_stack.hpp l.178-222) is a recursion with fuel (running out of fuel is an own
outcome). Whether an operation gets a variable of its own (`createsNewVariable`, `requiresVariableArgument`) is any function of the state,
of the node which uses it first and of the operation. Aliases, prints and the joining of conditionals (see `ModelJoin`) are left
out.
-/
namespace Verif.Scopes.Order

open Verif.Scopes

structure OSt where
  visited : Nat → Bool
  /-- `_scopedVariableOrder` -/
  queue : Nat → List Nat
  /-- sum of the sizes of `_scopedVariableOrder`, l.379-382 -/
  pushed : Nat

def OSt.init : OSt := ⟨fun _ => false, fun _ => [], 0⟩

/-- `markVisited` -/
def mark (a : Nat) (st : OSt) : OSt := { st with visited := set1 st.visited a true }

/-- l.1625-1632 -/
def enqueue (P : Placed) (a : Nat) (st : OSt) : OSt :=
  { st with queue := set1 st.queue (P.scope a) (st.queue (P.scope a) ++ [a]), pushed := st.pushed + 1 }

/-- which nodes are added to the queue, l.1503-1597 -/
def queued (P : Placed) (creates : OSt → Nat → Nat → Bool) (st : OSt) (parent a : Nat) : Bool :=
  match (P.nd a).op with
  | .indep | .indexed | .tmp => false
  | .loopStart | .loopEnd | .startIf _ | .elseIf _ | .els | .endIf | .tmpDcl => true
  | _ => creates st parent a

/-- `addToEvaluationQueue`, l.1612-1633; `go` visits an argument of a node -/
def add (P : Placed) (go : Nat → Nat → OSt → Except Err OSt) (a : Nat) (st : OSt) : Except Err OSt :=
  if st.queue (P.scope a) = [] ∧ P.scope a ≠ 0 then
    match (P.path (P.scope a)).getLast? with
    | none => .error .undefined
    | some el =>
      match (P.nd el.2).args with
      | [] => .error .undefined
      | b :: as =>
        if b = a then .ok (enqueue P a st)
        else match (b :: as).foldlM (fun s x => go el.2 x s) st with
          | .error x => .error x
          | .ok st => .ok (enqueue P a st)
  else .ok (enqueue P a st)

/-- one argument in `checkVariableCreation`, l.1446-1601 -/
def visitNode (P : Placed) (creates : OSt → Nat → Nat → Bool) : Nat → Nat → Nat → OSt → Except Err OSt
  | 0, _, _, _ => .error .fuel
  | f + 1, parent, a, st =>
    if st.visited a then .ok st
    else
      match (P.nd a).args.foldlM (fun s x => visitNode P creates f a x s) st with
      | .error x => .error x
      | .ok st =>
        if st.visited a then .ok st
        else if queued P creates st parent a then
          match add P (visitNode P creates f) a st with
          | .error x => .error x
          | .ok st => .ok (mark a st)
        else .ok (mark a st)

/-- one dependent, l.352-369 -/
def visitRoot (P : Placed) (creates : OSt → Nat → Nat → Bool) (fuel r : Nat) (st : OSt) : Except Err OSt :=
  if st.visited r then .ok (mark r st)
  else
    match (P.nd r).args.foldlM (fun s x => visitNode P creates fuel r x s) st with
    | .error x => .error x
    | .ok st =>
      if (P.nd r).op ≠ .indep ∧ st.visited r = false then
        match add P (visitNode P creates fuel) r st with
        | .error x => .error x
        | .ok st => .ok (mark r st)
      else .ok (mark r st)

/-- the nodes of a scope with the code of the scopes which end with them, l.1229-1245 -/
def lay (P : Placed) (go : Nat → Except Err (List Nat)) : List Nat → Except Err (List Nat)
  | [] => .ok []
  | n :: q =>
    if (P.nd n).op.isEnd then
      match (P.nd n).args with
      | [] => .error .undefined
      | b :: _ =>
        match go (P.scope b) with
        | .error x => .error x
        | .ok block =>
          match lay P go q with
          | .error x => .error x
          | .ok l => .ok (block ++ n :: l)
    else
      match lay P go q with
      | .error x => .error x
      | .ok l => .ok (n :: l)

/-- `addScopeToVarOrder`, l.1225-1246 -/
def flat (P : Placed) (queue : Nat → List Nat) : Nat → Nat → Except Err (List Nat)
  | 0, _ => .error .fuel
  | f + 1, c => lay P (flat P queue f) (queue c)

/-- all dependents (l.352-369) -/
def queues (P : Placed) (creates : OSt → Nat → Nat → Bool) (fuel : Nat) (roots : List Nat) : Except Err OSt :=
  roots.foldlM (fun s r => visitRoot P creates fuel r s) OSt.init

/-- the order of all variables, l.374-397. The vector has the size `pushed`: with more nodes it is written after its end, with less it
keeps null pointers which are dereferenced (l.394). -/
def order (P : Placed) (creates : OSt → Nat → Nat → Bool) (fuel : Nat) (roots : List Nat) : Except Err (List Nat) :=
  match queues P creates fuel roots with
  | .error x => .error x
  | .ok st =>
    match flat P st.queue fuel 0 with
    | .error x => .error x
    | .ok l => if l.length = st.pushed then .ok l else .error .undefined

end Verif.Scopes.Order
