import Verif.Scopes.ModelOrder

/-
Model of the joining of conditionals, code_handler_impl.hpp l.1270-1434 (`optimizeIfs`, `replaceScope`, `breakCyclicDependency`,
`containedInScope`), called in l.377.

Simplifications: as in `Model` the condition is part of the node at the beginning of a branch, so that it is not in the list of its
arguments. An alias is a plain operation. Recursions have fuel (running out of fuel is an own outcome). Accesses outside of a vector are the
outcome `undefined`.
-/
namespace Verif.Scopes.Join

open Verif.Scopes Verif.Scopes.Order

structure JSt where
  nd : Nat → Node
  scope : Nat → Nat
  /-- `_scopes` -/
  path : Nat → List (Nat × Nat)
  /-- `_scopedVariableOrder` -/
  queue : Nat → List Nat
  visited : Nat → Bool

/-- `containedInScope`, l.1416-1424 -/
def contained (path : Nat → List (Nat × Nat)) (n c : Nat) : Except Err Bool :=
  if n = c then .ok true
  else if (path n).length < (path c).length then .ok false
  else if path c = [] then .error .undefined
  else
    match (path n)[(path c).length - 1]? with
    | some el => .ok (decide (el.1 = c))
    | none => .error .undefined

/-- l.1388-1395 -/
def cutTmp (e1 n : Nat) (nd : Nat → Node) : Nat → Node :=
  if (nd n).op = .tmp ∧ (nd n).args[1]? = some e1 then set1 nd n ⟨(nd n).op, (nd n).args.eraseIdx 1⟩ else nd

/-- l.1404-1407 -/
def cutStart (e1 n : Nat) (nd : Nat → Node) : Nat → Node :=
  match (nd n).op with
  | .startIf _ | .loopStart => set1 nd n ⟨(nd n).op, (nd n).args.filter (· ≠ e1)⟩
  | _ => nd

/-- `breakCyclicDependency`, l.1371-1413 -/
def breakCycle (c e1 : Nat) : Nat → Nat → JSt → Except Err JSt
  | 0, _, _ => .error .fuel
  | f + 1, n, st =>
    if st.visited n then .ok st
    else
      let st := { st with visited := set1 st.visited n true, nd := cutTmp e1 n st.nd }
      match contained st.path (st.scope n) c with
      | .error x => .error x
      | .ok false => .ok st
      | .ok true =>
        ((st.nd n).args.filter (· ≠ e1)).foldlM (fun s a => breakCycle c e1 f a s) { st with nd := cutStart e1 n st.nd }

/-- `replaceScope`, l.1355-1368 -/
def replaceScope (old new : Nat) : Nat → Nat → JSt → Except Err JSt
  | 0, _, _ => .error .fuel
  | f + 1, n, st =>
    if st.scope n ≠ old then .ok st
    else (st.nd n).args.foldlM (fun s a => replaceScope old new f a s) { st with scope := set1 st.scope n new }

/-- l.1315-1319 -/
def moveResults (fuel s s1 e1 : Nat) (results : List Nat) (st : JSt) : Except Err JSt :=
  results.foldlM (fun st r =>
    match breakCycle s e1 fuel r st with
    | .error x => .error x
    | .ok st => replaceScope s s1 fuel r st) { st with visited := fun _ => false }

/-- l.1326-1329 -/
def setStart (b1 : Nat) (results : List Nat) (st : JSt) : Except Err JSt :=
  results.foldlM (fun st r =>
    match st.nd r with
    | ⟨_, []⟩ => .error .undefined
    | ⟨op, _ :: as⟩ => .ok { st with nd := set1 st.nd r ⟨op, b1 :: as⟩ }) st

/-- l.1307-1346: the conditional ending at position `p` of scope `c` is joined with the one ending at position `p1` -/
def join (fuel c p1 p e1 b1 e b : Nat) (st : JSt) : Except Err JSt :=
  let s := st.scope b
  let s1 := st.scope b1
  let results := (st.nd e).args.tail
  match moveResults fuel s s1 e1 results st with
  | .error x => .error x
  | .ok st =>
    match st.queue s with
    | [] => .error .undefined
    | _ :: q =>
      match setStart b1 results { st with queue := set1 (set1 st.queue s1 (st.queue s1 ++ q)) s [] } with
      | .error x => .error x
      | .ok st =>
        let nd := set1 st.nd e1 ⟨(st.nd e1).op, (st.nd e1).args ++ results⟩
        let v := st.queue c
        .ok { st with
          nd := set1 nd e ⟨.plain, [e1]⟩
          queue := set1 st.queue c (v.take p1 ++ (v.drop (p1 + 1)).take (p - 1 - p1) ++ e1 :: v.drop (p + 1)) }

/-- position of the last node before position `p` which is not a declaration, l.1283-1290 -/
def previous (nd : Nat → Node) (v : List Nat) : Nat → Option Nat
  | 0 => none
  | p + 1 =>
    match v[p]? with
    | none => none
    | some n => if (nd n).op = .tmpDcl then previous nd v p else some p

/-- the body of the loop over the positions, l.1279-1348 -/
def step (fuel c p : Nat) (st : JSt) : Except Err JSt :=
  let v := st.queue c
  match v[p]? with
  | none => .error .undefined
  | some e =>
    if (st.nd e).op ≠ .endIf then .ok st
    else
      match previous st.nd v p with
      | none => .error .undefined
      | some p1 =>
        match v[p1]? with
        | none => .error .undefined
        | some e1 =>
          if (st.nd e1).op ≠ .endIf then .ok st
          else
            match (st.nd e).args, (st.nd e1).args with
            | b :: _, b1 :: _ =>
              match (st.nd b).op, (st.nd b1).op with
              | .startIf rs, .startIf rs1 => if rs = rs1 then join fuel c p1 p e1 b1 e b st else .ok st
              | _, _ => .ok st
            | _, _ => .error .undefined

/-- positions from the last one to the second, l.1278 -/
def positions (fuel c : Nat) : Nat → JSt → Except Err JSt
  | 0, st => .ok st
  | p + 1, st =>
    match step fuel c (p + 1) st with
    | .error x => .error x
    | .ok st => positions fuel c p st

/-- `optimizeIfs`, l.1270-1352; `size` is the number of scopes -/
def optimizeIfs (fuel size : Nat) (st : JSt) : Except Err JSt :=
  if size < 3 then .ok st
  else (List.range size).foldlM (fun st c => positions fuel c ((st.queue c).length - 1) st) st

/-- the order of all variables after the conditionals were joined, l.374-397. The vector has the size of all queues: with more nodes it is
written after its end, with less it keeps null pointers which are dereferenced (l.394). -/
def joined (P : Placed) (creates : OSt → Nat → Nat → Bool) (fuel size : Nat) (roots : List Nat) : Except Err (List Nat) :=
  match queues P creates fuel roots with
  | .error x => .error x
  | .ok st =>
    match optimizeIfs fuel size ⟨P.nd, P.scope, P.path, st.queue, fun _ => false⟩ with
    | .error x => .error x
    | .ok j =>
      match flat ⟨j.nd, j.scope, j.path⟩ j.queue fuel 0 with
      | .error x => .error x
      | .ok l => if l.length = ((List.range size).map fun c => (j.queue c).length).sum then .ok l else .error .undefined

end Verif.Scopes.Join
