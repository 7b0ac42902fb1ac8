import Verif.Ranges.Model
import Verif.Scopes.Spec

/-
Model of the assignment of scopes to operation nodes, code_handler_impl.hpp l.737-1270 (`markCodeBlockUsed`,
`handleTemporaryVarInDiffScopes`, `replaceWithConditionalTempVar`, `updateTemporaryVarInDiffScopes`, `restoreTemporaryVar`,
`updateVarScopeUsage`, `findFirstDifferentScope`) and of `ifBranchIterationRanges` (range.hpp l.152-206).

Simplifications: the navigation with a stack is a recursion with fuel (running out of fuel is an own outcome); a node with a condition
(`IndexCondExpr`) and its index are part of the node of the branch; aliases, arrays and the `beginning` of a scope (not used here) are left
out; all conditions use the index of the loop around them. `inner` is not in the code: it records the scope in which the arguments of a
control node are visited.
-/
namespace Verif.Scopes

open Verif.Ranges

inductive Err
  | fuel
  /-- undefined behaviour: `back()` of an empty vector or an element after the end -/
  | undefined
  /-- `ScopeIDType` is an `unsigned short` -/
  | tooMany
deriving DecidableEq

structure St where
  nd : Nat → Node
  /-- number of nodes -/
  size : Nat
  scope : Nat → Nat
  /-- `_totalUseCount` -/
  count : Nat → Nat
  /-- `_scopes` -/
  path : Nat → List (Nat × Nat)
  /-- `_scopeColorCount` -/
  colors : Nat
  inner : Nat → Nat

def St.placed (st : St) : Placed := ⟨st.nd, st.scope, st.path⟩

def set1 (f : Nat → α) (k : Nat) (v : α) : Nat → α := fun i => if i = k then v else f i

/-- `findFirstDifferentScope`, l.1248-1269 -/
def commonLen : List (Nat × Nat) → List (Nat × Nat) → Nat
  | a :: as, b :: bs => if a.1 = b.1 then commonLen as bs + 1 else 0
  | _, _ => 0

/-- `depth == 0 ? 0 : _scopes[b][depth - 1].color`, l.838-844, 1210 -/
def St.common (st : St) (a b : Nat) : Nat :=
  match commonLen (st.path a) (st.path b) with
  | 0 => 0
  | d + 1 => ((st.path b).getD d (0, 0)).1

/-- `updateVarScopeUsage`, l.1193-1223 -/
def update : Nat → Nat → Nat → Nat → St → Except Err St
  | 0, _, _, _, _ => .error .fuel
  | f + 1, x, usage, old, st =>
    if st.scope x = usage then .ok st
    else
      let o := st.scope x
      let new := if o = old then usage else st.common o usage
      if new = o then .ok st
      else (st.nd x).args.foldlM (fun s a => update f a new o s) { st with scope := set1 st.scope x new }

/-- the loop in the `Else` case of `ifBranchIterationRanges`, range.hpp l.178-197 -/
def elseAcc (nd : Nat → Node) : Nat → Nat → List (Nat × Nat) → Option (List (Nat × Nat))
  | 0, _, _ => none
  | f + 1, p, acc =>
    match nd p with
    | ⟨.startIf rs, _⟩ => some (combineOverlap acc rs)
    | ⟨.elseIf rs, q :: _⟩ =>
      match (nd q).op with
      | .elseIf _ => elseAcc nd f q (combineOverlap acc rs)
      | _ => some (combineOverlap acc rs)
    | _ => none

/-- `ifBranchIterationRanges`, range.hpp l.160-205 -/
def branchRanges (nd : Nat → Node) (fuel b : Nat) : Option (List (Nat × Nat)) :=
  match nd b with
  | ⟨.startIf rs, _⟩ => some rs
  | ⟨.elseIf rs, _⟩ => some rs
  | ⟨.els, p :: _⟩ => (elseAcc nd fuel p []).map invert
  | _ => none

/-- the nodes and the scope made by `replaceWithConditionalTempVar`, l.991-1053 -/
def altered (n : Nat) (rs : List (Nat × Nat)) (new : Nat) (st : St) : St :=
  let k := st.size
  let c := st.colors + 1
  { st with
    nd := fun i =>
      if i = n then ⟨.tmp, [k + 1, k + 5]⟩
      else if i = k then st.nd n
      else if i = k + 1 then ⟨.tmpDcl, []⟩
      else if i = k + 2 then ⟨.startIf rs, []⟩
      else if i = k + 3 then ⟨.loopTmp, [k + 1, k]⟩
      else if i = k + 4 then ⟨.condRes, [k + 2, k + 3]⟩
      else if i = k + 5 then ⟨.endIf, [k + 2, k + 4]⟩
      else st.nd i
    size := k + 6
    scope := fun i =>
      if i = n ∨ i = k + 1 ∨ i = k + 5 then new
      else if k ≤ i ∧ i < k + 5 then c
      else st.scope i
    count := fun i => if k ≤ i ∧ i < k + 6 then 1 else st.count i
    path := set1 st.path c (st.path new ++ [(c, k + 5)])
    colors := c
    inner := set1 (set1 st.inner (k + 2) new) (k + 5) c }

/-- `replaceWithConditionalTempVar`, l.982-1065 -/
def alter (f n : Nat) (rs : List (Nat × Nat)) (old new : Nat) (st : St) : Except Err St :=
  if st.colors + 1 > 65535 then .error .tooMany
  else (st.nd n).args.foldlM (fun s a => update f a (st.colors + 1) old s) (altered n rs new st)

/-- `restoreTemporaryVar`, l.1149-1171 -/
def restore (f n cur : Nat) (st : St) : Except Err St :=
  match st.nd n with
  | ⟨_, [_, e]⟩ =>
    match (st.nd e).args with
    | [_, r] =>
      match (st.nd r).args with
      | [_, t] =>
        match (st.nd t).args with
        | [_, k] =>
          (st.nd k).args.foldlM (fun s a => update f a cur (st.scope k) s)
            { st with nd := set1 st.nd n (st.nd k), scope := set1 st.scope n cur }
        | _ => .error .undefined
      | _ => .error .undefined
    | _ => .error .undefined
  | _ => .error .undefined

/-- l.856-866: the value is computed in the scope which encloses both -/
def move (f n old new : Nat) (st : St) : Except Err St :=
  (st.nd n).args.foldlM (fun s a => update f a new old s) { st with scope := set1 st.scope n new }

/-- `handleTemporaryVarInDiffScopes`, l.926-980, called in l.850-867 -/
def handle (f n cur old new : Nat) (st : St) : Except Err St :=
  if cur = 0 then move f n old new st
  else
    match (st.path cur).getLast?, (st.path old).getLast? with
    | some e1, some e2 =>
      if (st.nd e1.2).op.ends && (st.nd e2.2).op.ends then
        match (st.nd e1.2).args, (st.nd e2.2).args with
        | b1 :: _, b2 :: _ =>
          match branchRanges st.nd st.size b1, branchRanges st.nd st.size b2 with
          | some r1, some r2 =>
            match combineOverlap r1 r2 with
            | [] => .error .undefined
            | r :: rs => if r :: rs = [(0, sizeMax)] then move f n old new st else alter f n (r :: rs) old new st
          | _, _ => .error .undefined
        | _, _ => .error .undefined
      else move f n old new st
    | _, _ => .error .undefined

/-- a node visited before, l.814-872. `updateTemporaryVarInDiffScopes` (l.1067-1148) is called only when the scope of the node is not the
current one and returns at once in this case (l.1069-1071). -/
def revisit (f n cur : Nat) (st : St) : Except Err St :=
  match (st.nd n).op with
  | .tmp => if st.scope n = cur then restore f n cur st else .ok st
  | .indexed => .ok st
  | _ =>
    if st.scope n = cur then .ok st
    else
      let old := st.scope n
      let new := st.common old cur
      if old = new then .ok st
      else handle f n cur old new st

/-- `sPath.size() > 1 ? sPath[sPath.size() - 2].color : 0`, l.783 -/
def St.parent (st : St) (c : Nat) : Nat :=
  match (st.path c).dropLast.getLast? with
  | some el => el.1
  | none => 0

/-- changes of the scope at the first visit of a node, l.761-807. Returns the scope for its arguments. -/
def enter (n cur : Nat) (st : St) : Except Err (Nat × St) :=
  let st := { st with scope := set1 st.scope n cur }
  match (st.nd n).op with
  | .loopStart | .startIf _ =>
    if st.path cur = [] then .error .undefined
    else .ok (st.parent cur, { st with inner := set1 st.inner n (st.parent cur) })
  | .loopEnd | .endIf =>
    if st.colors + 1 > 65535 then .error .tooMany
    else
      let c := st.colors + 1
      .ok (c, { st with path := set1 st.path c (st.path cur ++ [(c, n)]), colors := c, inner := set1 st.inner n c })
  | .elseIf _ | .els =>
    if st.path cur = [] then .error .undefined
    else if st.colors + 1 > 65535 then .error .tooMany
    else
      let c := st.colors + 1
      .ok (c, { st with path := set1 st.path c ((st.path cur).dropLast ++ [(c, n)]), colors := c, inner := set1 st.inner n c })
  | _ => .ok (cur, st)

/-- `markCodeBlockUsed`, l.737-924 -/
def visit : Nat → Nat → Nat → St → Except Err St
  | 0, _, _, _ => .error .fuel
  | f + 1, n, cur, st =>
    let st := { st with count := set1 st.count n (st.count n + 1) }
    if (st.nd n).op = .indep then .ok st
    else if st.count n = 1 then
      match enter n cur st with
      | .error x => .error x
      | .ok (c, st) => (st.nd n).args.foldlM (fun s a => visit f a c s) st
    else revisit f n cur st

def St.init (nd : Nat → Node) (size : Nat) : St := ⟨nd, size, fun _ => 0, fun _ => 0, fun _ => [], 0, fun _ => 0⟩

/-- all dependents, code_handler_impl.hpp l.335-343: every root is visited outside of all loops -/
def mark (fuel : Nat) (nd : Nat → Node) (size : Nat) (roots : List Nat) : Except Err St :=
  roots.foldlM (fun s r => visit fuel r 0 s) (St.init nd size)

end Verif.Scopes
