import Verif.Scopes.SpecMove

/-
Model of `moveNonIndexedOutsideLoop` and `LoopNonIndexedLocator`, model_c_source_gen_loops.hpp l.240-347.

Simplifications: the recursion has fuel (running out of fuel is an own outcome); the set of nodes is a list without repetitions, in the order in
which the nodes are found instead of the order of their addresses.
-/
namespace Verif.Scopes.Move

inductive Err
  | fuel
  /-- undefined behaviour: a second argument which does not exist, or an access outside of `indexed_` -/
  | undefined
deriving DecidableEq

structure St where
  nd : Nat → Node
  /-- number of nodes -/
  size : Nat
  /-- `indexed_`: 0 unknown, 1 does not depend on the index, 2 depends on it -/
  memo : Nat → Nat
  /-- size of `indexed_`, code_handler_vector.hpp l.99-105 -/
  cap : Nat
  /-- `nonIndexed_` -/
  moved : List Nat

def put (f : Nat → α) (k : Nat) (v : α) : Nat → α := fun i => if i = k then v else f i

def insert1 (l : List Nat) (n : Nat) : List Nat := if n ∈ l then l else l ++ [n]

/-- an argument which does not depend on the index, l.322-340 -/
def keep (a : Nat) (st : St) : Except Err St :=
  match (st.nd a).kind with
  | .inv | .tmpDcl => .ok st
  | .indexedTmp =>
    match (st.nd a).args with
    | d :: some v :: r =>
      let k := st.size
      .ok { st with nd := put (put st.nd k ⟨.assign, [some v]⟩) a ⟨.indexedTmp, d :: some k :: r⟩, size := k + 1, moved := insert1 st.moved k }
    | _ :: none :: _ => .ok st
    | _ => .error .undefined
  | _ => .ok { st with moved := insert1 st.moved a }

/-- the second loop over the arguments, l.319-342 -/
def keepAll : List (Option Nat) → St → Except Err St
  | [], st => .ok st
  | none :: l, st => keepAll l st
  | some a :: l, st =>
    if st.cap ≤ a then .error .undefined
    else if st.memo a = 1 then
      match keep a st with
      | .ok s => keepAll l s
      | .error e => .error e
    else keepAll l st

/-- the first loop over the arguments, l.302-311, with the values of `nonIndexedArgs` and `indexedPath` -/
def visitArgs (g : Nat → St → Except Err (Bool × St)) : List (Option Nat) → Bool → Bool → St → Except Err (Bool × Bool × St)
  | [], nonIndexedArgs, indexedPath, st => .ok (nonIndexedArgs, indexedPath, st)
  | none :: l, nonIndexedArgs, indexedPath, st => visitArgs g l nonIndexedArgs indexedPath st
  | some a :: l, nonIndexedArgs, indexedPath, st =>
    match g a st with
    | .ok (b, s) => visitArgs g l (nonIndexedArgs || b) (indexedPath || !b) s
    | .error e => .error e

/-- `findNonIndexedNodes`, l.287-346: whether or not the node does not depend on the index -/
def find (ix : Nat) : Nat → Nat → St → Except Err (Bool × St)
  | 0, _, _ => .error .fuel
  | f + 1, n, st =>
    if st.cap ≤ n then .error .undefined
    else if st.memo n > 0 then .ok (st.memo n == 1, st)
    else if (st.nd n).kind = .index ∧ n = ix then .ok (false, { st with memo := put st.memo n 2 })
    else
      match visitArgs (find ix f) (st.nd n).args false false st with
      | .error e => .error e
      | .ok (nonIndexedArgs, indexedPath, s) =>
        let s := { s with memo := put s.memo n (if indexedPath then 2 else 1) }
        if (s.nd n).kind = .array then .ok (!indexedPath, s)
        else if indexedPath && nonIndexedArgs then
          match keepAll (s.nd n).args s with
          | .ok s => .ok (!indexedPath, s)
          | .error e => .error e
        else .ok (!indexedPath, s)

/-- the loop over the arguments of the last node, l.253-256; the constructor of the locator adjusts the size of `indexed_` (l.277-285) -/
def findEnds (fuel ix : Nat) : List Nat → St → Except Err St
  | [], st => .ok st
  | n :: l, st =>
    match find ix fuel n { st with cap := st.size } with
    | .ok (_, s) => findEnds fuel ix l s
    | .error e => .error e

/-- `moveNonIndexedOutsideLoop`, l.240-267: the new arguments of the first node of the loop are `moved` -/
def locate (fuel ix : Nat) (nd : Nat → Node) (size : Nat) (ends : List Nat) : Except Err St :=
  findEnds fuel ix ends ⟨nd, size, fun _ => 0, size, []⟩

end Verif.Scopes.Move
