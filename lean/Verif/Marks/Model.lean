/-
Model of visit marks and per node data: /repo/include/cppad/cg/code_handler_vector.hpp and
code_handler_impl.hpp l.157-175, 493-507, 640-671, 714-726.

Nodes are numbered in the order of their creation. One data vector stands for all managed vectors, they do not
interact. Capacities are not modelled.
-/
import Verif.Marks.Spec
namespace Verif.Marks

inductive Err
  | ub
  | exception
  deriving DecidableEq

/-- the handler: `_codeBlocks`, the positions stored in nodes (`none` is the largest `size_t`), `_lastVisit`,
`_idVisit`, and a data vector -/
structure H (T : Type) where
  nodes : List Nat
  next : Nat
  pos : Nat → Option Nat
  visit : List Nat
  id : Nat
  data : List T

/-- code_handler_impl.hpp l.24 -/
def H.init (T : Type) : H T := ⟨[], 0, fun _ => none, [], 1, []⟩

/-- `std::vector::resize` -/
def resize {T : Type} (z : T) (l : List T) (n : Nat) : List T := l.take n ++ List.replicate (n - l.length) z

/-- `nodesErased`, code_handler_vector.hpp l.215-221 -/
def erased {T : Type} (l : List T) (start stop : Nat) : List T :=
  if start < l.length then l.take start ++ l.drop (min stop l.length) else l

/-- `manageOperationNode`, code_handler_impl.hpp l.714-726 -/
def H.make {T : Type} (h : H T) : H T :=
  { h with nodes := h.nodes ++ [h.next], next := h.next + 1, pos := fun n => if n = h.next then some h.nodes.length else h.pos n }

/-- the loop l.664-666: nodes from `start` on get their position -/
def positions (pos : Nat → Option Nat) (nodes : List Nat) (start : Nat) : Nat → Option Nat :=
  fun n => match (nodes.drop start).idxOf? n with
    | some k => some (start + k)
    | none => pos n

/-- `deleteManagedNodes`, l.650-671 -/
def H.delete {T : Type} (h : H T) (start stop : Nat) : H T :=
  if start ≥ stop then h
  else
    let a := min start h.nodes.length
    let b := min stop h.nodes.length
    let nodes := h.nodes.take a ++ h.nodes.drop b
    { h with nodes := nodes, pos := positions h.pos nodes a, visit := erased h.visit a b, data := erased h.data a b }

/-- `adjustSize(node)`, code_handler_vector.hpp l.102-111 -/
def adjustFor {T : Type} (z : T) (l : List T) (count : Nat) : Option Nat → Except Err (List T)
  | none => .error .exception
  | some p => if p ≥ l.length then .ok (resize z l count) else .ok l

/-- `get`, code_handler_vector.hpp l.113-122; the assertion is compiled out, an access outside of the vector is undefined -/
def vget {T : Type} (l : List T) : Option Nat → Except Err T
  | none => .error .exception
  | some p => match l[p]? with
    | some v => .ok v
    | none => .error .ub

/-- `set`, code_handler_vector.hpp l.135-145 -/
def vset {T : Type} (l : List T) (v : T) : Option Nat → Except Err (List T)
  | none => .error .exception
  | some p => if p < l.length then .ok (l.set p v) else .error .ub

/-- `isVisited`, code_handler_impl.hpp l.165-169 -/
def H.isVisited {T : Type} (h : H T) (n : Nat) : Except Err Bool :=
  match h.pos n with
  | none => .ok false          -- the largest value is not below the size
  | some p => if p < h.visit.length then
      match vget h.visit (h.pos n) with
      | .ok v => .ok (v == h.id)
      | .error e => .error e
    else .ok false

/-- `markVisited`, code_handler_impl.hpp l.171-175 -/
def H.mark {T : Type} (h : H T) (n : Nat) : Except Err (H T) :=
  match adjustFor 0 h.visit h.nodes.length (h.pos n) with
  | .error e => .error e
  | .ok l =>
    match vset l h.id (h.pos n) with
    | .error e => .error e
    | .ok l => .ok { h with visit := l }

/-- one operation; `z` is the default value of the data. `startNewOperationTreeVisit`, l.157-163, counts modulo 2^64;
`reset`, l.493-507. -/
def H.step {T : Type} (z : T) (h : H T) : Op T → Except Err (H T × Out T)
  | .make => .ok (h.make, .node h.next)
  | .delete a b => .ok (h.delete a b, .done)
  | .visit => .ok ({ h with visit := resize 0 h.visit h.nodes.length, id := (h.id + 1) % 2 ^ 64 }, .done)
  | .mark n => match h.mark n with
    | .ok h => .ok (h, .done)
    | .error e => .error e
  | .isVisited n => match h.isVisited n with
    | .ok b => .ok (h, .visited b)
    | .error e => .error e
  | .adjust => .ok ({ h with data := resize z h.data h.nodes.length }, .done)
  | .set n v => match vset h.data v (h.pos n) with
    | .ok l => .ok ({ h with data := l }, .done)
    | .error e => .error e
  | .get n => match vget h.data (h.pos n) with
    | .ok v => .ok (h, .value v)
    | .error e => .error e
  | .fill v => .ok ({ h with data := h.data.map fun _ => v }, .done)
  | .reset => .ok ({ h with nodes := [] }, .done)

def H.run {T : Type} (z : T) : List (Op T) → H T → Except Err (H T × List (Out T))
  | [], h => .ok (h, [])
  | o :: l, h =>
    match h.step z o with
    | .error e => .error e
    | .ok (h, x) =>
      match H.run z l h with
      | .error e => .error e
      | .ok (h, xs) => .ok (h, x :: xs)

end Verif.Marks
