/-
Marks and annotations of the nodes of a handler, as they should be: both belong to nodes.
-/
namespace Verif.Marks

inductive Op (T : Type)
  /-- create a node -/
  | make
  /-- delete the nodes at the positions `start … stop - 1` -/
  | delete (start stop : Nat)
  /-- start a new visit -/
  | visit
  | mark (n : Nat)
  | isVisited (n : Nat)
  /-- make room for annotations of all nodes -/
  | adjust
  | set (n : Nat) (v : T)
  | get (n : Nat)
  | fill (v : T)
  /-- delete all nodes -/
  | reset

inductive Out (T : Type)
  | done
  | node (n : Nat)
  | visited (b : Bool)
  | value (v : T)
  deriving DecidableEq

/-- nodes in the order of their creation; the mark of every node; the annotation of a node, if there is room for one -/
structure Sp (T : Type) where
  nodes : List Nat
  next : Nat
  marked : Nat → Bool
  ann : Nat → Option T

/-- one operation; `none` if it concerns a node which does not exist, or an annotation there is no room for -/
def Sp.step {T : Type} (z : T) (s : Sp T) : Op T → Option (Sp T × Out T)
  | .make => some ({ s with nodes := s.nodes ++ [s.next], next := s.next + 1, marked := fun n => if n = s.next then false else s.marked n,
                            ann := fun n => if n = s.next then none else s.ann n }, .node s.next)
  | .delete a b => if a < b then some ({ s with nodes := s.nodes.take a ++ s.nodes.drop b }, .done) else some (s, .done)
  | .visit => some ({ s with marked := fun _ => false }, .done)
  | .mark n => if n ∈ s.nodes then some ({ s with marked := fun m => if m = n then true else s.marked m }, .done) else none
  | .isVisited n => if n ∈ s.nodes then some (s, .visited (s.marked n)) else none
  | .adjust => some ({ s with ann := fun n => some ((s.ann n).getD z) }, .done)
  | .set n v => if n ∈ s.nodes ∧ (s.ann n).isSome then some ({ s with ann := fun m => if m = n then some v else s.ann m }, .done) else none
  | .get n => if n ∈ s.nodes then (s.ann n).map fun v => (s, .value v) else none
  | .fill v => some ({ s with ann := fun n => (s.ann n).map fun _ => v }, .done)
  | .reset => some ({ s with nodes := [] }, .done)

def Sp.run {T : Type} (z : T) : List (Op T) → Sp T → Option (Sp T × List (Out T))
  | [], s => some (s, [])
  | o :: l, s =>
    match s.step z o with
    | none => none
    | some (s, x) =>
      match Sp.run z l s with
      | none => none
      | some (s, xs) => some (s, x :: xs)

def Sp.init (T : Type) : Sp T := ⟨[], 0, fun _ => false, fun _ => none⟩

def isVisit {T : Type} : Op T → Bool
  | .visit => true
  | _ => false

def isReset {T : Type} : Op T → Bool
  | .reset => true
  | _ => false

end Verif.Marks
