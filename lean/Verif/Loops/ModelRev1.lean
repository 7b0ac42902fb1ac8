import Verif.Loops.ModelFor1

/-
Model of the sparse first order reverse mode for models with loops,
/repo/include/cppad/cg/model/patterns/model_c_source_gen_loops_rev1.hpp (`prepareSparseReverseOneWithLoops` l.30-354,
`createReverseOneWithLoopsNL` l.356-380, `generateLoopRev1Jac` l.382-440: the derivatives in `evalSparsity` exist), of the function which
calls the generated functions of one equation, model_c_source_gen_loops.hpp l.1164-1252, of the generated product with weights,
model_c_source_gen_rev1.hpp l.225-324 (`generateReverseOneSources`), and of `ReverseOne` of `FunctorGenericModel` for weights with given
elements, functor_generic_model.hpp l.532-568.

Simplifications as in `ModelFor1`: derivatives of the tapes are given, code is generated anew for each call, arrays are functions, order of sums.
-/
namespace Verif.Loops.Rev1

open Verif.Index Verif.Loops.For1

/-- the requested elements of the equations: equation, variable, location in the row, l.66-77 -/
def reqRow (i : Nat) (vars : List Nat) : List (Nat × Nat × Nat) := (vars.zipIdx).map fun p => (i, p.1, p.2)

def reqRows (elements : List (Nat × List Nat)) : List (Nat × Nat × Nat) := elements.flatMap fun c => reqRow c.1 c.2

variable {α : Type}

/-! ### equations in loops -/

/-- `irow2It`, l.216-221: iteration of an equation -/
def irow2It (l : Loop) (m tapeI : Nat) : List (Nat × Int) :=
  (List.range l.iters).foldl (fun mp it => match l.eq tapeI it with
    | some i => if i < m then put i (it : Int) mp else mp
    | none => mp) []

/-- any location of the iteration in the table -/
def hasPos (ps : Map (List (Option Nat))) (it : Nat) : Bool := ps.any fun p => ((p.2[it]?).join).isSome

/-- is the equation in `_loopRev1Groups[&lModel][tapeI]`, l.253-277 -/
def called (info : RowInfo) (l : Loop) (m tapeI i : Nat) : Bool :=
  (List.range l.iters).any fun it => l.eq tapeI it == some i && decide (i < m) && (hasPos info.idxPos it || hasPos info.nonPos it)

/-- the function of one tape equation, l.206-335: generated, and called for equation `i` if it is in the group -/
def runTape [CommRing α] (l : Loop) (D : Nat → Nat → Nat → α) (a : An) (q : Nat) (G : Nat → Nat → α) (ne m : Nat) (py : α) (i tapeI : Nat)
    (out : Nat → α) : Except Err (Nat → α) :=
  if (a.row q tapeI).idxPos.isEmpty && (a.row q tapeI).nonPos.isEmpty then .ok out
  else
    match genIndexed (D tapeI) (fun _ => py) (a.ev q tapeI) (a.row q tapeI).idxPos ⟨[], []⟩ with
    | .error x => .error x
    | .ok b =>
      match genNon l (D tapeI) (fun _ => py) (a.ev q tapeI) a.nlEval G ne (a.row q tapeI).tmpEvals (a.row q tapeI).nonPos b with
      | .error x => .error x
      | .ok b =>
        if called (a.row q tapeI) l m tapeI i then
          match runAt b ((detect (irow2It l m tapeI)).eval i) out with
          | none => .error .undefined
          | some out => .ok out
        else .ok out

def runTapes [CommRing α] (l : Loop) (D : Nat → Nat → Nat → α) (a : An) (q : Nat) (G : Nat → Nat → α) (ne m : Nat) (py : α) (i : Nat) :
    List Nat → (Nat → α) → Except Err (Nat → α)
  | [], out => .ok out
  | t :: ts, out =>
    match runTape l D a q G ne m py i t out with
    | .error x => .error x
    | .ok out => runTapes l D a q G ne m py i ts out

/-- the loops, l.177-337 -/
def runLoopsR [CommRing α] (M : Model) (D : Nat → Nat → Nat → Nat → α) (G : Nat → Nat → α) (a : An) (m : Nat) (py : α) (i : Nat) :
    List Nat → (Nat → α) → Except Err (Nat → α)
  | [], out => .ok out
  | q :: qs, out =>
    match M.loops[q]? with
    | none => .error .undefined
    | some (l, _) =>
      match runTapes l (D q) a q G M.nFree m py i (List.range l.dep.length) out with
      | .error x => .error x
      | .ok out => runLoopsR M D G a m py i qs out

/-! ### equations outside of the loops -/

/-- `row`, l.137-152: the vector has as many elements as derivatives were evaluated -/
def freeCells [CommRing α] (g : Nat → α) (loc : Nat → List Nat) (py : α) (size : Nat) : List Nat → (Nat → α) → Except Err (Nat → α)
  | [], row => .ok row
  | j :: js, row =>
    match loc j with
    | [e] => if e < size then freeCells g loc py size js (upd row e (g j * py)) else .error .undefined
    | _ => .error .undefined

/-- the functions for the equations outside of the loops, l.134-153 and l.165-171: all are generated, that of equation `i` is called if it is in
`_nonLoopRev1Elements` and assigns its elements -/
def runFreeR [CommRing α] (M : Model) (G : Nat → Nat → α) (a : An) (py : α) (i : Nat) : List Nat → (Nat → α) → Except Err (Nat → α)
  | [], out => .ok out
  | r :: rs, out =>
    match freeCells (G r) (a.nlLoc r) py (a.nlEval r).length (a.nlEval r) fun _ => 0 with
    | .error x => .error x
    | .ok row =>
      if (M.free.bind fun fr => fr.eqs[r]?) = some i ∧ a.nlEval r ≠ [] then
        runFreeR M G a py i rs fun e => if e < (a.nlEval r).length then row e else out e
      else runFreeR M G a py i rs out

/-! ### functions of the library -/

/-- `sparse_reverse_one`, model_c_source_gen_loops.hpp l.1207-1250: the value returned and the array -/
def sparseReverseOne [CommRing α] (M : Model) (D : Nat → Nat → Nat → Nat → α) (G : Nat → Nat → α) (m : Nat) (elements : List (Nat × List Nat))
    (i : Nat) (py : α) (out : Nat → α) : Except Err (Nat × (Nat → α)) :=
  match analyseAll M (reqRows elements) {} with
  | .error x => .error x
  | .ok a =>
    match elements.find? fun c => c.1 == i with
    | none => .ok (1, out)
    | some _ =>
      match runFreeR M G a py i (List.range M.nFree) out with
      | .error x => .error x
      | .ok out =>
        match runLoopsR M D G a m py i (List.range M.loops.length) out with
        | .error x => .error x
        | .ok out => .ok (0, out)

/-- The calls of `sparse_reverse_one` for the equations of the weights. With `zero` the array is set to zero before each call
(model_c_source_gen_rev1.hpp l.300-304), otherwise it has what the previous call left there. -/
def drive [CommRing α] (M : Model) (D : Nat → Nat → Nat → Nat → α) (G : Nat → Nat → α) (m : Nat) (elements : List (Nat × List Nat)) (zero : Bool) :
    List (Nat × α) → (Nat → α) → (Nat → α) → Except Err (Nat × (Nat → α))
  | [], _, px => .ok (0, px)
  | (i, d) :: ds, comp, px =>
    let vars := ((elements.find? fun c => c.1 == i).map (·.2)).getD []
    let comp := if zero then fun e => if e < vars.length then 0 else comp e else comp
    match sparseReverseOne M D G m elements i d comp with
    | .error x => .error x
    | .ok (0, comp) => drive M D G m elements zero ds comp (spread comp vars.zipIdx px)
    | .ok (r, _) => .ok (r, px)

/-- the equations which `reverse_one` uses, model_c_source_gen_rev1.hpp l.261-281 -/
def usedRows [CommRing α] [DecidableEq α] (elements : List (Nat × List Nat)) (m : Nat) (py : Nat → α) : List (Nat × α) :=
  (List.range m).filterMap fun i =>
    if py i = 0 ∨ ((elements.find? fun c => c.1 == i).map (·.2)).getD [] = [] then none else some (i, py i)

/-- `reverse_one`, model_c_source_gen_rev1.hpp l.225-324; `mem` is the array from `malloc` -/
def reverseOne [CommRing α] [DecidableEq α] (M : Model) (D : Nat → Nat → Nat → Nat → α) (G : Nat → Nat → α) (m : Nat)
    (elements : List (Nat × List Nat)) (py : Nat → α) (mem : Nat → α) : Except Err (Nat × (Nat → α)) :=
  drive M D G m elements true (usedRows elements m py) mem fun _ => 0

/-- `ReverseOne` of `FunctorGenericModel` with the elements of the weights, functor_generic_model.hpp l.532-568; `px` is the
content of the member `_px` -/
def sparseProduct [CommRing α] (M : Model) (D : Nat → Nat → Nat → Nat → α) (G : Nat → Nat → α) (m : Nat) (elements : List (Nat × List Nat))
    (weights : List (Nat × α)) (px : Nat → α) : Except Err (Nat × (Nat → α)) :=
  drive M D G m elements false weights px fun _ => 0

end Verif.Loops.Rev1
