import Verif.Loops.ModelJac

/-
Model of the sparse first order forward mode for models with loops,
/repo/include/cppad/cg/model/patterns/model_c_source_gen_loops_for1.hpp (`prepareSparseForwardOneWithLoops` l.25-419,
`generateForOneColumnGroups` l.527-562, `groupForOneByContrib` l.570-640, `subgroupForOneByContrib` l.648-698,
`generateForwardOneGroupOps` l.700-811, `createForwardOneElement` l.813-844), of the function which calls the generated functions of one column,
model_c_source_gen_loops.hpp l.1164-1252 (`generateGlobalForRevWithLoopsFunctionSource`), of the generated product with a
direction, model_c_source_gen_for1.hpp l.219-321 (`generateForwardOneSources`), and of `ForwardOne` of
`FunctorGenericModel` for directions with given elements, functor_generic_model.hpp l.466-502.

As in `ModelJac`: what CppAD computes is given, values are elements of a commutative ring, derivatives which were not
requested do not exist, and looking up what does not exist is `undefined` (also an exception of `at`). The code is
generated anew for each call here; it does not depend on the column. Arrays are functions, so writing past their end is
not considered.

Simplifications: sets which the code fills by insertion are given by comprehension; maps with sets as keys are lists in the order of
insertion, so the groups are numbered differently; order of sums; moving of expressions out of loops.
-/
namespace Verif.Loops.For1

open Verif.Index

/-- element of `JacobianTermContrib`, l.479-493 -/
inductive Term
  | idx (t : Nat)
  | non (j : Nat)
deriving DecidableEq

/-- the requested elements of the columns: equation, variable, location in the column, l.64-75 -/
def reqCol (j : Nat) (rows : List Nat) : List (Nat × Nat × Nat) := (rows.zipIdx).map fun p => (p.1, j, p.2)

def reqAll (elements : List (Nat × List Nat)) : List (Nat × Nat × Nat) := elements.flatMap fun c => reqCol c.1 c.2

/-! ### groups of columns -/

/-- `indexedPositions.find(tapeJ)`, `nonIndexedPositions.find(j)` -/
def posOf (info : RowInfo) : Term → Option (List (Option Nat))
  | .idx t => info.idxPos.get t
  | .non j => info.nonPos.get j

/-- `positions[iter]` -/
def cellOf (info : RowInfo) (tm : Term) (it : Nat) : Option Nat := ((posOf info tm).bind (·[it]?)).join

/-- is an element of any tape equation requested, l.600 and l.618 -/
def used (a : An) (q : Nat) (l : Loop) (tm : Term) (it : Nat) : Bool :=
  (List.range l.dep.length).any fun tapeI => (cellOf (a.row q tapeI) tm it).isSome

/-- `indexed2jcol2Iter[tapeJ][j]`, l.591-606 -/
def idxIters (a : An) (q : Nat) (l : Loop) (t j : Nat) : List Nat :=
  (List.range l.iters).filter fun it => used a q l (.idx t) it && l.var t it == some j

/-- `nonIndexed2Iter[j]`, l.608-626 -/
def nonIters (a : An) (q : Nat) (l : Loop) (j : Nat) : List Nat := (List.range l.iters).filter (used a q l (.non j))

/-- `jcols[j]`, l.602, 624 -/
def contr (a : An) (q : Nat) (l : Loop) (j : Nat) : List Term :=
  (((List.range l.ind.length).filter fun t => idxIters a q l t j ≠ []).map Term.idx) ++
    if nonIters a q l j = [] then [] else [.non j]

/-- an index which is not in the table, l.601-602: element requested where the variable is absent, or variable past `n` -/
def badVar (a : An) (q : Nat) (l : Loop) (n : Nat) : Bool :=
  (List.range l.ind.length).any fun t => (List.range l.iters).any fun it => used a q l (.idx t) it &&
    match l.var t it with
    | none => true
    | some j => n ≤ j

/-- `map[k].insert(v)` for maps of sets -/
def putIn {K V : Type} [DecidableEq K] (k : K) (v : V) : List (K × List V) → List (K × List V)
  | [] => [(k, [v])]
  | (k', vs) :: m => if k' = k then (k', vs ++ [v]) :: m else (k', vs) :: putIn k v m

def gather {K V : Type} [DecidableEq K] (ps : List (K × V)) : List (K × List V) := ps.foldl (fun m p => putIn p.1 p.2 m) []

/-- `contrib2jcols`, l.633-637 -/
def byContr (a : An) (q : Nat) (l : Loop) (n : Nat) : List (List Term × List Nat) :=
  gather ((List.range n).filterMap fun j => if contr a q l j = [] then none else some (contr a q l j, j))

/-- `contribs` of one set of columns, l.658-678: column and iterations, contributions -/
def entries (a : An) (q : Nat) (l : Loop) (c : List Term × List Nat) : List ((Nat × List Nat) × List Term) :=
  gather (c.1.flatMap fun tm => match tm with
    | .idx t => (c.2.filter fun j => idxIters a q l t j ≠ []).map fun j => ((j, idxIters a q l t j), tm)
    | .non j => [((j, nonIters a q l j), tm)])

/-- `JacobianColGroup`, l.508-525 -/
structure ColGroup where
  terms : List Term
  cols : List (Nat × List Nat)
  iters : List Nat
deriving DecidableEq

/-- l.683-697 -/
def addSub : List ColGroup → (Nat × List Nat) × List Term → List ColGroup
  | [], e => [⟨e.2, [e.1], e.1.2⟩]
  | g :: gs, e =>
    if g.terms = e.2 then ⟨g.terms, put e.1.1 e.1.2 g.cols, g.iters ++ e.1.2⟩ :: gs
    else g :: addSub gs e

/-- `generateForOneColumnGroups`, l.527-562 -/
def colGroups (a : An) (q : Nat) (l : Loop) (n : Nat) : List ColGroup :=
  ((byContr a q l n).flatMap (entries a q l)).foldl addSub []

/-! ### the operations of a group -/

variable {α : Type}

/-- locations, l.739-744, 768-773, 828-834 -/
def groupLocs (g : ColGroup) (pos : List (Option Nat)) : List (Nat × Nat) := (locsOf pos).filter fun p => p.1 ∈ g.iters

/-- derivative of a tape equation with respect to a contribution, l.747, 776-799. `dyiDxtapeT.at(tapeJ)` exists if any tape
equation needs the derivative with respect to `tapeJ`. -/
def termVal [CommRing α] (l : Loop) (D : Nat → Nat → Nat → α) (a : An) (q : Nat) (G : Nat → Nat → α) (ne tapeI : Nat) : Term → Option (Nat → α)
  | .idx t => dy (D tapeI) (a.ev q tapeI) t
  | .non j =>
    match nonTape l j with
    | none => tmpSum l (D tapeI) (a.ev q tapeI) a.nlEval G ne j (((a.row q tapeI).tmpEvals.get j).getD []) fun _ => 0
    | some t =>
      if (List.range l.dep.length).any fun i => t ∈ a.ev q i then
        tmpSum l (D tapeI) (a.ev q tapeI) a.nlEval G ne j (((a.row q tapeI).tmpEvals.get j).getD [])
          ((dy (D tapeI) (a.ev q tapeI) t).getD fun _ => 0)
      else none

/-- the contributions of one tape equation, l.731-805 -/
def genTerms [CommRing α] (l : Loop) (D : Nat → Nat → Nat → α) (a : An) (q : Nat) (G : Nat → Nat → α) (ne : Nat) (dx : α) (g : ColGroup)
    (tapeI : Nat) : List Term → Body α → Except Err (Body α)
  | [], b => .ok b
  | tm :: tms, b =>
    match posOf (a.row q tapeI) tm with
    | none => genTerms l D a q G ne dx g tapeI tms b
    | some pos =>
      if groupLocs g pos = [] then genTerms l D a q G ne dx g tapeI tms b
      else
        match termVal l D a q G ne tapeI tm with
        | none => .error .undefined
        | some v =>
          match loopResult (groupLocs g pos) pos.length (fun it => v it * dx) (locPat (groupLocs g pos)) true b with
          | none => .error .undefined
          | some b => genTerms l D a q G ne dx g tapeI tms b

/-- `generateForwardOneGroupOps`, l.700-811 -/
def genGroup [CommRing α] (l : Loop) (D : Nat → Nat → Nat → α) (a : An) (q : Nat) (G : Nat → Nat → α) (ne : Nat) (dx : α) (g : ColGroup) :
    List Nat → Body α → Except Err (Body α)
  | [], b => .ok b
  | tapeI :: rest, b =>
    match genTerms l D a q G ne dx g tapeI g.terms b with
    | .error x => .error x
    | .ok b => genGroup l D a q G ne dx g rest b

/-- column of an element, l.742, 771 -/
def colOf (l : Loop) (tm : Term) (it : Nat) : Option Nat :=
  match tm with
  | .idx t => l.var t it
  | .non j => some j

/-- is the column in `jcol2CompressedLoc`, l.828-834 -/
def called (a : An) (q : Nat) (l : Loop) (g : ColGroup) (j : Nat) : Bool :=
  (List.range l.dep.length).any fun tapeI => g.terms.any fun tm => g.iters.any fun it =>
    (cellOf (a.row q tapeI) tm it).isSome && colOf l tm it == some j

/-! ### running the function of a group -/

/-- l.225-234 -/
def createsLoop (g : ColGroup) : Bool := g.cols.any fun c => c.2.length ≠ 1

/-- `jcol2localIt2ModelIt`, l.242-253 -/
def localIts (g : ColGroup) : List (Nat × List (Nat × Int)) := g.cols.map fun c => (c.1, enum (c.2.map fun (it : Nat) => (it : Int)))

/-- `IndexPattern::isConstant`, index_pattern_impl.hpp l.53-59 -/
def isConstant (p : Pat Int) : Bool :=
  match p with
  | .linear p => p.dy == 0
  | _ => false

/-- number of local iterations, l.274-291 -/
def count (g : ColGroup) (j : Nat) : Option Nat :=
  let p := detect (g.cols.map fun c => (c.1, (c.2.length : Int)))
  if isConstant p then g.cols.head?.map (·.2.length) else (p.eval j).map Int.toNat

/-- the assigned model iteration in a loop, l.255-264, 297 -/
def modelIt (g : ColGroup) (j lit : Nat) : Option Int :=
  match detectPlane (localIts g) with
  | some p => p.eval j lit
  | none => ((localIts g).find? fun c => c.1 == j).bind fun c => (c.2.find? fun p => p.1 == lit).map (·.2)

/-- the same without a loop: the only index is the column, language_c_index_patterns.hpp l.235-255; a table with two indexes cannot be
printed, l.263-269 -/
def modelIt1 (g : ColGroup) (j : Nat) : Option Int := (detectPlane (localIts g)).bind fun p => p.eval j j

/-- one iteration with an assigned index; the index is unsigned -/
def runAt [Add α] (b : Body α) (it : Option Int) (out : Nat → α) : Option (Nat → α) :=
  it.bind fun i => if 0 ≤ i then runIter b i.toNat out else none

/-- `for(it = 0; it < itCount; it++)` -/
def runLocal [Add α] (b : Body α) (g : ColGroup) (j : Nat) : Nat → (Nat → α) → Option (Nat → α)
  | 0, out => some out
  | k + 1, out => (runLocal b g j k out).bind (runAt b (modelIt g j k))

/-- the function of one group for column `j`, l.217-400 -/
def runGroup [Add α] (b : Body α) (g : ColGroup) (j : Nat) (out : Nat → α) : Option (Nat → α) :=
  if createsLoop g then (count g j).bind fun k => runLocal b g j k out
  else runAt b (modelIt1 g j) out

/-- the groups of one loop: all are generated, those with the column are called -/
def runGroups [CommRing α] (l : Loop) (D : Nat → Nat → Nat → α) (a : An) (q : Nat) (G : Nat → Nat → α) (ne : Nat) (dx : α) (j : Nat) :
    List ColGroup → (Nat → α) → Except Err (Nat → α)
  | [], out => .ok out
  | g :: gs, out =>
    match genGroup l D a q G ne dx g (List.range l.dep.length) ⟨[], []⟩ with
    | .error x => .error x
    | .ok b =>
      if called a q l g j then
        match runGroup b g j out with
        | none => .error .undefined
        | some out => runGroups l D a q G ne dx j gs out
      else runGroups l D a q G ne dx j gs out

/-- the loops, l.177-402; only loops with requested derivatives are in the table -/
def runLoops1 [CommRing α] (M : Model) (D : Nat → Nat → Nat → Nat → α) (G : Nat → Nat → α) (a : An) (n : Nat) (dx : α) (j : Nat) :
    List Nat → (Nat → α) → Except Err (Nat → α)
  | [], out => .ok out
  | q :: qs, out =>
    match M.loops[q]? with
    | none => .error .undefined
    | some (l, _) =>
      if badVar a q l n then .error .undefined
      else
        match runGroups l (D q) a q G M.nFree dx j (colGroups a q l n) out with
        | .error x => .error x
        | .ok out => runLoops1 M D G a n dx j qs out

/-! ### equations outside of the loops -/

/-- rows of the part outside of the loops with elements in the column -/
def freeRows (M : Model) (a : An) (j : Nat) : List Nat := (List.range M.nFree).filter fun r => j ∈ a.nlEval r

/-- `col`, l.137-160: the vector has the value 0 where nothing is assigned -/
def freeCol [CommRing α] (M : Model) (G : Nat → Nat → α) (a : An) (dx : α) (j : Nat) : Nat → α :=
  (freeRows M a j).foldl (fun col r => (a.nlLoc r j).foldl (fun col e => upd col e (G r j * dx)) col) fun _ => 0

/-- the function for the equations outside of the loops, l.166-171, 421-445: it assigns all elements of the column. It exists for
columns in `_nonLoopFor1Elements` only. -/
def runFree [CommRing α] (M : Model) (G : Nat → Nat → α) (a : An) (dx : α) (j size : Nat) (out : Nat → α) : Nat → α :=
  if freeRows M a j = [] then out else fun e => if e < size then freeCol M G a dx j e else out e

/-! ### functions of the library -/

/-- `sparse_forward_one`, model_c_source_gen_loops.hpp l.1207-1250: the value returned and the array -/
def sparseForwardOne [CommRing α] (M : Model) (D : Nat → Nat → Nat → Nat → α) (G : Nat → Nat → α) (n : Nat) (elements : List (Nat × List Nat))
    (j : Nat) (dx : α) (out : Nat → α) : Except Err (Nat × (Nat → α)) :=
  match analyseAll M (reqAll elements) {} with
  | .error x => .error x
  | .ok a =>
    match elements.find? fun c => c.1 == j with
    | none => .ok (1, out)
    | some c =>
      match runLoops1 M D G a n dx j (List.range M.loops.length) (runFree M G a dx j c.2.length out) with
      | .error x => .error x
      | .ok out => .ok (0, out)

/-- `ty[pos[e]] += compressed[e]` -/
def spread [Add α] (comp : Nat → α) : List (Nat × Nat) → (Nat → α) → (Nat → α)
  | [], ty => ty
  | (i, e) :: ps, ty => spread comp ps (upd ty i (ty i + comp e))

/-- The calls of `sparse_forward_one` for the columns of a direction. With `zero` the array is set to zero before each
call (model_c_source_gen_for1.hpp l.297-301), otherwise it has what the previous call left there. -/
def drive [CommRing α] (M : Model) (D : Nat → Nat → Nat → Nat → α) (G : Nat → Nat → α) (n : Nat) (elements : List (Nat × List Nat)) (zero : Bool) :
    List (Nat × α) → (Nat → α) → (Nat → α) → Except Err (Nat × (Nat → α))
  | [], _, ty => .ok (0, ty)
  | (j, d) :: ds, comp, ty =>
    let rows := ((elements.find? fun c => c.1 == j).map (·.2)).getD []
    let comp := if zero then fun e => if e < rows.length then 0 else comp e else comp
    match sparseForwardOne M D G n elements j d comp with
    | .error x => .error x
    | .ok (0, comp) => drive M D G n elements zero ds comp (spread comp rows.zipIdx ty)
    | .ok (r, _) => .ok (r, ty)

/-- the columns which `forward_one` uses, model_c_source_gen_for1.hpp l.258-275 -/
def usedCols [CommRing α] [DecidableEq α] (elements : List (Nat × List Nat)) (n : Nat) (tx1 : Nat → α) : List (Nat × α) :=
  (List.range n).filterMap fun j =>
    if tx1 j = 0 ∨ ((elements.find? fun c => c.1 == j).map (·.2)).getD [] = [] then none else some (j, tx1 j)

/-- `forward_one`, model_c_source_gen_for1.hpp l.219-321, the elements of order one; `mem` is the array from `malloc` -/
def forwardOne [CommRing α] [DecidableEq α] (M : Model) (D : Nat → Nat → Nat → Nat → α) (G : Nat → Nat → α) (n : Nat)
    (elements : List (Nat × List Nat)) (tx1 : Nat → α) (mem : Nat → α) : Except Err (Nat × (Nat → α)) :=
  drive M D G n elements true (usedCols elements n tx1) mem fun _ => 0

/-- `ForwardOne` of `FunctorGenericModel` with the elements of the direction, functor_generic_model.hpp l.466-502; `ty` is the
content of the member `_ty` -/
def sparseProduct [CommRing α] (M : Model) (D : Nat → Nat → Nat → Nat → α) (G : Nat → Nat → α) (n : Nat) (elements : List (Nat × List Nat))
    (dirs : List (Nat × α)) (ty : Nat → α) : Except Err (Nat × (Nat → α)) :=
  drive M D G n elements false dirs ty fun _ => 0

end Verif.Loops.For1
