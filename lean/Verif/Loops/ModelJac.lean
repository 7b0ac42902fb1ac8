import Verif.Loops.Model
import Verif.Loops.Spec

/-
Model of the zero order and of the sparse Jacobian for models with loops,
/repo/include/cppad/cg/model/patterns/: model_c_source_gen_loops_jac.hpp l.37-519
(`analyseSparseJacobianWithLoops`, `prepareSparseJacobianWithLoops`, `prepareSparseJacobianRowWithLoops`,
`createJacobianElement`), model_c_source_gen_loops_for0.hpp l.25-131 (`prepareGraphForward0WithLoops`), and of the look-ups of
/repo/include/cppad/cg/patterns/loop_model.hpp l.125-226, 334-433 and loop_free_model.hpp l.69-111.

The constructor arguments of `LoopModel` are a `Loop`; `none` stands for the index `max()`. Values are elements of a
commutative ring. What CppAD computes is given: the sparsity patterns, the derivatives of the loop's tape at each
iteration and the derivatives of the tape of the model without loops. Derivatives which were not requested from CppAD
do not exist: looking them up is the outcome `undefined` (an exception of `at` or a null dereference).

Simplifications: sets and maps are lists in the order of insertion (so the order of the operations in the loop body and
of sums differs from the code); the maps by loop and by tape equation are functions; the reordering of operations by the
code handler, the moving of expressions out of loops and the printing of runs of assignments as loops are left out.
-/
namespace Verif.Loops

/-- why no code is generated -/
inductive Err
  /-- exception "Repeated Jacobian elements requested" -/
  | repeated (i j : Nat)
  /-- failed look-up, undefined behaviour -/
  | undefined
deriving DecidableEq

/-! ### sets and maps -/

def ins (s : List Nat) (x : Nat) : List Nat := if x ∈ s then s else s ++ [x]

abbrev Map (β : Type) := List (Nat × β)

def Map.get {β : Type} (m : Map β) (k : Nat) : Option β := (m.find? fun p => p.1 == k).map (·.2)

def Map.set {β : Type} : Map β → Nat → β → Map β
  | [], k, v => [(k, v)]
  | (k', v') :: m, k, v => if k' = k then (k, v) :: m else (k', v') :: Map.set m k v

def upd {β : Type} (f : Nat → β) (k : Nat) (v : β) : Nat → β := fun x => if x = k then v else f x

def upd2 {β : Type} (f : Nat → Nat → β) (k1 k2 : Nat) (v : β) : Nat → Nat → β :=
  fun x y => if x = k1 ∧ y = k2 then v else f x y

/-! ### look-ups of the loop model and the model without loops -/

/-- position of the last occurrence: later entries of a map replace earlier ones -/
def lastIdx (l : List Nat) (x : Nat) : Option Nat :=
  ((List.range l.length).filter fun p => l[p]? == some x).getLast?

/-- `getIndexedTapeIndexes(iteration, origJ)`, loop_model.hpp l.202-210, 374-384 -/
def tapeIndexes (l : Loop) (it j : Nat) : List Nat := (List.range l.ind.length).filter fun t => l.var t it == some j

/-- tape index of `getNonIndexedIndepIndexes(origJ)`, l.212-218, 345-352 -/
def nonTape (l : Loop) (j : Nat) : Option Nat := (lastIdx l.non j).map (l.ind.length + ·)

/-- tape index of `getTempIndepIndexes(k)`, l.220-225, 357-364 -/
def tmpTape (l : Loop) (k : Nat) : Option Nat := (lastIdx l.tmp k).map (l.ind.length + l.non.length + ·)

/-- tape equations and iterations in the order of the constructor, l.149-158 -/
def Loop.cells (l : Loop) : List (Nat × Nat) :=
  (List.range l.dep.length).flatMap fun t => (List.range l.iters).map fun it => (t, it)

/-- `getOriginalDependentIndexes().find(i)`: tape equation and iteration -/
def Loop.findEq (l : Loop) (i : Nat) : Option (Nat × Nat) :=
  ((l.cells).filter fun c => l.eq c.1 c.2 == some i).getLast?

/-! ### analysis of the requested elements -/

/-- `JacobianWithLoopsRowInfo`, model_c_source_gen_loops.hpp l.61-74 -/
structure RowInfo where
  idxPos : Map (List (Option Nat)) := []
  nonPos : Map (List (Option Nat)) := []
  nonEvals : List Nat := []
  tmpEvals : Map (List Nat) := []

/-- what `analyseSparseJacobianWithLoops` fills in -/
structure An where
  nlEval : Nat → List Nat := fun _ => []
  nlLoc : Nat → Nat → List Nat := fun _ _ => []
  ev : Nat → Nat → List Nat := fun _ _ => []
  row : Nat → Nat → RowInfo := fun _ _ => {}

/-- `positions.resize(iterations, max); if (positions[iteration] != max) throw; positions[iteration] = e`,
model_c_source_gen_loops_jac.hpp l.144-149, 162-167, 193-198 -/
def putPos (n : Nat) (m : Map (List (Option Nat))) (k it e i j : Nat) : Except Err (Map (List (Option Nat))) :=
  let old := (m.get k).getD []
  let pos := (old ++ List.replicate (n - old.length) none).take n
  match pos[it]? with
  | some none => .ok (m.set k (pos.set it (some e)))
  | some (some _) => .error (.repeated i j)
  | none => .error .undefined

/-- indexed variables, l.134-151 -/
def stepIndexed (n it e i j : Nat) (row : List Nat) : List Nat → RowInfo × List Nat → Except Err (RowInfo × List Nat)
  | [], st => .ok st
  | t :: ts, (info, ev) =>
    if t ∈ row then
      match putPos n info.idxPos t it e i j with
      | .ok m => stepIndexed n it e i j row ts ({ info with idxPos := m }, ins ev t)
      | .error x => .error x
    else stepIndexed n it e i j row ts (info, ev)

/-- non-indexed variable, l.153-172; the last component is `jInNonIndexed` -/
def stepNon (n it e i j : Nat) (row : List Nat) (tape : Option Nat) (info : RowInfo) (ev : List Nat) :
    Except Err (RowInfo × List Nat × Bool) :=
  match tape with
  | some t =>
    if t ∈ row then
      match putPos n info.nonPos j it e i j with
      | .ok m => .ok ({ info with nonPos := m, nonEvals := ins info.nonEvals j }, ins ev t, true)
      | .error x => .error x
    else .ok (info, ev, false)
  | none => .ok (info, ev, false)

/-- temporaries, l.174-210 -/
def stepTmp (n it e i j : Nat) (l : Loop) (fr : Free) : List Nat → RowInfo × List Nat × Bool × (Nat → List Nat) →
    Except Err (RowInfo × List Nat × (Nat → List Nat))
  | [], (info, ev, _, nl) => .ok (info, ev, nl)
  | t :: ts, (info, ev, inNon, nl) =>
    match l.tmp[t - l.ind.length - l.non.length]? with
    | none => .error .undefined
    | some k =>
      match fr.jac[fr.eqs.length + k]? with
      | none => .error .undefined
      | some sp =>
        if j ∈ sp then
          let nl' := upd nl (fr.eqs.length + k) (ins (nl (fr.eqs.length + k)) j)
          match (if inNon then .ok info.nonPos else putPos n info.nonPos j it e i j) with
          | .error x => .error x
          | .ok m =>
            stepTmp n it e i j l fr ts ({ info with
              nonPos := m
              tmpEvals := info.tmpEvals.set j (ins ((info.tmpEvals.get j).getD []) k) }, ins ev t, true, nl')
        else stepTmp n it e i j l fr ts (info, ev, inNon, nl)

/-- which loop has the equation, l.93-102 -/
def findLoop (loops : List (Loop × List (List Nat))) (i : Nat) : Option (Nat × Nat × Nat) :=
  (List.range loops.length).findSome? fun q =>
    (loops[q]?).bind fun l => (l.1.findEq i).map fun c => (q, c.1, c.2)

/-- a requested element of an equation in a loop, l.118-210 -/
def stepRow (M : Model) (l : Loop) (row : List Nat) (it e i j : Nat) (info : RowInfo) (ev : List Nat) (nl : Nat → List Nat) :
    Except Err (RowInfo × List Nat × (Nat → List Nat)) :=
  match stepIndexed l.iters it e i j row (tapeIndexes l it j) (info, ev) with
  | .error x => .error x
  | .ok (info, ev) =>
    match stepNon l.iters it e i j row (nonTape l j) info ev with
    | .error x => .error x
    | .ok (info, ev, inNon) =>
      match M.free with
      | none => .ok (info, ev, nl)
      | some fr => stepTmp l.iters it e i j l fr (row.filter (l.ind.length + l.non.length ≤ ·)) (info, ev, inNon, nl)

/-- one requested element, l.82-213 -/
def analyse (M : Model) (a : An) (r : Nat × Nat × Nat) : Except Err An :=
  match findLoop M.loops r.1 with
  | none =>
    match M.free with
    | none => .error .undefined
    | some fr =>
      match lastIdx fr.eqs r.1 with
      | none => .error .undefined
      | some il => .ok { a with
          nlEval := upd a.nlEval il (ins (a.nlEval il) r.2.1)
          nlLoc := upd2 a.nlLoc il r.2.1 (ins (a.nlLoc il r.2.1) r.2.2) }
  | some (q, tapeI, it) =>
    match M.loops[q]? with
    | none => .error .undefined
    | some (l, jac) =>
      match jac[tapeI]? with
      | none => .error .undefined
      | some row =>
        match stepRow M l row it r.2.2 r.1 r.2.1 (a.row q tapeI) (a.ev q tapeI) a.nlEval with
        | .error x => .error x
        | .ok (info, ev, nl) => .ok { a with row := upd2 a.row q tapeI info, ev := upd2 a.ev q tapeI ev, nlEval := nl }

/-- all requested elements (equation, variable, location) -/
def analyseAll (M : Model) : List (Nat × Nat × Nat) → An → Except Err An
  | [], a => .ok a
  | r :: rs, a =>
    match analyse M a r with
    | .ok a => analyseAll M rs a
    | .error x => .error x

/-! ### generated code -/

variable {α : Type}

/-- locations of the iterations, `createJacobianElement` l.485-493 -/
def locsOf (pos : List (Option Nat)) : List (Nat × Nat) :=
  (List.range pos.length).filterMap fun it => ((pos[it]?).join).map fun e => (it, e)

/-- `createJacobianElement`, l.476-519. Both index patterns of the code are the same function of the locations
(`detectV_eq`). -/
def jacElement (pos : List (Option Nat)) (val : Nat → α) (b : Body α) : Except Err (Body α) :=
  match loopResult (locsOf pos) pos.length val (locPat (locsOf pos)) true b with
  | some b => .ok b
  | none => .error .undefined

/-- `dyiDxtape[tapeI].find(tapeJ)`: only the requested derivatives exist, l.347-353 -/
def dy (D : Nat → Nat → α) (ev : List Nat) (t : Nat) : Option (Nat → α) :=
  if t ∈ ev then some (D t) else none

/-- indexed variables, l.419-432; `py` multiplies every element (1 for the Jacobian) -/
def genIndexed [CommRing α] (D : Nat → Nat → α) (py : Nat → α) (ev : List Nat) : Map (List (Option Nat)) → Body α → Except Err (Body α)
  | [], b => .ok b
  | (t, pos) :: m, b =>
    match dy D ev t with
    | none => .error .undefined
    | some v =>
      match jacElement pos (fun it => v it * py it) b with
      | .error x => .error x
      | .ok b => genIndexed D py ev m b

/-- sum over the temporaries, l.454-463 -/
def tmpSum [CommRing α] (l : Loop) (D : Nat → Nat → α) (ev : List Nat) (nl : Nat → List Nat) (G : Nat → Nat → α) (ne j : Nat) :
    List Nat → (Nat → α) → Option (Nat → α)
  | [], v => some v
  | k :: ks, v =>
    match tmpTape l k with
    | none => none
    | some t =>
      match dy D ev t with
      | none => none
      | some d =>
        if j ∈ nl (ne + k) then tmpSum l D ev nl G ne j ks fun it => v it + d it * G (ne + k) j
        else none

/-- non-indexed variables, l.434-470 -/
def genNon [CommRing α] (l : Loop) (D : Nat → Nat → α) (py : Nat → α) (ev : List Nat) (nl : Nat → List Nat) (G : Nat → Nat → α) (ne : Nat)
    (tmpEvals : Map (List Nat)) : Map (List (Option Nat)) → Body α → Except Err (Body α)
  | [], b => .ok b
  | (j, pos) :: m, b =>
    let v0 := ((nonTape l j).bind (dy D ev)).getD fun _ => 0
    match tmpSum l D ev nl G ne j ((tmpEvals.get j).getD []) v0 with
    | none => .error .undefined
    | some v =>
      match jacElement pos (fun it => v it * py it) b with
      | .error x => .error x
      | .ok b => genNon l D py ev nl G ne tmpEvals m b

/-- the tape equations of a loop, l.370-379: `D tapeI tapeJ it` are the derivatives of the tape -/
def genRows [CommRing α] (l : Loop) (D : Nat → Nat → Nat → α) (a : An) (q : Nat) (G : Nat → Nat → α) (ne : Nat) :
    List Nat → Body α → Except Err (Body α)
  | [], b => .ok b
  | tapeI :: rest, b =>
    match genIndexed (D tapeI) (fun _ => 1) (a.ev q tapeI) (a.row q tapeI).idxPos b with
    | .error x => .error x
    | .ok b =>
      match genNon l (D tapeI) (fun _ => 1) (a.ev q tapeI) a.nlEval G ne (a.row q tapeI).tmpEvals (a.row q tapeI).nonPos b with
      | .error x => .error x
      | .ok b => genRows l D a q G ne rest b

/-- the loops, l.308-398, generated and run one after the other -/
def runLoops [CommRing α] (M : Model) (D : Nat → Nat → Nat → Nat → α) (G : Nat → Nat → α) (ne : Nat) (a : An) :
    List Nat → (Nat → α) → Except Err (Nat → α)
  | [], out => .ok out
  | q :: qs, out =>
    match M.loops[q]? with
    | none => .error .undefined
    | some (l, _) =>
      if (List.range l.dep.length).all (fun tapeI => (a.ev q tapeI).isEmpty) then runLoops M D G ne a qs out
      else
        match genRows l (D q) a q G ne (List.range l.dep.length) ⟨[], []⟩ with
        | .error x => .error x
        | .ok b =>
          match runLoop b l.iters out with
          | none => .error .undefined
          | some out => runLoops M D G ne a qs out

/-- equations outside the loops, l.285-293: `jac[itE] = jacNoLoop[el]` -/
def freeOut [CommRing α] (M : Model) (G : Nat → Nat → α) (a : An) : Nat → α :=
  match M.free with
  | none => fun _ => 0
  | some fr =>
    (List.range fr.eqs.length).foldl (fun out il =>
      (a.nlEval il).foldl (fun out j =>
        (a.nlLoc il j).foldl (fun out e => upd out e (G il j)) out) out) fun _ => 0

/-- the Jacobian elements which the generated function stores: `prepareSparseJacobianWithLoops`, l.216-401.
`D q tapeI tapeJ it` are the derivatives of the tape of loop `q`, `G il j` those of the tape of the model without loops. -/
def jacobian [CommRing α] (M : Model) (D : Nat → Nat → Nat → Nat → α) (G : Nat → Nat → α) (req : List (Nat × Nat × Nat)) :
    Except Err (Nat → α) :=
  match analyseAll M req {} with
  | .error x => .error x
  | .ok a =>
    runLoops M D G M.nFree a (List.range M.loops.length) (freeOut M G a)

/-! ### zero order -/

/-- results of one loop, model_c_source_gen_loops_for0.hpp l.96-110: `Y tapeI it` are the values of the tape -/
def gen0 (l : Loop) (m : Nat) (Y : Nat → Nat → α) : List Nat → Body α → Except Err (Body α)
  | [], b => .ok b
  | t :: ts, b =>
    -- `depPatterns[i]`, loop_model.hpp l.422-432
    let pat := locPat ((List.range l.iters).filterMap fun it => (l.eq t it).map fun e => (it, e))
    let locs := (List.range l.iters).filterMap fun it => ((l.eq t it).filter (· < m)).map fun e => (it, e)
    match loopResult locs l.iters (Y t) pat false b with
    | none => .error .undefined
    | some b => gen0 l m Y ts b

def run0 [Add α] (M : Model) (m : Nat) (Y : Nat → Nat → Nat → α) : List Nat → (Nat → α) → Except Err (Nat → α)
  | [], out => .ok out
  | q :: qs, out =>
    match M.loops[q]? with
    | none => .error .undefined
    | some (l, _) =>
      match gen0 l m (Y q) (List.range l.dep.length) ⟨[], []⟩ with
      | .error x => .error x
      | .ok b =>
        match runLoop b l.iters out with
        | none => .error .undefined
        | some out => run0 M m Y qs out

/-- equations outside the loops, l.44-52 -/
def free0 [CommRing α] (M : Model) (F : Nat → α) : Nat → α :=
  match M.free with
  | none => fun _ => 0
  | some fr => (List.range fr.eqs.length).foldl (fun out il => match fr.eqs[il]? with
      | some i => upd out i (F il)
      | none => out) fun _ => 0

/-- the values stored by the generated zero order function: `F il` are the values of the model without loops -/
def forward0 [CommRing α] (M : Model) (m : Nat) (Y : Nat → Nat → Nat → α) (F : Nat → α) : Except Err (Nat → α) :=
  run0 M m Y (List.range M.loops.length) (free0 M F)

end Verif.Loops
