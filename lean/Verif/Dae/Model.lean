/-
Model of the structural analysis of DAEs: /repo/include/cppad/cg/dae_index_reduction.

Nodes are numbered: equations and variables by their position in `enodes_` and `vnodes_`. Names and
messages are not modelled. A null pointer dereferenced, or a recursion deeper than the given bound, is
undefined behaviour.
-/
namespace Verif.Dae

/-- `running`: a loop which has not ended within the given number of iterations -/
inductive Err
  | ub
  | exception
  | running
  deriving DecidableEq, Repr

/-- `Vnode`, bipartite_nodes.hpp l.217-408, with `BiPGraphNode`, l.30-71 -/
structure VN where
  colored : Bool := false
  deleted : Bool := false
  param : Bool := false
  eqs : List Nat := []
  assign : Option Nat := none
  deriv : Option Nat := none
  anti : Option Nat := none
  deriving DecidableEq, Repr

/-- `Enode`, bipartite_nodes.hpp l.80-199 -/
structure EN where
  colored : Bool := false
  orig : List Nat := []
  vars : List Nat := []
  diff : Option Nat := none
  diffOf : Option Nat := none
  assign : Option Nat := none
  deriving DecidableEq, Repr

/-- the graph: `vnodes_` and `enodes_` of `BipartiteGraph`, bipartite_graph.hpp l.47-49; nodes from `nv`
and `ne` on do not exist -/
structure BG where
  v : Nat → VN
  nv : Nat
  e : Nat → EN
  ne : Nat

namespace BG

/-- change of a variable -/
def setV (g : BG) (j : Nat) (f : VN → VN) : BG := { g with v := fun k => if k = j then f (g.v k) else g.v k }

/-- change of an equation -/
def setE (g : BG) (i : Nat) (f : EN → EN) : BG := { g with e := fun k => if k = i then f (g.e k) else g.e k }

/-- `color`, bipartite_nodes.hpp l.42-48 -/
def colorV (g : BG) (j : Nat) : BG := g.setV j fun n => { n with colored := true }
def colorE (g : BG) (i : Nat) : BG := g.setE i fun n => { n with colored := true }

/-- `setAssignmentEquation`, bipartite_nodes.hpp l.372-380, with `setAssigmentVariable`, l.157-159 -/
def setAssign (g : BG) (j i : Nat) : BG :=
  (g.setV j fun n => { n with assign := some i }).setE i fun n => { n with assign := some j }

/-- `uncolorAll`, bipartite_graph.hpp l.374-382 -/
def uncolorAll (g : BG) : BG :=
  { g with v := fun j => { g.v j with colored := false }, e := fun i => { g.e i with colored := false } }

/-- `Enode::addVariable`, bipartite_nodes.hpp l.143-151, with `Vnode::addEquation`, l.400-405 -/
def addVariable (g : BG) (i j : Nat) : BG :=
  if j ∈ (g.e i).orig then g
  else
    let g1 := g.setE i fun n => { n with orig := n.orig ++ [j] }
    if (g.v j).deleted then g1
    else (g1.setE i fun n => { n with vars := n.vars ++ [j] }).setV j fun n => { n with eqs := n.eqs ++ [i] }

/-- `Vnode::deleteNode`, bipartite_nodes.hpp l.356-366, with `Enode::deleteNode`, l.181-185 -/
def deleteV (g : BG) (j : Nat) : BG :=
  let g1 := g.setV j fun n => { n with deleted := true }
  let g2 := (g.v j).eqs.foldl (fun g i => g.setE i fun n => { n with vars := n.vars.erase j }) g1
  g2.setV j fun n => { n with eqs := [] }

/-- `createDerivate(Vnode&)`, bipartite_graph.hpp l.384-399: the derivative, and the graph afterwards -/
def derivV (g : BG) (j : Nat) : Nat × BG :=
  match (g.v j).deriv with
  | some d => (d, g)
  | none =>
    (g.nv, { (g.setV j fun n => { n with deriv := some g.nv }).setV g.nv (fun _ => { anti := some j }) with nv := g.nv + 1 })

/-- a step of `dirtyDifferentiateEq`, bipartite_graph.hpp l.501-511 -/
def dirtyVar (addOrig : Bool) (d : Nat) (g : BG) (j : Nat) : BG :=
  let g := if addOrig then g.addVariable d j else g
  match (g.v j).deriv with
  | some dj => g.addVariable d dj
  | none =>
    if (g.v j).param then g
    else
      let r := g.derivV j
      r.2.addVariable d r.1

/-- `createDerivate(Enode&, addOrigVars)`, bipartite_graph.hpp l.401-416, with `dirtyDifferentiateEq`,
l.498-512 -/
def derivE (addOrig : Bool) (g : BG) (i : Nat) : BG :=
  match (g.e i).diff with
  | some _ => g
  | none =>
    let d := g.ne
    let g1 := { (g.setE i fun n => { n with diff := some d }).setE d (fun _ => { diffOf := some i }) with ne := g.ne + 1 }
    (g.e i).orig.foldl (dirtyVar addOrig d) g1

end BG

/-- the third loop of `augmentPath`, augment_path_depth_lookahead.hpp l.63-76 -/
def tryVars (rec : Nat → BG → Except Err (Bool × BG)) (i : Nat) : List Nat → BG → Except Err (Bool × BG)
  | [], g => .ok (false, g)
  | j :: js, g =>
    if (g.v j).colored then tryVars rec i js g
    else
      let g1 := g.colorV j
      match (g1.v j).assign with
      | none => .error .ub
      | some k =>
        if (g1.e k).colored then tryVars rec i js g1
        else
          match rec k g1 with
          | .error x => .error x
          | .ok (true, g2) => .ok (true, g2.setAssign j i)
          | .ok (false, g2) => tryVars rec i js g2

/-- `AugmentPathDepthLookahead::augmentPath`, augment_path_depth_lookahead.hpp l.37-80 -/
def augmentPath : Nat → Nat → BG → Except Err (Bool × BG)
  | 0, _, _ => .error .ub
  | fuel + 1, i, g =>
    let g := g.colorE i
    match (g.e i).vars.find? (fun j => (g.v j).anti.isSome && (g.v j).assign.isNone) with
    | some j => .ok (true, g.setAssign j i)
    | none =>
      match (g.e i).vars.find? (fun j => (g.v j).anti.isNone && (g.v j).assign.isNone) with
      | some j => .ok (true, g.setAssign j i)
      | none => tryVars (augmentPath fuel) i (g.e i).vars g

/-- the second loop of `AugmentPathDepthLookaheadA::augmentPath`, augment_path_depth_lookahead_a.hpp l.55-73 -/
def tryVarsA (rec : Nat → BG → Except Err (Bool × BG)) (i : Nat) : List Nat → BG → Except Err (Bool × BG)
  | [], g => .ok (false, g)
  | j :: js, g =>
    if !(g.v j).colored && (g.v j).deriv.isNone && (g.v j).anti.isSome then
      match (g.v j).assign with
      | none => .error .ub
      | some k =>
        if (g.e k).colored then tryVarsA rec i js g
        else
          match rec k g with
          | .error x => .error x
          | .ok (true, g2) => .ok (true, g2.setAssign j i)
          | .ok (false, g2) => tryVarsA rec i js g2
    else tryVarsA rec i js g

/-- `AugmentPathDepthLookaheadA::augmentPath`, augment_path_depth_lookahead_a.hpp l.39-76 -/
def augmentPathA : Nat → Nat → BG → Except Err (Bool × BG)
  | 0, _, _ => .error .ub
  | fuel + 1, i, g =>
    let g := g.colorE i
    match (g.e i).vars.find? (fun j => (g.v j).deriv.isNone && (g.v j).anti.isSome && (g.v j).assign.isNone) with
    | some j => .ok (true, g.setAssign j i)
    | none => tryVarsA (augmentPathA fuel) i (g.e i).vars g

/-- deletion of the variables with a derivative, pantelides.hpp l.133-137 -/
def deleteDerived (g : BG) : BG :=
  (List.range g.nv).foldl (fun g j => if !(g.v j).deleted && (g.v j).deriv.isSome then g.deleteV j else g) g

/-- derivatives of the marked variables, pantelides.hpp l.144-151 -/
def derivMarkedV (g : BG) : BG :=
  (List.range g.nv).foldl (fun g j => if (g.v j).colored && !(g.v j).deleted then (g.derivV j).2 else g) g

/-- derivatives of the marked equations, pantelides.hpp l.153-160 -/
def derivMarkedE (g : BG) : BG :=
  (List.range g.ne).foldl (fun g l => if (g.e l).colored then g.derivE true l else g) g

/-- the check of the new equations (those from `esize` on), pantelides.hpp l.162-175 -/
def wellStructured (g : BG) (esize : Nat) : Bool :=
  (List.range g.ne).all fun l => l < esize || (g.e l).orig.any fun j => decide ((g.v j).eqs.length > 1)

/-- assignment of the new variables, pantelides.hpp l.177-182; `*jj->assignmentEquation()->derivative()` -/
def assignNew (g : BG) : Except Err BG :=
  (List.range g.nv).foldlM (fun g j =>
    if (g.v j).colored && !(g.v j).deleted then
      match (g.v j).deriv, (g.v j).assign with
      | some dj, some k =>
        match (g.e k).diff with
        | some dk => .ok (g.setAssign dj dk)
        | none => .error .ub
      | _, _ => .error .ub
    else .ok g) g

/-- after a failed attempt, pantelides.hpp l.143-184: the graph and the next equation -/
def differentiate (g : BG) (i : Nat) : Except Err (BG × Nat) :=
  let g1 := derivMarkedV g
  let g2 := derivMarkedE g1
  if wellStructured g2 g1.ne then
    match assignNew g2 with
    | .error x => .error x
    | .ok g3 =>
      match (g3.e i).diff with                                  -- l.184
      | some d => .ok (g3, d)
      | none => .error .ub
  else .error .exception

/-- the loop for an equation, pantelides.hpp l.126-192, with the default strategy. The recursion of
`augmentPath` is bounded by the number of equations. -/
def assignEquation : Nat → Nat → BG → Except Err BG
  | 0, _, _ => .error .running
  | fuel + 1, i, g =>
    let g := (deleteDerived g).uncolorAll
    match augmentPath g.ne i g with
    | .error x => .error x
    | .ok (true, g') => .ok g'
    | .ok (false, g') =>
      match differentiate g' i with
      | .error x => .error x
      | .ok (g'', i') => assignEquation fuel i' g''

/-- `Pantelides::detectSubset2Dif`, pantelides.hpp l.110-196: the outer loop is over the equations of
the original model. At most `fuel` attempts for each of them. -/
def detectSubset2Dif (fuel : Nat) (g : BG) : Except Err BG :=
  (List.range g.ne).foldlM (fun g k => assignEquation fuel k g) g

/-- `DaeVarInfo`, dae_var_info.hpp l.24-72: `antiDerivative_`, `integratedDependent_`, `integratedVariable_` -/
structure VarInfo where
  anti : Option Nat := none
  timeDep : Bool := true
  integrated : Bool := false
  deriving DecidableEq, Repr

/-- the loop of `determineVariableDiffOrder`, bipartite_graph.hpp l.1012-1017; an index which does not
exist is undefined behaviour -/
def antiCount (info : List VarInfo) : Nat → Nat → Except Err Nat
  | 0, _ => .error .running
  | fuel + 1, j =>
    match info[j]? with
    | none => .error .ub
    | some x =>
      match x.anti with
      | none => .ok 0
      | some a =>
        match antiCount info fuel a with
        | .ok k => .ok (k + 1)
        | .error e => .error e

/-- `determineVariableDiffOrder`, bipartite_graph.hpp l.1007-1021; `none`: the order -1. More antiderivatives
than variables are a cycle, the loop does not end. -/
def diffOrder (info : List VarInfo) (j : Nat) : Except Err (Option Nat) :=
  match info[j]? with
  | none => .error .ub
  | some x =>
    if x.timeDep then
      match antiCount info (info.length + 1) j with
      | .ok k => .ok (some k)
      | .error e => .error e
    else .ok none

/-- `new2Tape`, bipartite_graph.hpp l.190-202: the variables sorted by their order -/
def new2Tape (n : Nat) (order : Nat → Option Nat) (max : Nat) : List Nat :=
  (List.range (max + 1)).flatMap fun o => (List.range n).filter fun t => order t == some o

/-- the antiderivatives of the new variables, bipartite_graph.hpp l.207-220: `vnodes_[tape2New[tapeIndex0]]` -/
def antiNodes (info : List VarInfo) (tape : List Nat) : Except Err (List (Option Nat)) :=
  tape.mapM fun t =>
    match (info[t]?).bind VarInfo.anti with
    | none => .ok none
    | some a =>
      match tape.idxOf? a with
      | some p => .ok (some p)
      | none => .error .ub

/-- the nodes, bipartite_graph.hpp l.112-119 and l.204-220. `Vnode::Vnode`, bipartite_nodes.hpp l.270-286,
makes itself the derivative of its antiderivative: the last one remains. -/
def nodes (anti : List (Option Nat)) (m : Nat) : BG where
  v j := if j < anti.length then
      { anti := (anti[j]?).bind id, deriv := (List.range anti.length).reverse.find? fun d => (anti[d]?).bind id == some j }
    else {}
  nv := anti.length
  e _ := {}
  ne := m

/-- the edges, bipartite_graph.hpp l.222-232 -/
def edges (tape : List Nat) (n m : Nat) (inc : Nat → Nat → Bool) (g : BG) : BG :=
  (List.range m).foldl (fun g i => (List.range n).foldl (fun g p =>
    match tape.idxOf? p with
    | some j => if inc i p then g.addVariable i j else g
    | none => g) g) g

/-- the number of unknowns, bipartite_graph.hpp l.234-244 -/
def unknowns (g : BG) : Nat :=
  ((List.range g.nv).filter fun j => !(g.v j).param && ((g.v j).anti.isSome || (g.v j).deriv.isNone)).length

/-- `BipartiteGraph::BipartiteGraph`, bipartite_graph.hpp l.77-253, for `m` equations with the sparsity
pattern `inc`. Names are not modelled. -/
def construct (info : List VarInfo) (m : Nat) (inc : Nat → Nat → Bool) : Except Err BG :=
  if info = [] then .error .ub                                              -- l.139
  else if 1 < (info.filter VarInfo.integrated).length then .error .exception -- l.121-131
  else do
    let order ← (List.range info.length).mapM (diffOrder info)
    let tape := new2Tape info.length (fun t => (order[t]?).bind id) ((order.map (·.getD 0)).foldl max 0)
    let anti ← antiNodes info tape
    let g := edges tape info.length m inc (nodes anti m)
    if unknowns g = m then .ok g else .error .exception

/-- the loop of `getStructuralIndex`, bipartite_graph.hpp l.338-341: how often `derivativeOf` is followed -/
def eqOrder (g : BG) : Nat → Nat → Except Err Nat
  | 0, _ => .error .running
  | fuel + 1, k =>
    match (g.e k).diffOf with
    | none => .ok 0
    | some i =>
      match eqOrder g fuel i with
      | .ok n => .ok (n + 1)
      | .error e => .error e

/-- `getDerivative() < 0`, with `setDerivative` of bipartite_graph.hpp l.100-106 -/
def noDerivative (info : List VarInfo) (j : Nat) : Bool := info.all fun x => x.anti != some j

/-- the search for an algebraic variable, bipartite_graph.hpp l.318-325 -/
def isDAE (info : List VarInfo) : Bool :=
  (List.range info.length).any fun j =>
    match info[j]? with
    | some x => noDerivative info j && !x.integrated && x.timeDep
    | none => false

/-- an iteration of the second loop of `getStructuralIndex`, bipartite_graph.hpp l.334-345 -/
def indexStep (g : BG) (idx i : Nat) : Except Err Nat :=
  match (g.e i).diff with
  | some _ => .ok idx
  | none =>
    match eqOrder g (g.ne + 1) i with
    | .ok o => .ok (if o > idx then o else idx)
    | .error e => .error e

/-- `getStructuralIndex`, bipartite_graph.hpp l.314-349, for `m` original equations -/
def structuralIndex (info : List VarInfo) (m : Nat) (g : BG) : Except Err Nat :=
  if m = g.ne then .ok (if isDAE info then 1 else 0)
  else
    match (List.range' m (g.ne - m)).foldlM (indexStep g) 0 with
    | .ok idx => .ok (idx + 1)
    | .error e => .error e

end Verif.Dae
