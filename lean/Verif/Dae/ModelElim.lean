/-
Model of the choice of equations for the elimination of variables: dae_index_reduction/dummy_deriv.hpp l.725-1114.

The residuals and the handler are a parameter: what can be solved, and the residuals after a substitution. Undoing a
substitution gives back the former residuals. Variables are numbered by their index on the tape.
-/
import Verif.Dae.Model
namespace Verif.Dae.Elim

/-- `handler` with `res0` and `indep0` -/
structure Eng (σ : Type) where
  /-- `isSolvable(res0[e], indep0[v])` -/
  solvable : σ → Nat → Nat → Bool
  /-- `substituteIndependent(indep0[v], res0[e], false)`; `none`: an exception -/
  subst : σ → Nat → Nat → Option σ

/-- what is given: the variables to be eliminated, the number of equations and of variables on the tape; `ord` is the order
of a set of pointers to equations. With `both` an edge which is removed is removed from the variable too (the code has
`both = false`). -/
structure In where
  diff : List Nat
  dummy : List Nat
  ne : Nat
  n : Nat
  ord : List Nat → List Nat
  both : Bool

/-- `variables`, l.772-774 -/
def In.variables (p : In) : List Nat := p.diff ++ p.dummy

/-- the keys of `tape2FreeVariables`, l.799-802 -/
def In.free (p : In) : List Nat := (List.range p.n).filter fun v => p.variables.contains v

/-- the graph, `jacSparsity`, the residuals -/
structure St (σ : Type) where
  g : BG
  jac : Nat → Nat → Bool
  h : σ

variable {σ : Type}

/-- `affected`, l.1014-1023 -/
def affected (p : In) (s : St σ) (i j : Nat) : List Nat := (List.range p.ne).filter fun e => e != i && s.jac e j

/-- `localJacSparsity`, l.1007-1023 -/
def newJac (p : In) (s : St σ) (i j : Nat) : Nat → Nat → Bool := fun e k =>
  if (affected p s i j).contains e then
    if k = j then false else s.jac e k || (p.free.contains k && s.jac i k)
  else s.jac e k

/-- whether `solvable[v]` contains an equation, l.1029-1051 -/
def solvableIn (E : Eng σ) (p : In) (s : St σ) (h : σ) (i j v e : Nat) : Bool :=
  if (affected p s i j).contains e then newJac p s i j e v && E.solvable h e v
  else e != i && (s.g.e e).vars.contains v

/-- no variable stops being solvable, l.1053-1070 -/
def check (E : Eng σ) (p : In) (s : St σ) (h : σ) (i j : Nat) : Bool :=
  p.free.all fun v => v == j ||
    match (s.g.v v).assign with
    | some e => !((affected p s i j).contains e && !solvableIn E p s h i j v e)
    | none => (List.range p.ne).any fun e => solvableIn E p s h i j v e

/-- `a.deleteNode`, bipartite_nodes.hpp l.181-185; it leaves the equation in the list of the variable -/
def deleteEdge (both : Bool) (g : BG) (a v : Nat) : BG :=
  let g := g.setE a fun n => { n with vars := n.vars.erase v }
  if both then g.setV v fun n => { n with eqs := n.eqs.erase a } else g

/-- the new edges of an affected equation, l.1084-1095 -/
def newEdges (p : In) (jac : Nat → Nat → Bool) (sol : Nat → Nat → Bool) (g : BG) (a : Nat) : BG :=
  p.free.foldl (fun g v =>
    if jac a v then
      if sol v a then g.addVariable a v
      else deleteEdge p.both g a v
    else g) g

/-- `assignVar2Equation`, l.961-1114: false if the substitution was undone -/
def assignVar (E : Eng σ) (p : In) (s : St σ) (i j : Nat) : Except Err (Bool × St σ) :=
  match E.subst s.h i j with
  | none => .error .exception
  | some h =>
    if (affected p s i j).isEmpty then .ok (true, ⟨(s.g.setAssign j i).deleteV j, s.jac, h⟩)
    else if check E p s h i j then
      let g := (p.ord (affected p s i j)).foldl (newEdges p (newJac p s i j) (solvableIn E p s h i j)) s.g
      .ok (true, ⟨(g.setAssign j i).deleteV j, newJac p s i j, h⟩)
    else .ok (false, s)

/-- a variable which only one equation can be solved for, l.817-829 and l.837-847; `must`: failing is an exception -/
def single (E : Eng σ) (p : In) (must : Bool) (s : St σ × Nat) (j : Nat) : Except Err (St σ × Nat) :=
  if !(s.1.g.v j).deleted && (s.1.g.v j).eqs.length == 1 then
    match (s.1.g.v j).eqs with
    | [] => .ok s
    | i :: _ =>
      if (s.1.g.e i).assign.isNone then
        match assignVar E p s.1 i j with
        | .error x => .error x
        | .ok (true, s') => .ok (s', s.2 + 1)
        | .ok (false, s') => if must then .error .exception else .ok (s', s.2)
      else .ok s
  else .ok s

/-- an equation which can only be solved for one variable, l.854-863 -/
def singleEq (E : Eng σ) (p : In) (s : St σ × Nat) (i : Nat) : Except Err (St σ × Nat) :=
  if (s.1.g.e i).assign.isNone && (s.1.g.e i).vars.length == 1 then
    match (s.1.g.e i).vars with
    | [] => .ok s
    | j :: _ =>
      match assignVar E p s.1 i j with
      | .error x => .error x
      | .ok (true, s') => .ok (s', s.2 + 1)
      | .ok (false, s') => .ok (s', s.2)
  else .ok s

/-- the equations of a tearing variable, l.875-884 -/
def tearEq (E : Eng σ) (p : In) (j : Nat) : List Nat → St σ → Except Err (Bool × St σ)
  | [], s => .ok (false, s)
  | i :: is, s =>
    if (s.g.e i).assign.isNone then
      match assignVar E p s i j with
      | .error x => .error x
      | .ok (true, s') => .ok (true, s')
      | .ok (false, s') => tearEq E p j is s'
    else tearEq E p j is s

/-- a tearing variable, l.873-888 -/
def tear (E : Eng σ) (p : In) : List Nat → St σ → Except Err (Bool × St σ)
  | [], s => .ok (false, s)
  | j :: js, s =>
    if (s.g.v j).deleted then tear E p js s
    else
      match tearEq E p j (s.g.v j).eqs s with
      | .error x => .error x
      | .ok (true, s') => .ok (true, s')
      | .ok (false, s') => tear E p js s'

/-- a loop repeated while something is assigned -/
def repeatWhile (round : St σ → Except Err (St σ × Nat)) : Nat → St σ → Except Err (St σ)
  | 0, _ => .error .running
  | fuel + 1, s =>
    match round s with
    | .error x => .error x
    | .ok (s', k) => if k > 0 then repeatWhile round fuel s' else .ok s'

/-- l.815-830 -/
def loop1 (E : Eng σ) (p : In) (fuel : Nat) : St σ → Except Err (St σ) :=
  repeatWhile (fun s => p.diff.foldlM (single E p true) (s, 0)) fuel

/-- l.811-848 -/
def loop2 (E : Eng σ) (p : In) (fuel : Nat) : St σ → Except Err (St σ) :=
  repeatWhile (fun s => do
    let s ← loop1 E p fuel s
    p.dummy.foldlM (single E p false) (s, 0)) fuel

/-- l.810-865 -/
def loop3 (E : Eng σ) (p : In) (fuel : Nat) : St σ → Except Err (St σ) :=
  repeatWhile (fun s => do
    let s ← loop2 E p fuel s
    (List.range p.ne).foldlM (singleEq E p) (s, 0)) fuel

/-- l.808-893 -/
def loop4 (E : Eng σ) (p : In) (fuel : Nat) : St σ → Except Err (St σ) :=
  repeatWhile (fun s => do
    let s ← loop3 E p fuel s
    let (b, s) ← tear E p p.variables s
    pure (s, if b then 1 else 0)) fuel

/-- the graph, l.776-797; `orig`: the variables of the equations -/
def start (E : Eng σ) (p : In) (orig : Nat → List Nat) (jac : Nat → Nat → Bool) (h : σ) : St σ where
  g := (List.range p.ne).foldl (fun g i => (orig i).foldl (fun g v =>
    if p.variables.contains v && jac i v && E.solvable h i v then g.addVariable i v else g) g)
    { v := fun _ => {}, nv := p.n, e := fun _ => {}, ne := p.ne }
  jac := jac
  h := h

/-- the remaining assignments, l.896-911; nothing is uncolored -/
def remaining (p : In) (g : BG) : Except Err BG :=
  let g := p.variables.foldl (fun g j => if (g.v j).assign.isSome then g.deleteV j else g) g
  (List.range p.ne).foldlM (fun g i =>
    if (g.e i).assign.isNone then
      match augmentPath g.ne i g with
      | .error x => .error x
      | .ok (_, g') => .ok g'
    else .ok g) g

/-- the results, l.913-925: the variables assigned to equations -/
def save (p : In) (g : BG) (info : Nat → Option Nat) : Nat → Option Nat :=
  p.variables.foldl (fun info j =>
    match (g.v j).assign with
    | some i => fun e => if e = i then some j else info e
    | none => info) info

/-- `matchVars2Eqs4Elimination`, l.725-959; `semi`: `generateSemiExplicitDae_` -/
def matchVars (E : Eng σ) (p : In) (semi : Bool) (fuel : Nat) (orig : Nat → List Nat) (jac : Nat → Nat → Bool) (h : σ)
    (info : Nat → Option Nat) : Except Err (St σ × (Nat → Option Nat)) :=
  match loop4 E p fuel (start E p orig jac h) with
  | .error x => .error x
  | .ok s =>
    match remaining p s.g with
    | .error x => .error x
    | .ok g =>
      if semi && p.diff.any fun j => (g.v j).assign.isNone then .error .exception
      else .ok (⟨g, s.jac, s.h⟩, save p g info)

end Verif.Dae.Elim
