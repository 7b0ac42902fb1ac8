import Verif.Loops.ModelJac
import Verif.Loops.SpecHess

/-
Model of the sparse Hessian for models with loops,
/repo/include/cppad/cg/model/patterns/model_c_source_gen_loops_hess.hpp: `analyseSparseHessianWithLoops` (l.51-540),
`addContribution` (l.542-555), `prepareSparseHessianWithLoops` (l.557-984), both `createHessianContribution` (l.988-1094);
/repo/include/cppad/cg/patterns/iter_equation_group.hpp l.84-170 (`evalHessianSparsity`), loop_model.hpp l.160-195 (equation
groups), loop_free_model.hpp `createConditionalOperation` (l.173-221), `calculateJacobianHessianUsedByLoops` (l.235-346),
`calculateHessian4OrignalEquations` (l.348-400), model_c_source_gen_loops.hpp `createLoopDependentVector` (l.144-166).

The analysis only writes to its tables; they are read when the code is generated. A table is therefore the list of the writes in
the order of the code, and looking something up goes through this list. What CppAD computes is given: sparsity patterns, first and
second derivatives of the tapes at each iteration. Second derivatives which were not requested do not exist (`undefined`); first
derivatives of the temporaries which were not requested are the default value 0 of a map (`dzDx[k][j]`).

`isZ` says whether an expression is the constant 0 for the code (`isIdenticalZero`); nothing is known about it except that it is
right when it says so.

Simplifications: as for the Jacobian; sets are lists in the order of insertion; the checks for repeated elements, which are only
made in debug mode, are left out.
-/
namespace Verif.Loops

open Verif.Index Verif.Ranges

variable {α : Type}

/-- insertion in a `std::set` -/
def insL {β : Type} [DecidableEq β] (s : List β) (x : β) : List β := if x ∈ s then s else s ++ [x]

/-- the elements without repetition -/
def nub {β : Type} [DecidableEq β] (l : List β) : List β := l.foldl insL []

/-! ### groups of equations present at the same iterations -/

/-- `IterEquationGroup` -/
structure Group where
  tapeI : List Nat
  its : List Nat

/-- iterations at which a tape equation is present, loop_model.hpp l.167-173 -/
def itersOf (l : Loop) (i : Nat) : List Nat := (List.range l.iters).filter fun it => (l.eq i it).isSome

/-- equation groups, loop_model.hpp l.160-195 -/
def groups (l : Loop) : List Group :=
  (nub ((List.range l.dep.length).map (itersOf l))).map fun its => ⟨(List.range l.dep.length).filter fun i => itersOf l i = its, its⟩

/-! ### analysis -/

/-- tables of positions -/
inductive Cat
  /-- `indexedIndexedPositions` -/
  | ii
  /-- `indexedNonIndexedPositions` -/
  | inn
  /-- `indexedTempPositions` -/
  | it
  /-- `nonIndexedIndexedPositions` -/
  | ni
  /-- `tempIndexedPositions` -/
  | ti
deriving DecidableEq

/-- one write to a table -/
inductive Wr
  /-- `evalHessSparsity[t1].insert(t2)` -/
  | ev (t1 t2 : Nat)
  /-- `positions[K][it].location = e; positions[K][it].count++` -/
  | pos (c : Cat) (K : Nat × Nat) (it e : Nat)
  /-- `indexedTempEvals[K].insert(k)` -/
  | itE (K : Nat × Nat) (k : Nat)
  /-- `nonIndexedNonIndexedEvals.insert(o)` -/
  | nnE (o : Nat × Nat)
  /-- `nonIndexedTempEvals[o].insert(k)` -/
  | ntE (o : Nat × Nat) (k : Nat)
  /-- `tempNonIndexedEvals[o].insert(k)` -/
  | tnE (o : Nat × Nat) (k : Nat)
  /-- `tempTempEvals[o][k1].insert(k2)` -/
  | ttE (o : Nat × Nat) (k1 k2 : Nat)
  /-- `nonIndexedNonIndexedPosition[o] = e` -/
  | const (o : Nat × Nat) (e : Nat)
  /-- `noLoopEvalJacSparsity[r].insert(j)` -/
  | need (r j : Nat)
  /-- `nonLoopNonIndexedNonIndexed[o].insert(k)` -/
  | nl (o : Nat × Nat) (k : Nat)
  /-- `evalJacSparsity[i].insert(t)` -/
  | evJac (i t : Nat)
  /-- `noLoopEvalHessTempsSparsity[j1].insert(j2)` -/
  | tmpHes (j1 j2 : Nat)
deriving DecidableEq

/-- loop, equation groups with their patterns, and the model without loops, as the analysis of one request sees them -/
structure Cx where
  l : Loop
  jac : List (List Nat)
  gs : List (Nat × Group)
  row : Nat → Nat → List Nat
  fr : Option Free
  hesTmp : Nat → List Nat
  sym : Bool

/-- the temporary `k` depends on the variable `j` -/
def Free.dep (fr : Free) (k j : Nat) : Bool := decide (j ∈ (fr.jac[fr.eqs.length + k]?).getD [])

/-- tape variables which are temporaries in a row of a Hessian pattern (`lower_bound(nIndexed + nNonIndexed)`), with the temporary -/
def tmpsIn (l : Loop) (row : List Nat) : List (Nat × Nat) :=
  (List.range l.tmp.length).filterMap fun p =>
    if l.ind.length + l.non.length + p ∈ row then (l.tmp[p]?).map fun k => (l.ind.length + l.non.length + p, k) else none

/-- some tape variable for the non-indexed variable `j` satisfies `f` -/
def nonAny (l : Loop) (j : Nat) (f : Nat → Bool) : Bool :=
  (List.range l.non.length).any fun p => l.non[p]? == some j && f (l.ind.length + p)

/-- indexed - indexed, l.155-185 and iter_equation_group.hpp l.107-123 -/
def wII (c : Cx) (j1 j2 e : Nat) (g : Nat) (gr : Group) : List (Nat × Wr) :=
  gr.its.flatMap fun it =>
    ((List.range c.l.ind.length).filter fun t1 => c.l.var t1 it == some j1).flatMap fun t1 =>
      ((List.range c.l.ind.length).filter fun t2 => decide (t2 ∈ c.row g t1) && c.l.var t2 it == some j2).flatMap fun t2 =>
        let K := if c.sym && decide (t2 < t1) && decide (t1 ∈ c.row g t2) then (t2, t1) else (t1, t2)
        [(g, .pos .ii K it e), (g, .ev K.1 K.2)]

/-- indexed - non-indexed, l.188-219 and iter_equation_group.hpp l.125-131 -/
def wIN (c : Cx) (j1 j2 e : Nat) (g : Nat) (gr : Group) : List (Nat × Wr) :=
  match nonTape c.l j2 with
  | none => []
  | some p2 => gr.its.flatMap fun it =>
    ((List.range c.l.ind.length).filter fun t1 => c.l.var t1 it == some j1 && nonAny c.l j2 fun t2 => decide (t2 ∈ c.row g t1)).flatMap fun t1 =>
      if c.sym && decide (t1 ∈ c.row g p2) then [(g, .ev p2 t1), (g, .pos .ni (p2, t1) it e)]
      else [(g, .ev t1 p2), (g, .pos .inn (t1, p2) it e)]

/-- indexed - temporary, l.222-284 -/
def wIT (c : Cx) (fr : Free) (j1 j2 e : Nat) (it : Nat) (g : Nat) (gr : Group) : List (Nat × Wr) :=
  if it ∈ gr.its then
    ((List.range c.l.ind.length).filter fun t1 => c.l.var t1 it == some j1).flatMap fun t1 =>
      let ks := (tmpsIn c.l (c.row g t1)).filter fun p => fr.dep p.2 j2
      (ks.flatMap fun p => [(g, .need (fr.eqs.length + p.2) j2), (g, .itE (t1, j2) p.2), (g, .ev t1 ((tmpTape c.l p.2).getD 0))]) ++
        if ks = [] then [] else [(g, .pos .it (t1, j2) it e)]
  else []

/-- non-indexed - indexed, l.286-311 and iter_equation_group.hpp l.134-149 -/
def wNI (c : Cx) (j1 j2 e : Nat) (g : Nat) (gr : Group) : List (Nat × Wr) :=
  match nonTape c.l j1 with
  | none => []
  | some p1 => gr.its.flatMap fun it =>
    ((List.range c.l.ind.length).filter fun t2 => c.l.var t2 it == some j2 && nonAny c.l j1 fun t1 => decide (t2 ∈ c.row g t1)).flatMap fun t2 =>
      [(g, .pos .ni (p1, t2) it e), (g, .ev p1 t2)]

/-- non-indexed - non-indexed, l.313-337 and iter_equation_group.hpp l.151-155 -/
def wNN (c : Cx) (j1 j2 e : Nat) (g : Nat) (gr : Group) : List (Nat × Wr) :=
  match nonTape c.l j1, nonTape c.l j2 with
  | some p1, some p2 =>
    if gr.its ≠ [] ∧ nonAny c.l j1 (fun t1 => nonAny c.l j2 fun t2 => decide (t2 ∈ c.row g t1)) = true then
      [(g, .nnE (j1, j2)), (g, .ev p1 p2), (g, .const (j1, j2) e)]
    else []
  | _, _ => []

/-- non-indexed - temporary, l.339-376 -/
def wNT (c : Cx) (fr : Free) (j1 j2 e : Nat) (g : Nat) : List (Nat × Wr) :=
  match nonTape c.l j1 with
  | none => []
  | some p1 => ((tmpsIn c.l (c.row g p1)).filter fun p => fr.dep p.2 j2).flatMap fun p =>
      [(g, .need (fr.eqs.length + p.2) j2), (g, .const (j1, j2) e), (g, .ntE (j1, j2) p.2), (g, .ev p1 ((tmpTape c.l p.2).getD 0))]

/-- an earlier temporary of the loop at `k1` wrote positions for the tape variable `t2` (`usedTapeJ2`, l.388, 416, 443) -/
def usedTape (c : Cx) (fr : Free) (j1 g k1 t2 : Nat) : Bool :=
  (List.range k1).any fun k => fr.dep k j1 && match tmpTape c.l k with
    | some pk => decide (t2 ∈ c.row g pk)
    | none => false

/-- temporary - indexed, l.400-453 and iter_equation_group.hpp l.158-171 -/
def wTI (c : Cx) (fr : Free) (j1 j2 e k1 pk : Nat) (g : Nat) (gr : Group) : List (Nat × Wr) :=
  ((List.range c.l.ind.length).filter fun t2 => t2 ∈ c.row g pk).flatMap fun t2 =>
    (gr.its.filter fun it => c.l.var t2 it == some j2).flatMap fun it =>
      (if c.sym && decide (pk ∈ c.row g t2) then
        (if usedTape c fr j1 g k1 t2 then [] else [(g, .pos .it (t2, j1) it e)]) ++ [(g, .ev t2 pk)]
      else
        (if usedTape c fr j1 g k1 t2 then [] else [(g, .pos .ti (j1, t2) it e)]) ++ [(g, .ev pk t2)]) ++
      [(g, .itE (t2, j1) k1)]

/-- temporary - non-indexed, l.455-474: the row is searched for `j2`, which is a variable of the whole model and not of the tape -/
def wTN (c : Cx) (j1 j2 e k1 pk : Nat) (g : Nat) : List (Nat × Wr) :=
  match nonTape c.l j2 with
  | none => []
  | some p2 => if j2 ∈ c.row g pk then [(g, .const (j1, j2) e), (g, .tnE (j1, j2) k1), (g, .ev pk p2)] else []

/-- temporary - temporary, l.477-504 -/
def wTT (c : Cx) (fr : Free) (j1 j2 e k1 pk : Nat) (g : Nat) : List (Nat × Wr) :=
  ((tmpsIn c.l (c.row g pk)).filter fun p => fr.dep p.2 j2).flatMap fun p =>
    [(g, .const (j1, j2) e), (g, .ttE (j1, j2) k1 p.2), (g, .ev pk p.1), (g, .need (fr.eqs.length + p.2) j2)]

/-- first derivative of the loop, second derivative of the temporary, l.510-534 -/
def wDZ (c : Cx) (j1 j2 e k1 pk : Nat) : List (Nat × Wr) :=
  if j2 ∈ c.hesTmp j1 then
    ((List.range c.jac.length).filter fun i => pk ∈ (c.jac[i]?).getD []).flatMap fun i =>
      [(0, .const (j1, j2) e), (0, .nl (j1, j2) k1), (0, .evJac i pk), (0, .tmpHes j1 j2)]
  else []

/-- one temporary, l.390-535 -/
def wTmp (c : Cx) (fr : Free) (j1 j2 e k1 : Nat) : List (Nat × Wr) :=
  if fr.dep k1 j1 then
    match tmpTape c.l k1 with
    | none => []
    | some pk =>
      (c.gs.flatMap fun g => wTI c fr j1 j2 e k1 pk g.1 g.2 ++ wTN c j1 j2 e k1 pk g.1 ++ wTT c fr j1 j2 e k1 pk g.1) ++
        [(0, .need (fr.eqs.length + k1) j1)] ++ wDZ c j1 j2 e k1 pk
  else []

/-- all writes for a requested element of one loop, l.132-538 -/
def wLoop (c : Cx) (r : Nat × Nat × Nat) : List (Nat × Wr) :=
  (c.gs.flatMap fun g => wII c r.1 r.2.1 r.2.2 g.1 g.2 ++ wIN c r.1 r.2.1 r.2.2 g.1 g.2) ++
  (match c.fr with
    | none => []
    | some fr => (List.range c.l.iters).flatMap fun it => c.gs.flatMap fun g => wIT c fr r.1 r.2.1 r.2.2 it g.1 g.2) ++
  (c.gs.flatMap fun g => wNI c r.1 r.2.1 r.2.2 g.1 g.2) ++
  (c.gs.flatMap fun g => wNN c r.1 r.2.1 r.2.2 g.1 g.2) ++
  (match c.fr with
    | none => []
    | some fr => (c.gs.flatMap fun g => wNT c fr r.1 r.2.1 r.2.2 g.1) ++
      (List.range (fr.jac.length - fr.eqs.length)).flatMap fun k1 => wTmp c fr r.1 r.2.1 r.2.2 k1)

/-- the context of loop `q` -/
def cxOf (M : Model) (P : Hes) (sym : Bool) (q : Nat) (l : Loop) (jac : List (List Nat)) : Cx :=
  ⟨l, jac, (groups l).zipIdx.map fun p => (p.2, p.1), fun g => P.row q ((((groups l)[g]?).map (·.tapeI)).getD []), M.free, P.tmp, sym⟩

/-- writes for loop `q` -/
def writes (M : Model) (P : Hes) (sym : Bool) (req : List (Nat × Nat × Nat)) (q : Nat) : List (Nat × Wr) :=
  match M.loops[q]? with
  | none => []
  | some lj => req.flatMap (wLoop (cxOf M P sym q lj.1 lj.2))

/-- writes for all loops -/
def allWrites (M : Model) (P : Hes) (sym : Bool) (req : List (Nat × Nat × Nat)) : List (Nat × Wr) :=
  (List.range M.loops.length).flatMap (writes M P sym req)

/-- the table `noLoopEvalJacSparsity` has `m` rows, l.81: writing to another row is undefined behaviour -/
def inBounds (m : Nat) (ws : List (Nat × Wr)) : Bool := ws.all fun w => match w.2 with
  | .need r _ => decide (r < m)
  | _ => true

/-! ### look-ups -/

/-- `HessianElement` -/
structure HEl where
  loc : Option Nat := none
  cnt : Nat := 0

/-- writes to the positions in table `c` of group `g`: key, iteration, location -/
def posWr (ws : List (Nat × Wr)) (g : Nat) (c : Cat) : List ((Nat × Nat) × Nat × Nat) :=
  ws.filterMap fun w => match w.2 with
    | .pos c' K it e => if w.1 = g ∧ c' = c then some (K, it, e) else none
    | _ => none

/-- the `HessianElement`s of one key -/
def posOf (n : Nat) (ps : List ((Nat × Nat) × Nat × Nat)) (K : Nat × Nat) : List HEl :=
  (List.range n).map fun it =>
    let here := ps.filter fun p => p.1 = K ∧ p.2.1 = it
    ⟨here.getLast?.map (·.2.2), here.length⟩

/-- `indexedTempEvals[K]` of group `g` -/
def itEvals (ws : List (Nat × Wr)) (g : Nat) (K : Nat × Nat) : List Nat :=
  nub (ws.filterMap fun w => match w.2 with
    | .itE K' k => if w.1 = g ∧ K' = K then some k else none
    | _ => none)

/-- keys of `indexedTempEvals` of group `g` -/
def itKeys (ws : List (Nat × Wr)) (g : Nat) : List (Nat × Nat) :=
  nub (ws.filterMap fun w => match w.2 with
    | .itE K _ => if w.1 = g then some K else none
    | _ => none)

/-- `nonIndexedTempEvals[o]` -/
def ntEvals (ws : List (Nat × Wr)) (g : Nat) (o : Nat × Nat) : List Nat :=
  nub (ws.filterMap fun w => match w.2 with
    | .ntE o' k => if w.1 = g ∧ o' = o then some k else none
    | _ => none)

/-- `tempNonIndexedEvals[o]` -/
def tnEvals (ws : List (Nat × Wr)) (g : Nat) (o : Nat × Nat) : List Nat :=
  nub (ws.filterMap fun w => match w.2 with
    | .tnE o' k => if w.1 = g ∧ o' = o then some k else none
    | _ => none)

/-- keys of `tempTempEvals[o]` -/
def ttKeys (ws : List (Nat × Wr)) (g : Nat) (o : Nat × Nat) : List Nat :=
  nub (ws.filterMap fun w => match w.2 with
    | .ttE o' k1 _ => if w.1 = g ∧ o' = o then some k1 else none
    | _ => none)

/-- `tempTempEvals[o][k1]` -/
def ttEvals (ws : List (Nat × Wr)) (g : Nat) (o : Nat × Nat) (k1 : Nat) : List Nat :=
  nub (ws.filterMap fun w => match w.2 with
    | .ttE o' k1' k2 => if w.1 = g ∧ o' = o ∧ k1' = k1 then some k2 else none
    | _ => none)

/-- writes to `nonIndexedNonIndexedPosition` -/
def constWr (ws : List (Nat × Wr)) : List ((Nat × Nat) × Nat) :=
  ws.filterMap fun w => match w.2 with
    | .const o e => some (o, e)
    | _ => none

/-- the entries of `nonIndexedNonIndexedPosition` -/
def constPos (ws : List (Nat × Wr)) : List ((Nat × Nat) × Nat) :=
  (nub ((constWr ws).map (·.1))).filterMap fun o =>
    ((constWr ws).filter fun p => p.1 = o).getLast?

/-- `nonLoopNonIndexedNonIndexed.find(o) != end` -/
def nlFound (ws : List (Nat × Wr)) (o : Nat × Nat) : Bool := ws.any fun w => match w.2 with
  | .nl o' _ => decide (o' = o)
  | _ => false

/-! ### generated code -/

/-- the location of the weights, `depPatterns[i]` and `createLoopDependentVector`: `W` is the memory they are read from -/
def weight (l : Loop) (W : Int → α) (i it : Nat) : α :=
  match (locPat ((List.range l.iters).filterMap fun it => (l.eq i it).map fun e => (it, e))).eval it with
  | some r => W r
  | none => W (-1)

/-- `infog.hess[t1].at(t2)`: the Hessian of the group weighted by the weights of its equations -/
def hv [CommRing α] (l : Loop) (W : Int → α) (H : Nat → Nat → Nat → Nat → α) (ws : List (Nat × Wr)) (g : Nat) (gr : Group) (t1 t2 : Nat) :
    Option (Nat → α) :=
  if (g, Wr.ev t1 t2) ∈ ws then some fun it => (gr.tapeI.map fun i => weight l W i it * H i t1 t2 it).sum else none

/-- `dzDx[k][j]` -/
def dzDx [CommRing α] (ne : Nat) (G : Nat → Nat → α) (all : List (Nat × Wr)) (k j : Nat) : α :=
  if all.any fun w => decide (w.2 = Wr.need (ne + k) j) then G (ne + k) j else 0

/-- sum over temporaries of a second derivative of the loop times the derivative of the temporary -/
def tmpDot [CommRing α] (h : Nat → Option (Nat → α)) (dz : Nat → α) : List Nat → (Nat → α) → Option (Nat → α)
  | [], v => some v
  | k :: ks, v => match h k with
    | none => none
    | some f => tmpDot h dz ks fun it => v it + f it * dz k

/-- `val = ddfdxdx; for (c = 1; c < count; c++) val += ddfdxdx` -/
def rep [CommRing α] (v : Nat → α) : Nat → Nat → α
  | 0 => v
  | 1 => v
  | c + 2 => fun it => rep v (c + 1) it + v it

/-- iterations and locations with this number of additions, l.1000-1009 -/
def countLocs (pos : List HEl) (c : Nat) : List (Nat × Nat) :=
  (List.range pos.length).filterMap fun it => match pos[it]? with
    | some h => if h.cnt = c then h.loc.map fun e => (it, e) else none
    | none => none

/-- the numbers of additions, ascending -/
def counts (pos : List HEl) : List Nat :=
  (List.range ((pos.map (·.cnt)).sum + 1)).filter fun c => decide (0 < c) && pos.any fun h => h.cnt == c

def opt {β : Type} : Option β → Except Err β
  | some b => .ok b
  | none => .error .undefined

/-- first `createHessianContribution`, l.988-1057, with `addContribution` and the insertion in the arguments of `LoopEnd` -/
def hessContr [CommRing α] (isZ : (Nat → α) → Bool) (pos : List HEl) (val : Nat → α) (b : Body α) : Except Err (Body α) :=
  if isZ val then .ok b
  else
    match counts pos with
    | [c] =>
      if (countLocs pos c).length = pos.length then
        if isZ (rep val c) then .ok b
        else .ok { b with args := b.args ++ [.direct ⟨rep val c, locPat (countLocs pos c), true⟩] }
      else opt (condContr [⟨rep val c, countLocs pos c⟩] (pos.length - 1) pos.length b)
    | cs => opt (condContr (cs.map fun c => ⟨rep val c, countLocs pos c⟩) (pos.length - 1) pos.length b)

/-- the contributions of one table of positions, with the values of its keys -/
def genPos [CommRing α] (isZ : (Nat → α) → Bool) (n : Nat) (ps : List ((Nat × Nat) × Nat × Nat)) (val : Nat × Nat → Option (Nat → α)) :
    List (Nat × Nat) → Body α → Except Err (Body α)
  | [], b => .ok b
  | K :: Ks, b =>
    match val K with
    | none => .error .undefined
    | some v =>
      match hessContr isZ (posOf n ps K) v b with
      | .error x => .error x
      | .ok b => genPos isZ n ps val Ks b

/-- value of an indexed variable `t` and a temporary, l.753-777, 792-819: `flip` for the Hessian element of the temporary first -/
def itVal [CommRing α] (l : Loop) (h : Nat → Nat → Option (Nat → α)) (dz : Nat → Nat → α) (ks : List Nat) (t j : Nat) (flip : Bool) :
    Option (Nat → α) :=
  tmpDot (fun k => match tmpTape l k with
    | some pk => if flip then h pk t else h t pk
    | none => none) (fun k => dz k j) ks fun _ => 0

/-- the contributions of one group which have an index, l.719-822 -/
def genGroup [CommRing α] (isZ : (Nat → α) → Bool) (l : Loop) (h : Nat → Nat → Option (Nat → α)) (dz : Nat → Nat → α) (ws : List (Nat × Wr))
    (g : Nat) (b : Body α) : Except Err (Body α) :=
  let ps := posWr ws g
  let direct := fun K : Nat × Nat => h K.1 K.2
  match genPos isZ l.iters (ps .ii) direct (nub ((ps .ii).map (·.1))) b with
  | .error x => .error x
  | .ok b =>
  match genPos isZ l.iters (ps .inn) direct (nub ((ps .inn).map (·.1))) b with
  | .error x => .error x
  | .ok b =>
  match genPos isZ l.iters (ps .it) (fun K => itVal l h dz (itEvals ws g K) K.1 K.2 false)
      ((itKeys ws g).filter fun K => K ∈ (ps .it).map (·.1)) b with
  | .error x => .error x
  | .ok b =>
  match genPos isZ l.iters (ps .ni) direct (nub ((ps .ni).map (·.1))) b with
  | .error x => .error x
  | .ok b =>
    genPos isZ l.iters (ps .ti) (fun K => itVal l h dz (itEvals ws g (K.2, K.1)) K.2 K.1 true)
      (((itKeys ws g).map fun K => (K.2, K.1)).filter fun K => K ∈ (ps .ti).map (·.1)) b

def genGroups [CommRing α] (isZ : (Nat → α) → Bool) (l : Loop) (h : Nat → Group → Nat → Nat → Option (Nat → α)) (dz : Nat → Nat → α)
    (ws : List (Nat × Wr)) : List (Nat × Group) → Body α → Except Err (Body α)
  | [], b => .ok b
  | (g, gr) :: gs, b =>
    match genGroup isZ l (h g gr) dz ws g b with
    | .error x => .error x
    | .ok b => genGroups isZ l h dz ws gs b

/-- value of a constant location of one group, l.845-911 -/
def constVal [CommRing α] (l : Loop) (h : Nat → Nat → Option (Nat → α)) (dz : Nat → Nat → α) (ws : List (Nat × Wr)) (g : Nat) (o : Nat × Nat) :
    Option (Nat → α) :=
  let p1 := nonTape l o.1
  let p2 := nonTape l o.2
  let at2 (a b : Option Nat) : Option (Nat → α) := a.bind fun a => b.bind fun b => h a b
  (if (g, Wr.nnE o) ∈ ws then at2 p1 p2 else some fun _ => 0).bind fun v =>
  (tmpDot (fun k => at2 p1 (tmpTape l k)) (fun k => dz k o.2) (ntEvals ws g o) v).bind fun v =>
  (tmpDot (fun k => at2 (tmpTape l k) p2) (fun k => dz k o.1) (tnEvals ws g o) v).bind fun v =>
  (tmpDot (fun k1 => tmpDot (fun k2 => at2 (tmpTape l k1) (tmpTape l k2)) (fun k2 => dz k2 o.2) (ttEvals ws g o k1) fun _ => 0)
    (fun k1 => dz k1 o.1) (ttKeys ws g o) fun _ => 0).map fun s it => v it + s it

/-- the groups for one constant location, l.845-923: groups which are not present in all iterations get a condition, the others are
added up -/
def genConstGroups [CommRing α] (isZ : (Nat → α) → Bool) (l : Loop) (h : Nat → Group → Nat → Nat → Option (Nat → α)) (dz : Nat → Nat → α)
    (ws : List (Nat × Wr)) (o : Nat × Nat) (e : Nat) : List (Nat × Group) → (Nat → α) → Body α → Except Err ((Nat → α) × Body α)
  | [], v, b => .ok (v, b)
  | (g, gr) :: gs, v, b =>
    match constVal l (h g gr) dz ws g o with
    | none => .error .undefined
    | some gv =>
      if gr.its.length ≠ l.iters then
        if isZ gv then genConstGroups isZ l h dz ws o e gs v b
        else
          match constContr e gr.its (l.iters - 1) gv b with
          | none => .error .undefined
          | some b => genConstGroups isZ l h dz ws o e gs v b
      else genConstGroups isZ l h dz ws o e gs (fun it => v it + gv it) b

/-- the constant locations, l.824-937; `dzz` is `info.dzDxx` -/
def genConst [CommRing α] (isZ : (Nat → α) → Bool) (l : Loop) (h : Nat → Group → Nat → Nat → Option (Nat → α)) (dz : Nat → Nat → α)
    (dzz : Nat → Nat → Option (Nat → α)) (ws : List (Nat × Wr)) (gs : List (Nat × Group)) :
    List ((Nat × Nat) × Nat) → Body α → Except Err (Body α)
  | [], b => .ok b
  | (o, e) :: rest, b =>
    match genConstGroups isZ l h dz ws o e gs (fun _ => 0) b with
    | .error x => .error x
    | .ok (v, b) =>
      match (if nlFound ws o then (dzz o.1 o.2).map fun d it => v it + d it else some v) with
      | none => .error .undefined
      | some v =>
        if isZ v then genConst isZ l h dz dzz ws gs rest b
        else genConst isZ l h dz dzz ws gs rest { b with args := b.args ++ [.direct ⟨v, constPat e, true⟩] }

/-- `createConditionalOperation` -/
def condOp [CommRing α] (isZ : (Nat → α) → Bool) (its : List Nat) (n : Nat) (v : Nat → α) : Option (Nat → α) :=
  if its.length = n then some v
  else if isZ v then some v
  else if its = [] then none
  else (printCond (createIndexCondition its [] (n - 1))).map fun c it => if c.eval it then v it else 0

/-- weight of a temporary in one loop, loop_free_model.hpp l.281-314 -/
def tmpWeight [CommRing α] (isZ : (Nat → α) → Bool) (l : Loop) (W : Int → α) (D : Nat → Nat → Nat → α) (ws : List (Nat × Wr)) (pk : Nat) :
    List Group → (Nat → α) → Option (Nat → α)
  | [], v => some v
  | gr :: gs, v =>
    match condOp isZ gr.its l.iters fun it =>
        ((gr.tapeI.filter fun i => ws.any fun w => decide (w.2 = Wr.evJac i pk)).map fun i => D i pk it * weight l W i it).sum with
    | none => none
    | some u => tmpWeight isZ l W D ws pk gs fun it => v it + u it

/-- second derivatives of the temporaries weighted by their weights, `info.dzDxx`, loop_free_model.hpp l.256-264, 319-343: they exist if any loop
requested them -/
def tmpHess [CommRing α] (isZ : (Nat → α) → Bool) (l : Loop) (W : Int → α) (D : Nat → Nat → Nat → α) (G2 : Nat → Nat → Nat → α) (ws all : List (Nat × Wr))
    (fr : Option Free) (j1 j2 : Nat) : Option (Nat → α) :=
  match fr with
  | none => none
  | some fr =>
    if all.any fun w => decide (w.2 = Wr.tmpHes j1 j2) then
      tmpDot (fun k => match tmpTape l k with
        | some pk => tmpWeight isZ l W D ws pk (groups l) fun _ => 0
        | none => some fun _ => 0) (fun k => G2 (fr.eqs.length + k) j1 j2) (List.range (fr.jac.length - fr.eqs.length)) fun _ => 0
    else none

/-- the number of elements which decides whether the loop is generated, l.704-716 -/
def hessElSize (ws : List (Nat × Wr)) (gs : List (Nat × Group)) : Nat :=
  (constPos ws).length + (gs.map fun g => (nub ((posWr ws g.1 .ii).map (·.1))).length + (nub ((posWr ws g.1 .it).map (·.1))).length +
    (nub ((posWr ws g.1 .ni).map (·.1))).length).sum

/-- the loops, l.696-970, generated and run one after the other -/
def runHess [CommRing α] (M : Model) (P : Hes) (isZ : (Nat → α) → Bool) (W : Int → α) (H : Nat → Nat → Nat → Nat → Nat → α)
    (D : Nat → Nat → Nat → Nat → α) (G : Nat → Nat → α) (G2 : Nat → Nat → Nat → α) (req : List (Nat × Nat × Nat)) :
    List Nat → (Nat → α) → Except Err (Nat → α)
  | [], out => .ok out
  | q :: qs, out =>
    match M.loops[q]? with
    | none => .error .undefined
    | some (l, jac) =>
      let ws := writes M P true req q
      let all := allWrites M P true req
      let gs := (cxOf M P true q l jac).gs
      if hessElSize ws gs = 0 then runHess M P isZ W H D G G2 req qs out
      else
        match genGroups isZ l (hv l W (H q) ws) (dzDx M.nFree G all) ws gs ⟨[], []⟩ with
        | .error x => .error x
        | .ok b =>
          match genConst isZ l (hv l W (H q) ws) (dzDx M.nFree G all) (tmpHess isZ l W (D q) G2 ws all M.free) ws gs (constPos ws) b with
          | .error x => .error x
          | .ok b =>
            match runLoop b l.iters out with
            | none => .error .undefined
            | some out => runHess M P isZ W H D G G2 req qs out

/-- equations outside of the loops, l.118-130 and `calculateHessian4OrignalEquations` -/
def freeHess [CommRing α] (M : Model) (P : Hes) (W : Int → α) (G2 : Nat → Nat → Nat → α) (req : List (Nat × Nat × Nat)) : Nat → α :=
  match M.free with
  | none => fun _ => 0
  | some fr => (req.filter fun r => r.2.1 ∈ P.eqs r.1).foldl (fun out r => upd out r.2.2
      (((List.range fr.eqs.length).map fun i => match fr.eqs[i]? with
        | some o => W o * G2 i r.1 r.2.1
        | none => 0).sum)) fun _ => 0

/-- the Hessian elements which the generated function stores: `prepareSparseHessianWithLoops`. The request is a list of row, column,
location. -/
def hessian [CommRing α] (M : Model) (P : Hes) (isZ : (Nat → α) → Bool) (W : Int → α) (H : Nat → Nat → Nat → Nat → Nat → α)
    (D : Nat → Nat → Nat → Nat → α) (G : Nat → Nat → α) (G2 : Nat → Nat → Nat → α) (req : List (Nat × Nat × Nat)) : Except Err (Nat → α) :=
  if inBounds P.m (allWrites M P true req) then runHess M P isZ W H D G G2 req (List.range M.loops.length) (freeHess M P W G2 req)
  else .error .undefined

/-! ### use of symmetry, /repo/include/cppad/cg/model/model_c_source_gen_hes.hpp l.105-156 -/

/-- `(j, i)` is requested as well and `(i, j)` is copied from it, l.137-149 -/
def copied (req : List (Nat × Nat)) (p : Nat × Nat) : Bool := decide (p.1 < p.2) && decide ((p.2, p.1) ∈ req)

/-- the elements which are determined, with their locations, l.125-156 -/
def lowerReq (req : List (Nat × Nat)) : List (Nat × Nat × Nat) :=
  req.zipIdx.filterMap fun p => if copied req p.1 then none else some (p.1.1, p.1.2, p.2)

/-- the first element requested a second time, l.106-123 -/
def firstRep : List (Nat × Nat) → List (Nat × Nat) → Option (Nat × Nat)
  | _, [] => none
  | seen, p :: ps => if p ∈ seen then some p else firstRep (p :: seen) ps

/-- the copies at the end of `prepareSparseHessianWithLoops`, l.972-981 -/
def copyDup (req : List (Nat × Nat)) (out : Nat → α) (e : Nat) : α :=
  match req[e]? with
  | some p => if copied req p then out (req.idxOf (p.2, p.1)) else out e
  | none => out e

/-- `generateSparseHessianSourceDirectly` for a model with loops: the elements in the order in which they are requested -/
def sparseHessian [CommRing α] (M : Model) (P : Hes) (isZ : (Nat → α) → Bool) (W : Int → α) (H : Nat → Nat → Nat → Nat → Nat → α)
    (D : Nat → Nat → Nat → Nat → α) (G : Nat → Nat → α) (G2 : Nat → Nat → Nat → α) (req : List (Nat × Nat)) : Except Err (Nat → α) :=
  match firstRep [] req with
  | some p => .error (.repeated p.1 p.2)
  | none => match hessian M P isZ W H D G G2 (lowerReq req) with
    | .error x => .error x
    | .ok out => .ok (copyDup req out)

end Verif.Loops
