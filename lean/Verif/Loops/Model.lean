import Verif.Index.Model
import Verif.Ranges.Model

/-
Model of the construction and execution of loop bodies,
/repo/include/cppad/cg/model/patterns/model_c_source_gen_loops.hpp: `createLoopEnd` (l.180-215), `findExistingIfElse`
(l.350-376), `createConditionalContribution` (l.455-560 and l.565-630), `createLoopResult` (l.648-720).

A value computed inside the loop is a function of the iteration. An operation `LoopIndexedDep` is its value, its
location pattern and whether it adds. An `IfElseInfo` is the list of its branches in key order; each branch holds its
iterations, its condition (`none` for `else`) and the operations whose `CondResult` is placed between the start of
this branch and the start of the next. (In the code the `CondResult` nodes are arguments of the next branch's node or
of the `EndIf`.) The arguments of `LoopEnd` are the operations without a condition and the `EndIf` nodes. A node is
printed once, where it is met first, although it may be an argument several times.

Simplifications: locations are integers of unlimited size; the index patterns never overflow. The outcome `none` is
undefined behaviour (first element of an empty set, null dereference, an empty condition, an index pattern without a
value).
-/
namespace Verif.Loops

open Verif.Index Verif.Ranges

variable {α : Type}

/-- `LoopIndexedDep` -/
structure Asg (α : Type) where
  val : Nat → α
  pat : Pat Int
  add : Bool

/-- `IfBranchInfo` with the operations in the branch -/
structure Br (α : Type) where
  iters : List Nat
  cond : Option (List (Nat × Nat))
  body : List (Asg α)

/-- `IfElseInfo` -/
abbrev IfElse (α : Type) := List (Br α)

/-- argument of `LoopEnd` -/
inductive Arg (α : Type)
  | direct (a : Asg α)
  | endIf (f : Nat)

/-- loop body under construction: arguments of `LoopEnd` and the table `ifElses` -/
structure Body (α : Type) where
  args : List (Arg α)
  ifs : List (IfElse α)

/-- `findExistingIfElse`, l.350-376: position of the first if-else with these iteration sets -/
def findIfElse (ifs : List (IfElse α)) (sets : List (List Nat)) : Option Nat :=
  ifs.findIdx? fun f => f.map (·.iters) == sets

/-- adds one operation to every branch of an existing if-else, l.497-501, 535-536, 551-552 -/
def addTo (f : Nat) (asgs : List (Asg α)) (ifs : List (IfElse α)) : List (IfElse α) :=
  ifs.modify f fun brs => brs.zipWith (fun b a => { b with body := b.body ++ [a] }) asgs

/-- location pattern, `IndexPattern::detect` -/
def locPat (locs : List (Nat × Nat)) : Pat Int := detect (locs.map fun p => (p.1, (p.2 : Int)))

/-- `createLoopResult`, l.648-720, followed by the insertion in the arguments of `LoopEnd`. `locs` maps iterations to
locations. -/
def loopResult (locs : List (Nat × Nat)) (iterCount : Nat) (val : Nat → α) (pat : Pat Int) (add : Bool)
    (b : Body α) : Option (Body α) :=
  let asg : Asg α := ⟨val, pat, add⟩
  if locs.length = iterCount then some { b with args := b.args ++ [.direct asg] }
  else
    let its := locs.map (·.1)
    if its = [] then none
    else
      match findIfElse b.ifs [its] with
      | some f => some ⟨b.args ++ [.endIf f], addTo f [asg] b.ifs⟩
      | none => some ⟨b.args ++ [.endIf b.ifs.length],
          b.ifs ++ [[⟨its, some (createIndexCondition its [] (iterCount - 1)), [asg]⟩]]⟩

/-- `SizeN1stIt`: number of iterations and first iteration, l.468 -/
def key (locs : List (Nat × Nat)) : Nat × Nat := (locs.length, (locs.map (·.1)).headD 0)

/-- `std::pair` comparison -/
def keyLt (a b : Nat × Nat) : Bool := a.1 < b.1 || (a.1 == b.1 && a.2 < b.2)

/-- insertion in `firstIt2Count2Iterations`, l.464-469 -/
def putKey {β : Type} (k : Nat × Nat) (v : β) : List ((Nat × Nat) × β) → List ((Nat × Nat) × β)
  | [] => [(k, v)]
  | (k', v') :: m =>
    if keyLt k k' then (k, v) :: (k', v') :: m
    else if k = k' then (k, v) :: m
    else (k', v') :: putKey k v m

/-- `IfBranchData` -/
structure BrData (α : Type) where
  val : Nat → α
  locs : List (Nat × Nat)

/-- branches in the order of their keys, l.464-469 -/
def sortBranches (brs : List (BrData α)) : List (BrData α) :=
  (brs.foldl (fun m d => putKey (key d.locs) d m) []).map (·.2)

/-- first `createConditionalContribution`, l.455-560, followed by the insertion in the arguments of `LoopEnd` -/
def condContr (brs : List (BrData α)) (maxIter nLocal : Nat) (b : Body α) : Option (Body α) :=
  if brs.any (fun d => d.locs.isEmpty) || brs.isEmpty then none
  else
    let s := sortBranches brs
    let sets := s.map fun d => d.locs.map (·.1)
    let asgs := s.map fun d => (⟨d.val, locPat d.locs, true⟩ : Asg α)
    match findIfElse b.ifs sets with
    | some f => some ⟨b.args ++ [.endIf f], addTo f asgs b.ifs⟩
    | none =>
      match buildChain maxIter nLocal true [] sets with
      | none => none
      | some chain => some ⟨b.args ++ [.endIf b.ifs.length],
          b.ifs ++ [chain.zipWith (fun c a => ⟨c.iterations, c.cond, [a]⟩) asgs]⟩

/-- `LinearIndexPattern(0, 0, 0, e)` -/
def constPat (e : Nat) : Pat Int := .linear ⟨0, 0, 0, (e : Int)⟩

/-- second `createConditionalContribution` (constant location), l.565-630, followed by the insertion in the arguments
of `LoopEnd` -/
def constContr (e : Nat) (its : List Nat) (maxIter : Nat) (val : Nat → α) (b : Body α) : Option (Body α) :=
  let asg : Asg α := ⟨val, constPat e, true⟩
  if its = [] then none
  else
    match findIfElse b.ifs [its] with
    | some f => some ⟨b.args ++ [.endIf f], addTo f [asg] b.ifs⟩
    | none => some ⟨b.args ++ [.endIf b.ifs.length],
        b.ifs ++ [[⟨its, some (createIndexCondition its [] maxIter), [asg]⟩]]⟩

/-! ### execution -/

/-- one executed assignment: element, value, whether it adds -/
abbrev Write (α : Type) := Nat × α × Bool

/-- a `LoopIndexedDep` at iteration `it` -/
def Asg.write (it : Nat) (a : Asg α) : Option (Write α) :=
  match a.pat.eval it with
  | some r => if 0 ≤ r then some (r.toNat, a.val it, a.add) else none
  | none => none

def runAsgs (it : Nat) : List (Asg α) → Option (List (Write α))
  | [] => some []
  | a :: as => (a.write it).bind fun w => (runAsgs it as).map (w :: ·)

/-- the printed `if / else if / else` -/
def runBrs (it : Nat) : IfElse α → Option (List (Write α))
  | [] => some []
  | b :: bs =>
    match b.cond with
    | none => runAsgs it b.body
    | some c =>
      match printCond c with
      | none => none
      | some e => if e.eval it then runAsgs it b.body else runBrs it bs

/-- the printed loop body; `vis` are the if-elses which were printed already -/
def runArgs (it : Nat) (ifs : List (IfElse α)) : List Nat → List (Arg α) → Option (List (Write α))
  | _, [] => some []
  | vis, .direct a :: rest => (a.write it).bind fun w => (runArgs it ifs vis rest).map (w :: ·)
  | vis, .endIf f :: rest =>
    if f ∈ vis then runArgs it ifs vis rest
    else (ifs[f]?).bind fun brs => (runBrs it brs).bind fun ws => (runArgs it ifs (f :: vis) rest).map (ws ++ ·)

/-- effect of one assignment on the results -/
def applyWrite [Add α] (out : Nat → α) (w : Write α) : Nat → α :=
  fun e => if e = w.1 then (if w.2.2 then out e + w.2.1 else w.2.1) else out e

/-- one iteration -/
def runIter [Add α] (b : Body α) (it : Nat) (out : Nat → α) : Option (Nat → α) :=
  (runArgs it b.ifs [] b.args).map fun ws => ws.foldl applyWrite out

/-- `for(j = 0; j < n; j++)` -/
def runLoop [Add α] (b : Body α) : Nat → (Nat → α) → Option (Nat → α)
  | 0, out => some out
  | n + 1, out => (runLoop b n out).bind (runIter b n)

end Verif.Loops
