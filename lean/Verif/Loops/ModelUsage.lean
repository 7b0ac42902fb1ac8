import Verif.Loops.SpecUsage
import Verif.Index.Model
import Verif.Ranges.Model
import Verif.Deriv.Model

/-
Model of the sparse Jacobian and sparse Hessian of models with loops which call the functions of the forward and reverse modes: `determineForRevUsagePatterns`
(model_c_source_gen_loops.hpp l.777-887) and `printForRevUsageFunction` (l.895-1148), called by model_c_source_gen_loops_jac_fr1.hpp l.53-61 and
model_c_source_gen_loops_hess_r2.hpp l.48-56. `jacInfo`, `hessInfo` and `maxCompressedSize` are those of the area Deriv (`infos`, `maxCompressed`).
The generated statements are run as they are generated. `none` is undefined behaviour of the generated function (access out of bounds, pointer or variable not set), or a
failure of the generator (`at` of a missing key, `begin()` of an empty set). The functions called are given by what they do (`Free`, `Call`).
-/
namespace Verif.Loops.Usage

open Verif.Index (Pat detect detectV)
open Verif.Ranges (createIndexCondition printCond setInsert)
open Verif.Deriv (Info infos maxCompressed)

/-! ### patterns, l.777-887 -/

/-- all of the values, if there are all -/
def allSome {β : Type} : List (Option β) → Option (List β)
  | [] => some []
  | none :: _ => none
  | some b :: l => (allSome l).map (b :: ·)

/-- `matrixInfo.at(key)` -/
def infoAt (is : List Info) (k : Nat) : Option Info := is.find? (·.key == k)

/-- `*matrixInfo.at(key).locations[e].begin()` -/
def locAt (is : List Info) (k e : Nat) : Option Nat := (infoAt is k).bind fun i => (i.locations[e]?).join

/-- `ArrayElementGroup`: keys, and for each element the patterns `resultPattern` and `compressedPattern` -/
structure ElGroup where
  keys : List Nat
  els : List (Pat Int × Pat Int)

/-- `ArrayGroup`: number of keys (the key of `loopCalls`), `pattern`, `startLocPattern`, `elCount2elements` -/
structure Group where
  count : Nat
  pattern : Pat Int
  start : Option (Pat Int)
  groups : List ElGroup

/-- the calls with `n` elements, with their number: l.834-840 -/
def sameCount (keys : List (Nat × List Nat)) (n : Nat) : List ((Nat × List Nat) × Nat) := keys.zipIdx.filter fun p => p.1.2.length == n

/-- `resultPos[e]` and `compressPos[e]`, l.852-868 -/
def element (is : List Info) (sel : List ((Nat × List Nat) × Nat)) (e : Nat) : Option (Pat Int × Pat Int) :=
  match allSome (sel.map fun p => (p.1.2[e]?).bind fun (c : Nat) => (locAt is p.1.1 c).map fun (l : Nat) => (p.2, (l : Int))),
      allSome (sel.map fun p => (p.1.2[e]?).map fun (c : Nat) => (p.2, (c : Int))) with
  | some r, some c => some (detect r, detect c)
  | _, _ => none

/-- l.842-878 -/
def elGroup (is : List Info) (keys : List (Nat × List Nat)) (n : Nat) : Option ElGroup :=
  (allSome ((List.range n).map fun e => element is (sameCount keys n) e)).map fun els => ⟨(sameCount keys n).map (·.1.1), els⟩

/-- the numbers of elements in ascending order: keys of `elCount2localIt2jcols` -/
def counts (keys : List (Nat × List Nat)) : List Nat := (keys.map (·.2.length)).foldl setInsert []

/-- l.796-884 for one group -/
def analyse (is : List Info) (keys : List (Nat × List Nat)) : Option Group :=
  match allSome (keys.map fun p => infoAt is p.1) with
  | none => none
  | some infs =>
    if infs.all (·.ordered) then
      (allSome (keys.map fun p => locAt is p.1 0)).map fun starts =>
        ⟨keys.length, detectV (keys.map fun p => (p.1 : Int)), some (detectV (starts.map fun (s : Nat) => (s : Int))), []⟩
    else
      (allSome ((counts keys).map (elGroup is keys))).map fun gs => ⟨keys.length, detectV (keys.map fun p => (p.1 : Int)), none, gs⟩

/-! ### the generated function, l.895-1148 -/

/-- what `outLocal[0]` points to: the array `compressed`, or the result from a position on -/
inductive Ptr
  | comp
  | res (start : Nat)

/-- result, `compressed`, `outLocal[0]` (`none` as long as it is not set) -/
structure State (α : Type) where
  res : Nat → α
  comp : Nat → α
  ptr : Option Ptr

variable {α : Type}

def upd (f : Nat → α) (i : Nat) (v : α) : Nat → α := fun j => if j = i then v else f j

/-- a called function changes element `e` of its array; `n` elements in the result, `m` in `compressed` -/
def store (n m : Nat) (st : State α) (e : Nat) (g : α → α) : Option (State α) :=
  match st.ptr with
  | none => none
  | some .comp => if e < m then some { st with comp := upd st.comp e (g (st.comp e)) } else none
  | some (.res s) => if s + e < n then some { st with res := upd st.res (s + e) (g (st.res (s + e))) } else none

/-- `result[p] += compressed[e]` -/
def copy [Add α] (n m : Nat) (st : State α) (p e : Nat) : Option (State α) :=
  if p < n ∧ e < m then some { st with res := upd st.res p (st.res p + st.comp e) } else none

/-- a function outside of the loops assigns its elements -/
def assign [Zero α] (n m : Nat) (f : Free α) : List Nat → State α → Option (State α)
  | [], st => some st
  | e :: es, st => (store n m st e fun _ => if e ∈ f.els then f.val e else 0).bind (assign n m f es)

/-- l.1027-1032 -/
def copyFree [Add α] (n m : Nat) (is : List Info) (k : Nat) : List Nat → State α → Option (State α)
  | [], st => some st
  | e :: es, st => ((locAt is k e).bind fun l => copy n m st l e).bind (copyFree n m is k es)

/-- l.1010-1035; also the value of `lastCompressed` -/
def runFree [Zero α] [Add α] (n m : Nat) (is : List Info) : List (Free α) → Bool → State α → Option (State α × Bool)
  | [], last, st => some (st, last)
  | f :: fs, last, st =>
    (infoAt is f.key).bind fun i =>
      if i.ordered then
        ((locAt is f.key 0).bind fun s => assign n m f (List.range f.size) { st with ptr := some (.res s) }).bind (runFree n m is fs false)
      else
        (assign n m f (List.range f.size) { st with ptr := if last then st.ptr else some .comp }).bind fun st =>
          (copyFree n m is f.key f.els st).bind (runFree n m is fs true)

/-- value of the printed index pattern -/
def index (p : Pat Int) (it : Nat) : Option Nat :=
  match p.eval it with
  | some (.ofNat k) => some k
  | _ => none

/-- the function of a group adds to its elements -/
def addAll [Add α] (n m : Nat) (v : Nat → α) : List Nat → State α → Option (State α)
  | [], st => some st
  | e :: es, st => (store n m st e (· + v e)).bind (addAll n m v es)

/-- the function of a group, called for a key -/
def callFun [Add α] (n m : Nat) (c : Call α) (k : Nat) (st : State α) : Option (State α) :=
  (c.keys.find? (·.1 == k)).bind fun p => addAll n m (c.val k) p.2 st

/-- keys which are never used, l.1085-1093 -/
def gaps : Nat → List Nat → List Nat
  | _, [] => []
  | e, k :: ks => List.range' e (k - e) ++ gaps (k + 1) ks

/-- the branch which is run, l.1095-1117; `key` is the variable for the key (`none` if it is not set); the last branch has no condition -/
def pick (maxKey : Nat) (key : Option Nat) : List Nat → List ElGroup → Option ElGroup
  | _, [] => none
  | _, [g] => some g
  | used, g :: gs =>
    match key, printCond (createIndexCondition g.keys used maxKey) with
    | some k, some e => if e.eval k then some g else pick maxKey (some k) (g.keys.foldl setInsert used) gs
    | _, _ => none

/-- l.1119-1127 -/
def copyAll [Add α] (n m it : Nat) : List (Pat Int × Pat Int) → State α → Option (State α)
  | [], st => some st
  | p :: ps, st => ((index p.1 it).bind fun r => (index p.2 it).bind fun e => copy n m st r e).bind (copyAll n m it ps)

/-- what is run for one group, l.1050-1133 -/
def runGroup [Zero α] [Add α] (n m it : Nat) (c : Call α) (g : Group) (last : Bool) (st : State α) : Option (State α) :=
  let key := if g.count > 1 then index g.pattern it else (c.keys.head?).map (·.1)
  match g.start with
  | some p =>
    (index p it).bind fun s => key.bind fun k => callFun n m c k { st with ptr := some (.res s) }
  | none =>
    (key.bind fun k =>
      callFun n m c k { st with ptr := if last then st.ptr else some .comp, comp := fun e => if e < m then 0 else st.comp e }).bind fun st =>
        (pick (((c.keys.getLast?).map (·.1)).getD 0) (if g.count > 1 then key else none) (gaps 0 (c.keys.map (·.1))) g.groups).bind fun eg =>
          copyAll n m it eg.els st

/-- the groups with the same number of keys, once, l.1047-1139; also `lastCompressed` -/
def runBody [Zero α] [Add α] (n m it : Nat) : List (Call α × Group) → Bool → State α → Option (State α × Bool)
  | [], last, st => some (st, last)
  | (c, g) :: L, last, st => (runGroup n m it c g last st).bind (runBody n m it L g.start.isNone)

/-- the loop over `it`, l.1044 -/
def runIters [Zero α] [Add α] (n m : Nat) (L : List (Call α × Group)) : List Nat → State α → Option (State α)
  | [], st => some st
  | it :: its, st => (runBody n m it L false st).bind fun r => runIters n m L its r.1

/-- l.1040-1144; `it0` is the value of the index variable where no loop has been generated -/
def runBlocks [Zero α] [Add α] (n m it0 : Nat) (L : List (Call α × Group)) : List Nat → Bool → State α → Option (State α)
  | [], _, st => some st
  | k :: ks, last, st =>
    if k > 1 then
      (runIters n m (L.filter fun p => p.2.count == k) (List.range k) st).bind
        (runBlocks n m it0 L ks (((L.filter fun p => p.2.count == k).getLast?.map fun p => p.2.start.isNone).getD false))
    else (runBody n m it0 (L.filter fun p => p.2.count == k) last st).bind fun r => runBlocks n m it0 L ks r.2 r.1

/-- The sparse Jacobian or Hessian for the requested elements: result and `compressed` have any values before. -/
def sparseMatrix [Zero α] [Add α] (req : List (Nat × Nat)) (fs : List (Free α)) (cs : List (Call α)) (it0 : Nat) (res comp : Nat → α) : Option (Nat → α) :=
  match infos req with
  | .error _ => none
  | .ok is =>
    (allSome (cs.map fun c => (analyse is c.keys).map fun g => (c, g))).bind fun L =>
      (runFree req.length (maxCompressed is) is fs false ⟨fun e => if e < req.length then 0 else res e, comp, none⟩).bind fun r =>
        (runBlocks req.length (maxCompressed is) it0 L ((L.map (·.2.count)).foldl setInsert []) r.2 r.1).map (·.res)

end Verif.Loops.Usage
