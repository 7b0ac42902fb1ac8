import Verif.Loops.ModelFor1
import Verif.Loops.ModelHess
import Verif.Loops.SpecRev2

/-
Model of the loops of the sparse second order reverse mode,
/repo/include/cppad/cg/model/patterns/model_c_source_gen_loops_rev2.hpp: `generateHessianRowGroups` (l.565-607), `groupHessianRowsByContrib` (l.911-1008),
`subgroupHessianRowsByContrib` (l.1016-1111), `generateReverseTwoGroupOps` (l.609-880), both `createReverseMode2Contribution` (l.1113-1194, 1199-1230), and how
the loop of a group is made and run (l.256-381, the same code as in model_c_source_gen_loops_for1.hpp, see `ModelFor1`). The functions of the groups are called as in
model_c_source_gen_loops.hpp l.1164-1252.

Given: the tables of `HessianWithLoopsInfo` (model_c_source_gen_loops_hess.hpp, C59) and the values of the second derivatives, as functions of the iteration.
`val` is `infog.hess.at(tapeJ1).at(tapeJ2)` or its sum over temporaries (l.640-750), `cval` is `gHessVal` (l.783-844), `tmp` is `info.dzDxx` (l.862-865), zero if it is not
used. So the lookups with `at` are not modelled. `isZ` is `isIdenticalZero`, which knows of some functions that they are zero.

Simplifications: sets which the code fills by insertion are given by comprehension; maps with sets as keys are lists in the order of insertion, so the groups are numbered
differently; order of sums; moving of expressions out of loops; arrays are functions.
-/
namespace Verif.Loops.Rev2

open Verif.Index

variable {α : Type}

/-- element of `HessianTermContrib`, l.1235-1249 -/
inductive Term
  | pos (k : Kind) (K : Nat × Nat)
  | const (K : Nat × Nat)
deriving DecidableEq

/-- `infog.…Positions.find(pair)` -/
def posOf (g : EqGroup α) (k : Kind) (K : Nat × Nat) : Option (List El) := ((g.pos k).find? fun p => p.1 == K).map (·.2)

/-- `positions[iter]` if its `count` is positive -/
def elAt (g : EqGroup α) (k : Kind) (K : Nat × Nat) (it : Nat) : Option El :=
  ((posOf g k K).bind (·[it]?)).bind fun x => if 0 < x.cnt then some x else none

/-- `indexedIndexed2jrow2Iter[pair][jrow]` and so on, l.932-989; all iterations for a constant location, l.1071-1079 -/
def termIters (I : Info α) (j : Nat) : Term → List Nat
  | .pos k K => (List.range I.iters).filter fun it => I.groups.any fun g => (elAt g k K it).any fun x => x.row == j
  | .const _ => List.range I.iters

/-- the pairs in the tables of any group -/
def keysOf (I : Info α) (k : Kind) : List (Nat × Nat) := nub (I.groups.flatMap fun g => (g.pos k).map (·.1))

/-- `jrows[j]`, l.926-996 -/
def contr (I : Info α) (j : Nat) : List Term :=
  (kinds.flatMap fun k => ((keysOf I k).map (Term.pos k)).filter fun tm => termIters I j tm ≠ []) ++
    ((I.const.map (·.1)).filter fun K => K.1 = j).map Term.const

/-- `contrib2jrows`, l.1001-1005 -/
def byContr (I : Info α) (n : Nat) : List (List Term × List Nat) :=
  For1.gather ((List.range n).filterMap fun j => if contr I j = [] then none else some (contr I j, j))

/-- `contribs` of one set of rows, l.1028-1089: row and iterations, contributions -/
def entries (I : Info α) (c : List Term × List Nat) : List ((Nat × List Nat) × List Term) :=
  For1.gather (c.1.flatMap fun tm => match tm with
    | .pos _ _ => (c.2.filter fun j => termIters I j tm ≠ []).map fun j => ((j, termIters I j tm), tm)
    | .const K => [((K.1, List.range I.iters), tm)])

/-- `HessianRowGroup`, l.1287-1304 -/
structure RowGroup where
  terms : List Term
  rows : List (Nat × List Nat)
  iters : List Nat
deriving DecidableEq

/-- union of sets of iterations -/
def union (n : Nat) (a b : List Nat) : List Nat := (List.range n).filter fun it => it ∈ a ∨ it ∈ b

/-- l.1096-1110 -/
def addSub (n : Nat) : List RowGroup → (Nat × List Nat) × List Term → List RowGroup
  | [], e => [⟨e.2, [e.1], e.1.2⟩]
  | g :: gs, e =>
    if g.terms = e.2 then ⟨g.terms, put e.1.1 e.1.2 g.rows, union n g.iters e.1.2⟩ :: gs
    else g :: addSub n gs e

/-- `generateHessianRowGroups`, l.565-607; `c2subgroups` is made anew for each set of contributions, l.1094 -/
def rowGroups (I : Info α) (n : Nat) : List RowGroup := (byContr I n).flatMap fun c => (entries I c).foldl (addSub I.iters) []

/-! ### the operations of a group -/

/-- the elements at the iterations of the group, l.1134-1141 -/
def restrict (S : List Nat) (es : List El) : List HEl := es.zipIdx.map fun p => if p.2 ∈ S then ⟨some p.1.loc, p.1.cnt⟩ else ⟨none, 0⟩

/-- first `createReverseMode2Contribution`, l.1113-1194, with `addContribution` and the insertion in the arguments of `LoopEnd` -/
def revContr [CommRing α] (isZ : (Nat → α) → Bool) (S : List Nat) (es : List El) (val : Nat → α) (tx1 : α) (b : Body α) : Except Err (Body α) :=
  if isZ val then .ok b
  else
    let pos := restrict S es
    match counts pos with
    | [] => .ok b
    | [c] =>
      if (countLocs pos c).length = S.length then
        if isZ (fun it => rep val c it * tx1) then .ok b
        else .ok { b with args := b.args ++ [.direct ⟨fun it => rep val c it * tx1, locPat (countLocs pos c), true⟩] }
      else opt (condContr [⟨fun it => rep val c it * tx1, countLocs pos c⟩] (es.length - 1) S.length b)
    | cs => opt (condContr (cs.map fun c => ⟨fun it => rep val c it * tx1, countLocs pos c⟩) (es.length - 1) S.length b)

/-- the contributions of one group of equations, l.639-750 -/
def genTerms [CommRing α] (isZ : (Nat → α) → Bool) (S : List Nat) (tx1 : α) (g : EqGroup α) : List Term → Body α → Except Err (Body α)
  | [], b => .ok b
  | .const _ :: tms, b => genTerms isZ S tx1 g tms b
  | .pos k K :: tms, b =>
    match posOf g k K with
    | none => genTerms isZ S tx1 g tms b
    | some es =>
      match revContr isZ S es (g.val k K) tx1 b with
      | .error x => .error x
      | .ok b => genTerms isZ S tx1 g tms b

/-- the groups of equations, l.635-751 -/
def genAll [CommRing α] (isZ : (Nat → α) → Bool) (S : List Nat) (tx1 : α) (tms : List Term) : List (EqGroup α) → Body α → Except Err (Body α)
  | [], b => .ok b
  | g :: gs, b =>
    match genTerms isZ S tx1 g tms b with
    | .error x => .error x
    | .ok b => genAll isZ S tx1 tms gs b

/-- the groups of equations for a constant location, l.776-857: `hessVal` and the loop body. The second `createReverseMode2Contribution`, l.1199-1230, adds
`gHessVal` as it is. -/
def genConstGroups [CommRing α] (isZ : (Nat → α) → Bool) (S : List Nat) (K : Nat × Nat) (e : Nat) :
    List (EqGroup α) → (Nat → α) → Body α → Except Err ((Nat → α) × Body α)
  | [], v, b => .ok (v, b)
  | g :: gs, v, b =>
    let its := S.filter fun it => it ∈ g.its
    if its.length ≠ S.length then
      if isZ (g.cval K) then genConstGroups isZ S K e gs v b
      else
        match constContr e its (S.getLast?.getD 0) (g.cval K) b with
        | none => .error .undefined
        | some b => genConstGroups isZ S K e gs v b
    else genConstGroups isZ S K e gs (fun it => v it + g.cval K it) b

/-- contributions to constant locations, l.756-875 -/
def genConsts [CommRing α] (isZ : (Nat → α) → Bool) (I : Info α) (S : List Nat) (tx1 : α) : List Term → Body α → Except Err (Body α)
  | [], b => .ok b
  | .pos _ _ :: tms, b => genConsts isZ I S tx1 tms b
  | .const K :: tms, b =>
    match I.const.find? fun p => p.1 == K with
    | none => .error .undefined
    | some p =>
      match genConstGroups isZ S K p.2 I.groups (fun _ => 0) b with
      | .error x => .error x
      | .ok (v, b) =>
        let h := fun it => (v it + I.tmp K it) * tx1
        genConsts isZ I S tx1 tms (if isZ h then b else { b with args := b.args ++ [.direct ⟨h, constPat p.2, true⟩] })

/-- `generateReverseTwoGroupOps`, l.609-880 -/
def genGroup [CommRing α] (isZ : (Nat → α) → Bool) (I : Info α) (tx1 : α) (g : RowGroup) : Except Err (Body α) :=
  match genAll isZ g.iters tx1 g.terms I.groups ⟨[], []⟩ with
  | .error x => .error x
  | .ok b => genConsts isZ I g.iters tx1 g.terms b

/-- sum of the groups of equations which are in all iterations of the group, l.855 -/
def hessVal [CommRing α] (I : Info α) (S : List Nat) (K : Nat × Nat) (it : Nat) : α :=
  ((I.groups.filter fun g => (S.filter fun it => it ∈ g.its).length = S.length).map fun g => g.cval K it).sum

/-- is the row in `jrow2CompressedLoc`, l.853, 873, 1139 -/
def called [CommRing α] (isZ : (Nat → α) → Bool) (I : Info α) (tx1 : α) (g : RowGroup) (j : Nat) : Bool :=
  g.terms.any fun tm => match tm with
    | .pos k K => I.groups.any fun eg => !isZ (eg.val k K) && g.iters.any fun it => (elAt eg k K it).any fun x => x.row == j
    | .const K => K.1 == j && ((I.groups.any fun eg => (g.iters.filter fun it => it ∈ eg.its).length ≠ g.iters.length) ||
        !isZ fun it => (hessVal I g.iters K it + I.tmp K it) * tx1)

/-! ### running the functions -/

/-- the function of one group for a row: the loop is made as in the forward mode, l.256-381 -/
def runGroup [Add α] (b : Body α) (g : RowGroup) (j : Nat) (out : Nat → α) : Option (Nat → α) := For1.runGroup b ⟨[], g.rows, []⟩ j out

/-- the groups of one loop: all are generated, those with the row are called -/
def runGroups [CommRing α] (isZ : (Nat → α) → Bool) (I : Info α) (tx1 : α) (j : Nat) : List RowGroup → (Nat → α) → Except Err (Nat → α)
  | [], out => .ok out
  | g :: gs, out =>
    match genGroup isZ I tx1 g with
    | .error x => .error x
    | .ok b =>
      if called isZ I tx1 g j then
        match runGroup b g j out with
        | none => .error .undefined
        | some out => runGroups isZ I tx1 j gs out
      else runGroups isZ I tx1 j gs out

/-- the loops, l.238-437 -/
def runLoops [CommRing α] (isZ : (Nat → α) → Bool) (n : Nat) (tx1 : α) (j : Nat) : List (Info α) → (Nat → α) → Except Err (Nat → α)
  | [], out => .ok out
  | I :: Is, out =>
    match runGroups isZ I tx1 j (rowGroups I n) out with
    | .error x => .error x
    | .ok out => runLoops isZ n tx1 j Is out

/-- One row of `sparse_reverse_two`: the function for the equations outside of the loops, if there is one for the row, assigns all its elements (l.442-544); `free` has
their second derivatives. -/
def row [CommRing α] (isZ : (Nat → α) → Bool) (n : Nat) (loops : List (Info α)) (free : Option (Nat → α)) (size : Nat) (tx1 : α) (j : Nat) (out : Nat → α) :
    Except Err (Nat → α) :=
  runLoops isZ n tx1 j loops (match free with
    | none => out
    | some f => fun e => if e < size then f e * tx1 else out e)

/-- `ReverseTwo` with the elements of a direction, /repo/include/cppad/cg/model/functor_generic_model.hpp l.600-640, the loop l.627-639; `comp` is the content of the member `_px` -/
def reverseTwo [CommRing α] (isZ : (Nat → α) → Bool) (n : Nat) (loops : List (Info α)) (free : Nat → Option (Nat → α)) (vars : Nat → List Nat) :
    List (Nat × α) → (Nat → α) → (Nat → α) → Except Err (Nat → α)
  | [], _, px => .ok px
  | (j, d) :: ds, comp, px =>
    match row isZ n loops (free j) (vars j).length d j comp with
    | .error x => .error x
    | .ok comp => reverseTwo isZ n loops free vars ds comp (For1.spread comp (vars j).zipIdx px)

end Verif.Loops.Rev2
