import Verif.Dae.SpecReorder
import Verif.Orders.Model

/-
Model of what happens to the information about variables and equations in
/repo/include/cppad/cg/dae_index_reduction/dummy_deriv.hpp: l.524-580 (`reduceEquations` after the substitutions),
l.636-708 (`generateSemiExplicitDAE`), l.1116-1218 (`reorderModelEqNVars`), l.1242-1305 (`generateReorderedModel`), and in
bipartite_graph.hpp l.1007-1021 (`determineVariableDiffOrder`).

`none` is undefined behaviour (a position which does not exist), or a loop which does not end. Arrays of a fixed size
which are only written within their bounds are functions.
-/
namespace Verif.Dae.Reorder
open Verif.Orders

def mapAll {α β : Type} (f : α → Option β) : List α → Option (List β)
  | [] => some []
  | a :: l => match f a, mapAll f l with
    | some b, some l' => some (b :: l')
    | _, _ => none

/-- follow positions until there is none: number of steps and last position -/
def follow {α : Type} (field : α → Option Nat) (l : List α) : Nat → Nat → Option (Nat × Nat)
  | 0, _ => none
  | n + 1, p =>
    match l[p]? with
    | none => none
    | some x =>
      match field x with
      | none => some (0, p)
      | some q => (follow field l n q).map fun s => (s.1 + 1, s.2)

/-! ### reordering -/

/-- `oldVarWithDerivatives`, l.1130-1152 -/
def withDerivatives (vs : List VInfo) (es : List EInfo) : Option (List Nat) :=
  let s := es.filterMap fun i => if i.explicit then i.assigned else none
  if s = [] then
    (mapAll (fun j => follow VInfo.anti vs (vs.length + 1) j) (List.range vs.length)).map fun ends =>
      ends.filterMap fun e => if e.1 > 0 then some e.2 else none
  else some s

/-- `determineVariableDiffOrder`, bipartite_graph.hpp l.1007-1021, and l.1158-1167 -/
def varOrder (vs : List VInfo) (withDer : List Nat) (j : Nat) : Option VarOrder :=
  match vs[j]? with
  | none => none
  | some v =>
    (if v.dep then (follow VInfo.anti vs (vs.length + 1) j).map fun s => ((s.1 : Int), s.2) else some (-1, j)).map fun s =>
      ⟨j, s.2, withDer.contains j, if v.integrated then -2 else s.1⟩

/-- `varIndexOld2New`, l.1174-1177 -/
def old2new : Nat → List Nat → (Nat → Option Nat) → Nat → Option Nat
  | _, [], m => m
  | k, o :: os, m => old2new (k + 1) os fun q => if q = o then some k else m q

/-- an element of `varIndexOld2New` of size `n` -/
def remap (n : Nat) (m : Nat → Option Nat) : Option Nat → Option (Option Nat)
  | none => some none
  | some q => if q < n then some (m q) else none

/-- l.1180-1188 -/
def newVar (vs : List VInfo) (m : Nat → Option Nat) (o : Nat) : Option VInfo :=
  match vs[o]? with
  | none => none
  | some v =>
    match remap vs.length m v.anti, remap vs.length m v.der with
    | some anti, some der => some { v with anti, der }
    | _, _ => none

/-- l.1193-1199 -/
def newAssigned (n : Nat) (m : Nat → Option Nat) (i : EInfo) : Option EInfo :=
  (remap n m i.assigned).map fun assigned => { i with assigned }

/-- l.1201-1210 -/
def eqOrder (vs : List VInfo) (es : List EInfo) (i : Nat) : Option EqOrder :=
  match es[i]?, follow EInfo.anti es (es.length + 1) i with
  | some e, some s =>
    match e.assigned with
    | none => some ⟨i, s.2, e.explicit, -1⟩
    | some a =>
      if e.explicit then some ⟨i, s.2, true, a⟩
      else match vs[a]? with
        | none => none
        | some v => some ⟨i, s.2, v.anti.isSome, a⟩
  | _, _ => none

/-- `reorderModelEqNVars`, l.1116-1218; the sorts are parameters -/
def reorder (sortV : List VarOrder → List VarOrder) (sortE : List EqOrder → List EqOrder) (vs : List VInfo) (es : List EInfo) :
    Option (List VInfo × List EInfo) :=
  match withDerivatives vs es with
  | none => none
  | some withDer =>
    match mapAll (varOrder vs withDer) (List.range vs.length) with
    | none => none
    | some vo =>
      let m := old2new 0 ((sortV vo).map VarOrder.originalIndex) fun _ => none
      match mapAll (newVar vs m) ((sortV vo).map VarOrder.originalIndex), mapAll (newAssigned vs.length m) es with
      | some vs', some es' =>
        match mapAll (eqOrder vs' es') (List.range es'.length) with
        | none => none
        | some eo =>
          -- l.1214-1218: positions of other equations are not changed
          (mapAll (fun o => es'[o]?) ((sortE eo).map EqOrder.originalIndex)).map fun es'' => (vs', es'')
      | _, _ => none

/-! ### removing variables and equations -/

/-- new indexes, l.524-545: removed ones are negative -/
def decAfter (i : Nat) (m : Nat → Int) : Nat → Int := fun ii => if i < ii ∧ 0 ≤ m ii then m ii - 1 else m ii

def shorten : List Nat → (Nat → Int) → Nat → Int
  | [], m => m
  | i :: is, m => shorten is (if m i < 0 then decAfter i m else m)

def short (n : Nat) (removed : Nat → Bool) : Nat → Int :=
  shorten (List.range n) fun i => if removed i then -1 else i

/-- a position after the removal of `p`, l.556-565 -/
def lower (p : Nat) : Option Nat → Option Nat
  | none => none
  | some q => if q > p then some (q - 1) else if q = p then none else some q

/-- l.552-569; the inner loop is over the old number of variables: `strict` is undefined behaviour beyond the end of the
vector, otherwise what is beyond the end is ignored -/
def dropVars (strict : Bool) (n : Nat) (removed : Nat → Bool) : Nat → List VInfo → Option (List VInfo)
  | 0, l => some l
  | p + 1, l =>
    if removed p then
      let l := l.eraseIdx p
      if strict && l.length < n then none
      else dropVars strict n removed p (l.map fun v => { v with anti := lower p v.anti, der := lower p v.der })
    else dropVars strict n removed p l

def toPos (i : Int) : Option Nat := if 0 ≤ i then some i.toNat else none

/-- l.574-578 -/
def shortEq (mv me : Nat → Int) (i : EInfo) : EInfo :=
  { i with assigned := i.assigned.bind fun q => toPos (mv q), anti := i.anti.bind fun q => toPos (me q) }

/-- l.571-580 -/
def dropEqs (mv me : Nat → Int) : Nat → List EInfo → List EInfo
  | 0, l => l
  | p + 1, l => dropEqs mv me p (if me p < 0 then l.eraseIdx p else l.modify p (shortEq mv me))

/-- the output information of `reduceEquations`, l.524-580 -/
def remove (strict : Bool) (remV remE : Nat → Bool) (vs : List VInfo) (es : List EInfo) : Option (List VInfo × List EInfo) :=
  let mv := short vs.length remV
  let me := short es.length remE
  (dropVars strict vs.length (fun p => decide (mv p < 0)) vs.length vs).map fun vs' => (vs', dropEqs mv me es.length es)

/-! ### explicit equations -/

/-- `exception`: a derivative has no equation, or its equation cannot be solved -/
inductive Out (α : Type)
  | ok (a : α)
  | exception
  | ub

/-- `assignedVar2Eq`, l.630-634: the last equation -/
def eqFor (es : List EInfo) (j : Nat) : Option Nat :=
  ((List.range es.length).filter fun i => es[i]?.bind EInfo.assigned == some j).getLast?

/-- l.639-674; `solved` says whether the substitution succeeds -/
def makeExplicit (vs : List VInfo) (solved : Nat → Nat → Bool) (best : Nat → Option Nat) : List Nat → List EInfo → Out (List EInfo)
  | [], es => .ok es
  | j :: js, es =>
    match vs[j]? with
    | none => .ub
    | some v =>
      match v.anti with
      | none => makeExplicit vs solved best js es
      | some b =>
        match best j with
        | none => .exception
        | some i =>
          if solved j i then makeExplicit vs solved best js (es.modify i fun e => { e with explicit := true, assigned := some b })
          else .exception

/-- `varIndexOld2New`, l.680-688 -/
def keptIndex (vs : List VInfo) (j : Nat) : Option Nat :=
  match vs[j]? with
  | none => none
  | some v => if v.anti.isNone then some ((vs.take j).countP fun v => v.anti.isNone) else none

/-- l.699-705 -/
def dropDerivatives : Nat → List VInfo → List VInfo
  | 0, l => l
  | j + 1, l => dropDerivatives j (if (l[j]?.bind VInfo.anti).isSome then l.eraseIdx j else l)

/-- the output information of `generateSemiExplicitDAE`, l.613-708 -/
def semiExplicit (solved : Nat → Nat → Bool) (vs : List VInfo) (es : List EInfo) : Out (List VInfo × List EInfo) :=
  match makeExplicit vs solved (eqFor es) (List.range vs.length) es with
  | .ok es1 =>
    match mapAll (newAssigned vs.length (keptIndex vs)) es1 with
    | none => .ub
    | some es2 => .ok ((dropDerivatives vs.length vs).map fun v => { v with der := none }, es2)
  | .exception => .exception
  | .ub => .ub

/-! ### the new model -/

/-- `std::map::operator[]`: missing keys get the value zero -/
def lookup (key : Nat) : List (Nat × Nat) → Nat
  | [] => 0
  | (k, x) :: l => if k = key then x else lookup key l

/-- `varId2HandlerIndex`, l.1273-1280; later entries come first -/
def handlerIndex (newIds : List Nat) : List VInfo → Nat → List (Nat × Nat) → List (Nat × Nat)
  | [], _, acc => acc
  | v :: vs, k, acc => if newIds.contains v.id then handlerIndex newIds vs (k + 1) ((v.id, k) :: acc) else handlerIndex newIds vs k acc

/-- l.1282-1286 -/
def place {K : Type} (idx : List (Nat × Nat)) : List VInfo → List K → List K → Option (List K)
  | [], _, h => some h
  | _ :: _, [], _ => none
  | v :: vs, y :: ys, h => if lookup v.id idx < h.length then place idx vs ys (h.set (lookup v.id idx) y) else none

/-- `eqId2OldIndex`, l.1289-1292 -/
def eqIndex : List EInfo → Nat → List (Nat × Nat) → List (Nat × Nat)
  | [], _, acc => acc
  | i :: es, k, acc => eqIndex es (k + 1) ((i.id, k) :: acc)

/-- the model made by `generateReorderedModel`, l.1242-1305: `res` are the functions recorded in the handler, of `m`
independent variables -/
def newModel {K : Type} (zero : K) (m : Nat) (res : List (List K → K)) (vs vs' : List VInfo) (es es' : List EInfo) (y : List K) :
    Option (List K) :=
  match place (handlerIndex (vs'.map VInfo.id) vs 0 []) vs' y (List.replicate m zero) with
  | none => none
  | some h => mapAll (fun i => (res[lookup i.id (eqIndex es 0 [])]?).map fun f => f h) es'

end Verif.Dae.Reorder
