import Verif.Library.SpecNames

/-
Model of the tables of atomic functions: how source code numbers them, how the names get into the library, how external functions are
given to a compiled model and called.

A map is a list of pairs in which the newest entry is found first, except the map of registered functions, which is sorted by id. Positions are
natural numbers.
-/
namespace Verif.Library.Names

def find (m : List (α × β)) [DecidableEq α] (a : α) : Option β :=
  match m with
  | [] => none
  | (x, b) :: m => if x = a then some b else find m a

/-- `registerAtomicFunction`, code_handler_impl.hpp l.1431-1441; the functions are sorted by id; `none`: an exception -/
def register (f : Fun) : List Fun → Option (List Fun)
  | [] => some [f]
  | g :: l =>
    if g.id < f.id then (register f l).map (g :: ·)
    else if g.id = f.id then (if g.obj = f.obj then some (g :: l) else none)
    else some (f :: g :: l)

def registerAll : List Fun → List Fun → Option (List Fun)
  | m, [] => some m
  | m, f :: fs => (register f m).bind (registerAll · fs)

/-- `_atomicFunctions.at(id)` -/
def atId (m : List Fun) (id : Nat) : Option Fun := m.find? (·.id = id)

/-- what a source generation changes: the names in the order used by the library, their positions, and the highest orders by position -/
structure Tab where
  order : List Name
  index : List (Name × Nat)
  maxF : List Int
  maxR : List Int

/-- code_handler_impl.hpp l.289-309 -/
def Tab.start (order : List Name) : Tab where
  order := order
  index := (order.zipIdx).foldl (fun m x => (x.1, x.2) :: m) []
  maxF := order.map fun _ => -1
  maxR := order.map fun _ => -1

/-- a call is found in the graph, code_handler_impl.hpp l.1473-1505 -/
def Tab.visit (m : List Fun) (t : Tab) (c : Call) : Option Tab :=
  match atId m c.id with
  | none => none
  | some f =>
    let (pos, t) := match find t.index f.name with
      | none => (t.order.length,
          { order := t.order ++ [f.name], index := (f.name, t.order.length) :: t.index, maxF := t.maxF ++ [-1], maxR := t.maxR ++ [-1] : Tab })
      | some pos => (pos, t)
    if c.reverse then some { t with maxR := t.maxR.modify pos (max · c.p) }
    else some { t with maxF := t.maxF.modify pos (max · c.p) }

def Tab.visitAll (m : List Fun) : Tab → List Call → Option Tab
  | t, [] => some t
  | t, c :: cs => (t.visit m c).bind (Tab.visitAll m · cs)

/-- `atomicFunctionName2Id`, code_handler_impl.hpp l.416-419 -/
def name2Id (m : List Fun) : List (Name × Nat) := m.foldl (fun t f => (f.name, f.id) :: t) []

/-- `atomicFunctionId2Index`, code_handler_impl.hpp l.421-430 -/
def id2Index (m : List Fun) (order : List Name) : List (Nat × Nat) :=
  order.zipIdx.foldl (fun t x => match find (name2Id m) x.1 with
    | none => t
    | some id => (id, x.2) :: t) []

/-- the call in the text: position, mode and orders; `pushAtomicForwardOp`, `pushAtomicReverseOp`, language_c.hpp l.1792-1880; `none`: `at` raises an
exception -/
def printCalls (ix : List (Nat × Nat)) : List Call → Option (List (Nat × Call))
  | [] => some []
  | c :: cs => do
    let i ← find ix c.id
    let l ← printCalls ix cs
    return (i, c) :: l

/-- `*std::max_element`, or -1, language_c.hpp l.277-292, l.388-402 -/
def highest (l : List Int) : Int := l.foldl max (-1)

/-- `generateArrayContainersDeclaration`, language_c.hpp l.404-416 -/
def declare (t : Tab) : Decls :=
  let f := highest t.maxF
  let r := highest t.maxR
  if f ≥ 0 ∨ r ≥ 0 then
    ⟨(max f r + 1).toNat, decide (f ≥ 0), decide (r ≥ 0), if r ≥ 0 then (r + 1).toNat else 0⟩
  else ⟨0, false, false, 0⟩

structure Source where
  calls : List (Nat × Call)
  decls : Decls

/-- `generateCode` as far as atomic functions are concerned -/
def generate (order : List Name) (g : Gen) : Option (List Name × Source) := do
  let m ← registerAll [] g.funs
  let t ← (Tab.start order).visitAll m g.found
  let calls ← printCalls (id2Index m t.order) g.printed
  return (t.order, ⟨calls, declare t⟩)

/-- all functions of a model, one after the other with the same vector of names, model_c_source_gen_impl.hpp l.100-158 -/
def generateAll : List Name → List Gen → Option (List Name × List Source)
  | order, [] => some (order, [])
  | order, g :: gs => do
    let (o, s) ← generate order g
    let (o', ss) ← generateAll o gs
    return (o', s :: ss)

/-- the initializer printed by `generateAtomicFuncNames`, model_c_source_gen_impl.hpp l.217-236 -/
def printNames (order : List Name) : List Char :=
  '{' :: (items true order ++ ['}'])
where
  items : Bool → List Name → List Char
    | _, [] => []
    | first, nm :: l => (if first then [] else [',', ' ']) ++ '"' :: (nm ++ '"' :: items false l)

/-- the library: the names as read by the C compiler and the functions -/
structure Lib where
  names : List Name
  code : List Source

def compile (gs : List Gen) : Option Lib := do
  let (order, code) ← generateAll [] gs
  let names ← readNames .begin [] (printNames order)
  return ⟨names, code⟩

/-- a compiled model: `_atomic` (the wrapper and the function in it), `_missingAtomicFunctions`, the wrappers which exist -/
structure Mdl where
  names : List Name
  ext : List (Option (Nat × Nat))
  missing : Nat
  next : Nat
  live : List Nat

/-- functor_generic_model.hpp l.993-1008 -/
def Mdl.load (l : Lib) : Mdl := ⟨l.names, l.names.map fun _ => none, l.names.length, 0, []⟩

inductive Out' (α : Type)
  | ok (a : α)
  | ub

/-- the position of the first entry which is the name -/
def position (nm : Name) : List Name → Nat → Option Nat
  | [], _ => none
  | n :: l, i => if nm = n then some i else position nm l (i + 1)

/-- `addExternalFunction`, functor_generic_model.hpp l.1077-1092; deleting a wrapper which does not exist is undefined -/
def Mdl.add (s : Mdl) (nm : Name) (e : Nat) : Out' (Mdl × Bool) :=
  match position nm s.names 0 with
  | none => .ok (s, false)
  | some i =>
    match s.ext[i]? with
    | none => .ub
    | some none => .ok ({ s with missing := s.missing - 1, ext := s.ext.set i (some (s.next, e)), next := s.next + 1, live := s.next :: s.live }, true)
    | some (some (w, _)) =>
      if w ∈ s.live then .ok ({ s with ext := s.ext.set i (some (s.next, e)), next := s.next + 1, live := s.next :: s.live.erase w }, true)
      else .ub

/-- `atomicForward`, `atomicReverse`, functor_generic_model.hpp l.1094-1117; no function or a wrapper which does not exist is undefined -/
def Mdl.callAll (s : Mdl) : List (Nat × Call) → Out' (List (Nat × Call))
  | [] => .ok []
  | (i, c) :: cs =>
    match s.ext[i]? with
    | some (some (w, e)) =>
      if w ∈ s.live then
        match s.callAll cs with
        | .ok l => .ok ((e, c) :: l)
        | .ub => .ub
      else .ub
    | _ => .ub

/-- an evaluation, for instance functor_generic_model.hpp l.336-350 (the check of `_missingAtomicFunctions` is in all of them) -/
def Mdl.eval (s : Mdl) (src : Source) : Out' Happens :=
  if s.missing = 0 then
    match s.callAll src.calls with
    | .ok l => .ok (.calls l)
    | .ub => .ub
  else .ok .fails

def Mdl.step (code : List Source) (s : Mdl) : Do → Out' (Mdl × Happens)
  | .add nm e =>
    match s.add nm e with
    | .ok (s, b) => .ok (s, .added b)
    | .ub => .ub
  | .eval k =>
    match code[k]? with
    | none => .ub
    | some src =>
      match s.eval src with
      | .ok h => .ok (s, h)
      | .ub => .ub

def Mdl.run (code : List Source) : Mdl → List Do → Out' (Mdl × List Happens)
  | s, [] => .ok (s, [])
  | s, d :: ds =>
    match s.step code d with
    | .ub => .ub
    | .ok (s, h) =>
      match s.run code ds with
      | .ub => .ub
      | .ok (s, hs) => .ok (s, h :: hs)

/-- the destructor, functor_generic_model.hpp l.134-138 -/
def Mdl.destroy (s : Mdl) : Out' (List Nat) :=
  s.ext.foldl (fun o e => match o, e with
    | .ub, _ => .ub
    | .ok live, none => .ok live
    | .ok live, some (w, _) => if w ∈ live then .ok (live.erase w) else .ub) (.ok s.live)

end Verif.Library.Names
