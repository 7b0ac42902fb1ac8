import Verif.Deriv.Spec
/-
Model of the generated functions which compute sparse Jacobians and Hessians from one function per row or column,
model_c_source_gen_jac.hpp, model_c_source_gen_hes.hpp and model_c_source_gen_impl.hpp (without loops). `key` is the
column of the Jacobian in forward mode, its row in reverse mode, and the row of the Hessian; `idx` is the other one.
Programs are lists of statements. Accessing an array out of bounds, reading a value which was never stored and
`begin()` of an empty set are undefined behaviour.
-/
namespace Verif.Deriv

/-- undefined behaviour, or a CGException -/
inductive Err | ub | exception
deriving DecidableEq, Repr

/-- applies a function to all elements in their order -/
def mapE {α β : Type} (f : α → Except Err β) : List α → Except Err (List β)
  | [] => .ok []
  | a :: as =>
    match f a with
    | .error e => .error e
    | .ok b => match mapE f as with
      | .error e => .error e
      | .ok bs => .ok (b :: bs)

/-- `map[k].push_back(v)` for a `std::map<size_t, std::vector<size_t>>` -/
def pushBack (k v : Nat) : List (Nat × List Nat) → List (Nat × List Nat)
  | [] => [(k, [v])]
  | (k', vs) :: m =>
    if k < k' then (k, [v]) :: (k', vs) :: m
    else if k = k' then (k', vs ++ [v]) :: m
    else (k', vs) :: pushBack k v m

/-- the elements of each row or column, jac.hpp l.161-163, l.174-176, hes.hpp l.240-242, for1.hpp l.26-30,
rev1.hpp l.26-30, rev2.hpp l.33-37; `req` are the pairs (key, idx) in the order of the user -/
def groups (req : List (Nat × Nat)) : List (Nat × List Nat) := req.foldl (fun m p => pushBack p.1 p.2 m) []

/-- `determineOrderByCol`, `determineOrderByRow`, impl.hpp l.585-602, l.626-643: the location of each element; the
search ends at the first one, so that a set has at most one location -/
def locate (req : List (Nat × Nat)) (key idx : Nat) : Option Nat := req.findIdx? (· == (key, idx))

/-- `CompressedVectorInfo` -/
structure Info where
  key : Nat
  indexes : List Nat
  locations : List (Option Nat)
  ordered : Bool
deriving DecidableEq, Repr

/-- the loop at jac.hpp l.200-209 and hes.hpp l.261-270; `*begin()` of an empty set is undefined -/
def inOrder (start : Nat) : List (Option Nat) → Nat → Except Err Bool
  | [], _ => .ok true
  | none :: _, _ => .error .ub
  | some l :: ls, e => if l ≠ start + e then .ok false else inOrder start ls (e + 1)

/-- jac.hpp l.198-210, hes.hpp l.259-271 -/
def isOrdered (locations : List (Option Nat)) : Except Err Bool :=
  match locations with
  | some start :: _ => inOrder start locations 0
  | _ => .error .ub

/-- one entry of `jacInfo` / `hessInfo` -/
def infoOf (req : List (Nat × Nat)) (g : Nat × List Nat) : Except Err Info :=
  let locations := g.2.map (locate req g.1)
  match isOrdered locations with
  | .ok b => .ok ⟨g.1, g.2, locations, b⟩
  | .error e => .error e

/-- `jacInfo`, jac.hpp l.157-211; `hessInfo`, hes.hpp l.237-272 -/
def infos (req : List (Nat × Nat)) : Except Err (List Info) := mapE (infoOf req) (groups req)

/-- jac.hpp l.213-219, hes.hpp l.277-282 -/
def maxCompressed (is : List Info) : Nat :=
  is.foldl (fun m i => if i.indexes.length > m && !i.ordered then i.indexes.length else m) 0

/-! ### functions for one row or column -/

/-- contents of the arrays the argument `in` points to -/
abbrev Args (V : Type) := List (List V)

/-- what the generated function of a key stores in `out[0]`; `none`: undefined behaviour -/
abbrev Fun (V : Type) := Nat → Args V → Option (List V)

/-! ### the version for one thread -/

/-- a statement of the generated function -/
inductive Instr
  | outJac (l : Nat)          -- `outLocal[0] = &jac[l];`
  | outCompressed             -- `outLocal[0] = compressed;`
  | call (key : Nat)          -- `f_indep<key>(inLocal, outLocal, atomicFun);`
  | copy (l : Option Nat) (e : Nat)   -- `jac[l] = compressed[e];`
deriving DecidableEq, Repr

/-- jac.hpp l.302-308, hes.hpp l.356-362 -/
def copyInstrs : List (Option Nat) → Nat → List Instr
  | [], _ => []
  | l :: ls, e => .copy l e :: copyInstrs ls (e + 1)

/-- the statements for one key, jac.hpp l.294-309, hes.hpp l.348-363 -/
def single (previousCompressed : Bool) (i : Info) : List Instr :=
  if i.ordered then
    (match i.locations with | some l :: _ => [.outJac l] | _ => []) ++ [.call i.key]
  else
    (if previousCompressed then [] else [.outCompressed]) ++ [.call i.key] ++
      copyInstrs i.locations 0

/-- jac.hpp l.286-311, hes.hpp l.339-365 -/
def singleSource : Bool → List Info → List Instr
  | _, [] => []
  | prev, i :: is => single prev i ++ singleSource (!i.ordered) is

/-- where `outLocal[0]` points to -/
inductive Ptr | jac (l : Nat) | compressed
deriving DecidableEq, Repr

structure State (V : Type) where
  jac : Mem V
  comp : Mem V
  out : Ptr

/-- storing a value -/
def store {V : Type} (a : Mem V) (l : Nat) (v : V) : Except Err (Mem V) :=
  if l < a.length then .ok (a.set l (some v)) else .error .ub

/-- storing consecutive values from `l` on -/
def storeAll {V : Type} (a : Mem V) (l : Nat) : List V → Except Err (Mem V)
  | [] => .ok a
  | v :: vs => match store a l v with
    | .ok a => storeAll a (l + 1) vs
    | .error e => .error e

/-- reading a value -/
def load {V : Type} (a : Mem V) (l : Nat) : Except Err V :=
  match a[l]? with
  | some (some v) => .ok v
  | _ => .error .ub

def Instr.exec {V : Type} (fn : Fun V) (args : Args V) (s : State V) : Instr → Except Err (State V)
  | .outJac l => .ok { s with out := .jac l }
  | .outCompressed => .ok { s with out := .compressed }
  | .call k =>
    match fn k args with
    | none => .error .ub
    | some vs =>
      match s.out with
      | .jac l => (storeAll s.jac l vs).map fun a => { s with jac := a }
      | .compressed => (storeAll s.comp 0 vs).map fun a => { s with comp := a }
  | .copy none e => (load s.comp e).map fun _ => s
  | .copy (some l) e =>
    match load s.comp e with
    | .error x => .error x
    | .ok v => (store s.jac l v).map fun a => { s with jac := a }

def execAll {V : Type} (fn : Fun V) (args : Args V) : List Instr → State V → Except Err (State V)
  | [], s => .ok s
  | i :: is, s => match i.exec fn args s with
    | .ok s => execAll fn args is s
    | .error e => .error e

/-- `inLocal` of the sparse Jacobian, jac.hpp l.272-280: `in` is the array of the arguments -/
def jacArgs {V : Type} [One V] (inp : Args V) : Except Err (Args V) :=
  match inp with
  | x :: _ => .ok [x, [1]]
  | _ => .error .ub

/-- `inLocal` of the sparse Hessian, hes.hpp l.321-331 -/
def hesArgs {V : Type} [One V] (inp : Args V) : Except Err (Args V) :=
  match inp with
  | x :: w :: _ => .ok [x, [1], w]
  | _ => .error .ub

/-- the function for one thread, applied to the arguments `inp` and the array `jac` -/
def runSingle {V : Type} (mkArgs : Args V → Except Err (Args V)) (fn : Fun V) (req : List (Nat × Nat)) (inp : Args V)
    (jac : Mem V) : Except Err (Mem V) :=
  match infos req with
  | .error e => .error e
  | .ok is =>
    match mkArgs inp with
    | .error e => .error e
    | .ok args =>
      (execAll fn args (singleSource true is) ⟨jac, List.replicate (maxCompressed is) none, .compressed⟩).map (·.jac)

/-! ### the version for several threads -/

/-- `jac[l] = compressed[e];` for the locations from element `e` on -/
def copies {V : Type} (comp : Mem V) : List (Option Nat) → Nat → Except Err (List (Nat × V))
  | [], _ => .ok []
  | l :: ls, e =>
    match load comp e, copies comp ls (e + 1) with
    | .ok v, .ok ws => .ok (match l with | some l => (l, v) :: ws | none => ws)
    | _, _ => .error .ub

/-- the stores of consecutive values from `l` on -/
def direct {V : Type} (l : Nat) : List V → List (Nat × V)
  | [] => []
  | v :: vs => (l, v) :: direct (l + 1) vs

/-- The stores to `jac` made by the function of one key (`p[i]` called with `&jac[offset[i]]`), in their order:
jac.hpp l.350-376, l.401-425, l.433-434, hes.hpp l.406-432, l.458-482, l.490-491. A `_wrap` function makes its own `inLocal` from the
`inLocal` it is called with. -/
def task {V : Type} (mkArgs : Args V → Except Err (Args V)) (fn : Fun V) (args : Args V) (i : Info) :
    Except Err (List (Nat × V)) :=
  if i.ordered then
    match i.locations, fn i.key args with
    | some l :: _, some vs => .ok (direct l vs)
    | _, _ => .error .ub
  else
    match mkArgs args with
    | .error e => .error e
    | .ok args' =>
      match fn i.key args' with
      | none => .error .ub
      | some vs =>
        match storeAll (List.replicate i.indexes.length none) 0 vs with     -- `compressed`
        | .error e => .error e
        | .ok comp =>
          copies comp i.locations 0

/-- stores made one after another -/
def storeList {V : Type} (a : Mem V) : List (Nat × V) → Except Err (Mem V)
  | [] => .ok a
  | (l, v) :: ws => match store a l v with
    | .ok a => storeList a ws
    | .error e => .error e

/-- the stores of all threads -/
def tasks {V : Type} (mkArgs : Args V → Except Err (Args V)) (fn : Fun V) (req : List (Nat × Nat)) (inp : Args V) :
    Except Err (List (List (Nat × V))) :=
  match infos req with
  | .error e => .error e
  | .ok is =>
    match mkArgs inp with
    | .error e => .error e
    | .ok args => mapE (task mkArgs fn args) is

/-! ### the contents of the functions for one row or column -/

/-- `pos[idx] = e` for every element, for1.hpp l.169-180, rev1.hpp l.175-186, rev2.hpp l.155-165: the last one counts -/
def position (indexes : List Nat) (idx : Nat) : Option Nat :=
  (indexes.zipIdx.filter fun p => p.1 == idx).getLast?.map (·.2)

/-- one step of the loops for1.hpp l.182-189, rev1.hpp l.188-195, rev2.hpp l.208-214, seen from one key: the value
of element `el` is put to its position; a missing position is undefined here (`at` raises, `[]` gives position 0) -/
def organizeStep {V : Type} (key : Nat) (indexes : List Nat) (vec : Except Err (List V)) (el : (Nat × Nat) × V) :
    Except Err (List V) :=
  match vec with
  | .error e => .error e
  | .ok vec =>
    if el.1.1 = key then
      match position indexes el.1.2 with
      | none => .error .exception
      | some e => if e < vec.length then .ok (vec.set e el.2) else .error .ub
    else .ok vec

/-- the dependents of the function of a key: `flat` are the derivatives given by CppAD for each element of the
request; the elements of a vector of CG objects are zero first -/
def organize {V : Type} [Zero V] (req : List (Nat × Nat)) (flat : List V) (key : Nat) (indexes : List Nat) :
    Except Err (List V) :=
  (req.zip flat).foldl (organizeStep key indexes) (.ok (List.replicate indexes.length 0))

/-- The functions `sparse_forward_one_indep<j>`, `sparse_reverse_one_dep<i>` as generated by the versions without
atomic functions, for1.hpp l.132-217, rev1.hpp l.137-223. CppAD is taken to give `D x key idx`. -/
def firstOrder {V : Type} [Zero V] [Mul V] (D : List V → Nat → Nat → V) (req : List (Nat × Nat)) : Fun V := fun key args =>
  match (groups req).find? (·.1 == key), args with
  | some g, [x, dx :: _] =>
    match organize req (req.map fun p => D x p.1 p.2) key g.2 with
    | .ok vec => some (vec.map (· * dx))
    | .error _ => none
  | _, _ => none

/-- The versions with atomic functions, for1.hpp l.61-130, rev1.hpp l.61-135: each element on its own. -/
def firstOrderAtomics {V : Type} [Mul V] (D : List V → Nat → Nat → V) (req : List (Nat × Nat)) : Fun V := fun key args =>
  match (groups req).find? (·.1 == key), args with
  | some g, [x, dx :: _] => some (g.2.map fun i => D x key i * dx)
  | _, _ => none

/-- `sparse_reverse_two_indep<j>`, rev2.hpp l.145-246, for `m` equations: `H x w` is the Hessian of the sum of the
equations with the weights `w`; `in[2]` must have the `m` weights -/
def secondOrder {V : Type} [Zero V] [Mul V] (H : List V → List V → Nat → Nat → V) (m : Nat) (req : List (Nat × Nat)) : Fun V :=
  fun key args =>
  match (groups req).find? (·.1 == key), args with
  | some g, [x, dx :: _, w] =>
    if m ≤ w.length then
      match organize req (req.map fun p => H x (w.take m) p.1 p.2) key g.2 with
      | .ok vec => some (vec.map (· * dx))
      | .error _ => none
    else none
  | _, _ => none

/-- The version with atomic functions, rev2.hpp l.68-143: each element on its own. -/
def secondOrderAtomics {V : Type} [Mul V] (H : List V → List V → Nat → Nat → V) (m : Nat) (req : List (Nat × Nat)) : Fun V :=
  fun key args =>
  match (groups req).find? (·.1 == key), args with
  | some g, [x, dx :: _, w] => if m ≤ w.length then some (g.2.map fun i => H x (w.take m) key i * dx) else none
  | _, _ => none

/-- `isAtomicsUsed()` decides which version is generated, for1.hpp l.45-49, rev1.hpp l.45-49, rev2.hpp l.51-55 -/
def firstFn {V : Type} [Zero V] [Mul V] (atomics : Bool) (D : List V → Nat → Nat → V) (req : List (Nat × Nat)) : Fun V :=
  if atomics then firstOrderAtomics D req else firstOrder D req

def secondFn {V : Type} [Zero V] [Mul V] (atomics : Bool) (H : List V → List V → Nat → Nat → V) (m : Nat)
    (req : List (Nat × Nat)) : Fun V :=
  if atomics then secondOrderAtomics H m req else secondOrder H m req

/-! ### which elements are evaluated -/

/-- the elements (key, idx) of a request (row, column): forward mode works on columns, jac.hpp l.162, l.175 -/
def keyed (forward : Bool) (els : List (Nat × Nat)) : List (Nat × Nat) :=
  if forward then els.map fun p => (p.2, p.1) else els

/-- `determineSecondOrderElements4Eval`, hes.hpp l.517-541; `sp` is the sparsity pattern, all indexes are in range -/
def evalElements (sp : Nat → Nat → Bool) (els : List (Nat × Nat)) : List (Nat × Nat) :=
  els.map fun p => if !sp p.1 p.2 && sp p.2 p.1 then (p.2, p.1) else p

end Verif.Deriv
