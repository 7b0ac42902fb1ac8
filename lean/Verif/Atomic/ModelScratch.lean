import Verif.Atomic.ModelRun
/-
Model of the memory shared by `FunctorGenericModel` (model/functor_generic_model.hpp) and `AtomicExternalFunctionWrapper`
(model/atomic_external_function_wrapper.hpp). The sparse `ForwardOne`, `ReverseOne` and `ReverseTwo` (l.466-503, l.532-569,
l.602-641) give the generated function a pointer to the elements of a member (`_ty` or `_px`) to store its results in.
When the generated function calls an atomic function of the user, the wrapper resizes and fills the same member.

A generated function is a sequence of steps on its variables. Only one member is modelled, the one the results are stored
in; a call with forward mode fills `_ty` and one with reverse mode `_ty` and `_px`. `CppAD::vector::resize` keeps the memory
if the capacity is sufficient and otherwise frees it and gets new memory; the capacity it gets for `n` elements is a
parameter.
-/
namespace Verif.Atomic
open Verif.Deriv (Err Mem)

/-- a step of a generated function: an assignment to a variable, to a result, or a call of an atomic function whose
results (of all orders), `len` values, are stored in the variables from `k` on -/
inductive Step (V : Type) where
  | assign (k : Nat) (f : (Nat → V) → V)
  | out (i : Nat) (f : (Nat → V) → V)
  | call (k len : Nat) (g : (Nat → V) → Nat → V)

def Step.callLen {V : Type} : Step V → Option Nat
  | .call _ len _ => some len
  | _ => none

def setVar {V : Type} (env : Nat → V) (k : Nat) (v : V) : Nat → V := fun l => if l = k then v else env l

def setVars {V : Type} (env : Nat → V) (k len : Nat) (v : Nat → V) : Nat → V :=
  fun l => if k ≤ l ∧ l < k + len then v (l - k) else env l

/-- the member: the block its elements are in and its capacity -/
structure Vec where
  block : Nat
  cap : Nat
deriving DecidableEq, Repr

/-- blocks of memory; `none` if freed -/
structure Heap (V : Type) where
  blocks : List (Option (Mem V))

/-- `resize(n)`; `alloc n` is the capacity obtained -/
def Heap.resize {V : Type} (alloc : Nat → Nat) (h : Heap V) (v : Vec) (n : Nat) : Heap V × Vec :=
  if n ≤ v.cap then (h, v)
  else (⟨(h.blocks.set v.block none) ++ [some (List.replicate (alloc n) none)]⟩, ⟨h.blocks.length, alloc n⟩)

/-- storing an element of a block -/
def Heap.write {V : Type} (h : Heap V) (b i : Nat) (v : V) : Except Err (Heap V) :=
  match h.blocks[b]? with
  | some (some a) => if i < a.length then .ok ⟨h.blocks.set b (some (a.set i (some v)))⟩ else .error .ub
  | _ => .error .ub

/-- reading an element of a block -/
def Heap.read {V : Type} (h : Heap V) (b i : Nat) : Except Err V :=
  match h.blocks[b]? with
  | some (some a) =>
    match a[i]? with
    | some (some v) => .ok v
    | _ => .error .ub
  | _ => .error .ub

/-- storing `v 0`, …, `v (len - 1)` -/
def Heap.fill {V : Type} (h : Heap V) (b : Nat) (v : Nat → V) : Nat → Except Err (Heap V)
  | 0 => .ok h
  | len + 1 => match h.fill b v len with
    | .ok h => h.write b len (v len)
    | .error e => .error e

/-- one step; `ptr` is the block the results are stored in -/
def Step.run {V : Type} (alloc : Nat → Nat) (ptr : Nat) (s : (Nat → V) × Heap V × Vec) :
    Step V → Except Err ((Nat → V) × Heap V × Vec)
  | .assign k f => .ok (setVar s.1 k (f s.1), s.2)
  | .out i f => match s.2.1.write ptr i (f s.1) with
    | .ok h => .ok (s.1, h, s.2.2)
    | .error e => .error e
  | .call k len g =>
    let r := s.2.1.resize alloc s.2.2 len
    match r.1.fill r.2.block (g s.1) len with
    | .ok h => .ok (setVars s.1 k len (g s.1), h, r.2)
    | .error e => .error e

def runSteps {V : Type} (alloc : Nat → Nat) (ptr : Nat) : List (Step V) → (Nat → V) × Heap V × Vec →
    Except Err ((Nat → V) × Heap V × Vec)
  | [], s => .ok s
  | p :: ps, s => match p.run alloc ptr s with
    | .ok s => runSteps alloc ptr ps s
    | .error e => .error e

/-- the sparse `ForwardOne` for one element of the direction: resize the member, run, read result `i` -/
def runCompressed {V : Type} (alloc : Nat → Nat) (size : Nat) (steps : List (Step V)) (env : Nat → V) (h : Heap V) (v : Vec)
    (i : Nat) : Except Err V :=
  let r := h.resize alloc v size
  match runSteps alloc r.2.block steps (env, r.1, r.2) with
  | .ok s => s.2.1.read r.2.block i
  | .error e => .error e

end Verif.Atomic
