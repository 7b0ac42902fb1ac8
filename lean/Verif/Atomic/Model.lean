import Verif.Atomic.Spec
/-
Model of the recording of atomic functions: `CGAbstractAtomicFun::forward` and `reverse`, abstract_atomic_fun.hpp
l.95-396, with the arrays of base_abstract_atomic_fun.hpp l.75-127.

A value of type `CG` is a parameter or a node, the value of which is known when the generated function runs. Vectors are
functions of the position. The values which nodes may have while recording (`isValuesDefined`) are not modelled, they do
not change what is recorded. The sparsity methods, which are virtual, are parameters: for sets with the only element 0 a
set is a flag.
-/
namespace Verif.Atomic

inductive Cg (R : Type) where
  | par (c : R)
  | var (id : Nat)
deriving DecidableEq, Repr

/-- `isParameter` -/
def Cg.isPar {R : Type} : Cg R → Bool
  | .par _ => true
  | .var _ => false

/-- `isIdenticalZero`, variable.hpp l.63-65 -/
def Cg.isZero {R : Type} [Zero R] [DecidableEq R] : Cg R → Bool
  | .par c => c == 0
  | .var _ => false

/-- the value when the generated function runs -/
def Cg.ev {R : Type} (env : Nat → R) : Cg R → R
  | .par c => c
  | .var id => env id

/-- the nodes `ArrayCreation` and `SparseArrayCreation` -/
inductive Arr (R : Type) where
  | dense (a : List (Cg R))
  | sparse (size : Nat) (idx : List Nat) (a : List (Cg R))
deriving DecidableEq, Repr

/-- `makeArray`, base_abstract_atomic_fun.hpp l.77-89, for a vector of size `n * (p + 1)` -/
def makeArray {R : Type} (tx : Nat → Cg R) (n p k : Nat) : Arr R :=
  .dense ((List.range n).map fun i => tx (i * (p + 1) + k))

/-- `makeZeroArray`, l.91-97 -/
def makeZeroArray {R : Type} [Zero R] (size : Nat) : Arr R := .dense (List.replicate size (.par 0))

/-- `makeEmptySparseArray`, l.99-102 -/
def makeEmptySparseArray {R : Type} (size : Nat) : Arr R := .sparse size [] []

/-- `makeSparseArray`, l.104-127 -/
def makeSparseArray {R : Type} [Zero R] [DecidableEq R] (py : Nat → Cg R) (n p k : Nat) : Arr R :=
  .sparse n ((List.range n).filter fun i => !(py (i * (p + 1) + k)).isZero)
    (((List.range n).filter fun i => !(py (i * (p + 1) + k)).isZero).map fun i => py (i * (p + 1) + k))

/-- what is put in an element of the result -/
inductive Elem (R : Type) where
  | const (c : R)
  /-- `ArrayElement` of the `k`-th array of results -/
  | elem (k i : Nat)
deriving DecidableEq, Repr

/-- the node `AtomicForward` with its arrays -/
structure ForCall (R : Type) where
  q : Nat
  p : Nat
  tx : List (Arr R)
  ty : List (Arr R)
deriving DecidableEq, Repr

/-- the node `AtomicReverse` with its arrays -/
structure RevCall (R : Type) where
  p : Nat
  tx : List (Arr R)
  ty : List (Arr R)
  px : List (Arr R)
  py : List (Arr R)
deriving DecidableEq, Repr

/-- the call, if one is recorded, and the elements of the result by position -/
structure Rec (C R : Type) where
  call : Option C
  out : Nat → Elem R

/-- `isParameters`, base_abstract_atomic_fun.hpp l.129-136 -/
def isParameters {R : Type} (tx : Nat → Cg R) (size : Nat) : Bool := (List.range size).all fun i => (tx i).isPar

/-- `getValue` of a parameter -/
def getValue {R : Type} [Zero R] : Cg R → R
  | .par c => c
  | .var _ => 0

/-- `v[i * s + o] = f(i)` for `i = 0, ..., m - 1` -/
def setEach (v : List Bool) (m s o : Nat) (f : Nat → Bool) : List Bool :=
  (List.range m).foldl (fun v i => v.set (i * s + o) (f i)) v

/-- `zeroOrderDependency` of `CGAtomicFunBridge` (util.hpp l.23-42) and `CGAtomicFun` (atomic_fun.hpp l.176-202), for a
vector `vy` without flags set; `dep i j`: element `j` is in row `i` of the Jacobian pattern -/
def zeroOrderDependency (dep : Nat → Nat → Bool) (n : Nat) (vx : Nat → Bool) (i : Nat) : Bool :=
  (List.range n).any fun j => dep i j && vx j

section
variable {R : Type} [Zero R] [DecidableEq R]

/-- The flags `vyLocal` for `p ≥ 1`, abstract_atomic_fun.hpp l.131-167; `forJac r i`: row `i` of the result of
`for_sparse_jac(1, r, s, x)` is not empty -/
def vyFlags (forJac : (Nat → Bool) → Nat → Bool) (p m : Nat) (tx : Nat → Cg R) : List Bool :=
  setEach (List.replicate (m * (p + 1)) true) m (p + 1) 1 (forJac fun j => !(tx (j * (p + 1) + 1)).isZero)

/-- `forward`, abstract_atomic_fun.hpp l.95-234. `eval q p` is `atomicForward`; `vx` is `none` for a vector of size zero,
as in every forward sweep of CppAD over a recorded function. -/
def forward (eval : Nat → Nat → (Nat → R) → Nat → R) (forJac : (Nat → Bool) → Nat → Bool)
    (zeroDep : (Nat → Bool) → Nat → Bool) (n m q p : Nat) (vx : Option (Nat → Bool)) (tx : Nat → Cg R) :
    Rec (ForCall R) R :=
  let vy : Option (Nat → Bool) := vx.map zeroDep
  if isParameters tx (n * (p + 1)) then ⟨none, fun pos => .const (eval q p (fun i => getValue (tx i)) pos)⟩
  else
    let vyLocal : Nat → Bool :=
      if p = 0 then (match vy with | none => fun _ => true | some vy => vy)
      else fun pos => (vyFlags forJac p m tx).getD pos false
    if p = 1 ∧ (List.range (m * (p + 1))).all fun pos => !vyLocal pos then ⟨none, fun _ => .const 0⟩
    else
      ⟨some ⟨q, p, (List.range (p + 1)).map fun k => if k = 0 then makeArray tx n p k else makeSparseArray tx n p k,
          (List.range (p + 1)).map fun _ => makeZeroArray m⟩,
        fun pos => if vyLocal pos then .elem (pos % (p + 1)) (pos / (p + 1)) else .const 0⟩

/-- The flags `vxLocal`, l.264-326. `revJac rt j`: row `j` of the result of `rev_sparse_jac(1, rt, st, x)` is not empty,
`revHes s r j`: row `j` of the result `v` of `rev_sparse_hes(vx, s, t, 1, r, u, v, x)` with empty `u` is not empty. -/
def vxFlags (revJac : (Nat → Bool) → Nat → Bool) (revHes : (Nat → Bool) → (Nat → Bool) → Nat → Bool) (n p : Nat)
    (tx py : Nat → Cg R) : List Bool :=
  let v := setEach (List.replicate (n * (p + 1)) true) n (p + 1) p (revJac fun i => !(py (i * (p + 1))).isZero)
  if p ≥ 1 then
    setEach v n (p + 1) (p - 1)
      (revHes (fun i => !(py (i * (p + 1) + 1)).isZero) (fun j => !(tx (j * (p + 1) + 1)).isZero))
  else v

/-- `reverse`, l.236-396; `eval p` is `atomicReverse` and `standAlone` a flag given by the user -/
def reverse (eval : Nat → (Nat → R) → (Nat → R) → (Nat → R) → Nat → R) (revJac : (Nat → Bool) → Nat → Bool)
    (revHes : (Nat → Bool) → (Nat → Bool) → Nat → Bool) (standAlone : Bool) (n m p : Nat) (tx ty py : Nat → Cg R) :
    Rec (RevCall R) R :=
  if isParameters tx (n * (p + 1)) && isParameters ty (m * (p + 1)) && isParameters py (m * (p + 1)) then
    ⟨none, fun pos => .const (eval p (fun i => getValue (tx i)) (fun i => getValue (ty i)) (fun i => getValue (py i)) pos)⟩
  else
    let v := vxFlags revJac revHes n p tx py
    if v.all (! ·) then ⟨none, fun _ => .const 0⟩
    else
      ⟨some ⟨p, (List.range (p + 1)).map fun k => if k = 0 then makeArray tx n p k else makeSparseArray tx n p k,
          (List.range (p + 1)).map fun k => if standAlone then makeEmptySparseArray m else makeSparseArray ty m p k,
          (List.range (p + 1)).map fun k => if k = 0 then makeZeroArray n else makeEmptySparseArray n,
          (List.range (p + 1)).map fun k => if k = 0 then makeSparseArray py m p k else makeArray py m p k⟩,
        fun pos => if v.getD pos false then .elem (pos % (p + 1)) (pos / (p + 1)) else .const 0⟩

end

end Verif.Atomic
