import Verif.Atomic.Model
import Verif.Deriv.ModelDir
/-
Model of what happens when a generated function calls an atomic function: the statements written for the nodes
`AtomicForward` and `AtomicReverse` (language_c.hpp l.1791-1880), and the two classes which receive the call,
`AtomicExternalFunctionWrapper` (model/atomic_external_function_wrapper.hpp) for an atomic function of the user and
`GenericModelExternalFunctionWrapper` (model/generic_model_external_function_wrapper.hpp) for a compiled model.

Each array has its own memory and holds its elements when it is used (C44). The value returned by the call is ignored by
the generated function. The vectors `_tx`, `_ty`, `_px`, `_py` of the calling model, which the first class uses, are here
local to the call; see `Verif/Atomic/ModelScratch.lean` for their sharing.
-/
namespace Verif.Atomic
open Verif.Deriv (Err Mem load store storeList zeros sparseProduct Fun Args)

/-- `struct Array`; `nnz` is the number of elements given -/
inductive RArr (R : Type) where
  | dense (a : List R)
  | sparse (size : Nat) (idx : List Nat) (a : List R)
deriving DecidableEq, Repr

def Arr.ev {R : Type} (env : Nat → R) : Arr R → RArr R
  | .dense a => .dense (a.map (Cg.ev env))
  | .sparse size idx a => .sparse size idx (a.map (Cg.ev env))

/-- what a called function does with the array of results: `forward(q, p, tx, ty)` -/
abbrev ForExt (R : Type) := Nat → Nat → List (RArr R) → Mem R → Except Err (Mem R)

/-- `reverse(p, tx, px, py)` -/
abbrev RevExt (R : Type) := Nat → List (RArr R) → Mem R → List (RArr R) → Except Err (Mem R)

/-- the memory of an array of results; a sparse array without elements has no memory -/
def RArr.mem {R : Type} : RArr R → Mem R
  | .dense a => a.map some
  | .sparse _ _ a => a.map some

/-- The statement written by `pushAtomicForwardOp`, language_c.hpp l.1791-1831: all arrays `tx` are given, of the arrays
of results only `ty[p]`. The contents of the arrays of results afterwards. -/
def runForward {R : Type} (ext : ForExt R) (env : Nat → R) (c : ForCall R) : Except Err (List (Mem R)) :=
  let ty := c.ty.map fun a => (a.ev env).mem
  match ty[c.p]? with
  | none => .error .ub
  | some y =>
    match ext c.q c.p (c.tx.map (Arr.ev env)) y with
    | .error e => .error e
    | .ok y => .ok (ty.set c.p y)

/-- The statement written by `pushAtomicReverseOp`, language_c.hpp l.1833-1880: of the arrays of results only `px[0]` is
given. -/
def runReverse {R : Type} (ext : RevExt R) (env : Nat → R) (c : RevCall R) : Except Err (List (Mem R)) :=
  let px := c.px.map fun a => (a.ev env).mem
  match px[0]? with
  | none => .error .ub
  | some y =>
    match ext c.p (c.tx.map (Arr.ev env)) y (c.py.map (Arr.ev env)) with
    | .error e => .error e
    | .ok y => .ok (px.set 0 y)

/-- the value of an element of the result -/
def Elem.ev {R : Type} (arrays : Except Err (List (Mem R))) : Elem R → Except Err R
  | .const c => .ok c
  | .elem k i =>
    match arrays with
    | .error e => .error e
    | .ok l => match l[k]? with
      | none => .error .ub
      | some a => load a i

/-- the value of the result at a position, for `forward` -/
def evalForward {R : Type} (ext : ForExt R) (env : Nat → R) (r : Rec (ForCall R) R) (pos : Nat) : Except Err R :=
  match r.call with
  | none => (r.out pos).ev (.error .ub)
  | some c => (r.out pos).ev (runForward ext env c)

/-- the value of the result at a position, for `reverse` -/
def evalReverse {R : Type} (ext : RevExt R) (env : Nat → R) (r : Rec (RevCall R) R) (pos : Nat) : Except Err R :=
  match r.call with
  | none => (r.out pos).ev (.error .ub)
  | some c => (r.out pos).ev (runReverse ext env c)

/-! ### atomic functions of the user -/

/-- `(idx[e] * p1 + k, values[e])`, atomic_external_function_wrapper.hpp l.113-116; an index which is not in the array of
values is undefined behaviour, excluded here by the equal lengths -/
def sparseStores {R : Type} (p k : Nat) : List Nat → List R → List (Nat × R)
  | j :: idx, v :: vs => (j * (p + 1) + k, v) :: sparseStores p k idx vs
  | _, _ => []

/-- one round of the loop of `convert`, l.100-122. The array of values of a dense array has at least `n` elements. -/
def convertOne {R : Type} [Zero R] (a : RArr R) (n p k : Nat) (to : Mem R) : Except Err (Mem R) :=
  match a with
  | .sparse _ idx vs =>
    match (if p = 0 then zeros 1 0 n to else zeros (p + 1) k n to) with
    | .error e => .error e
    | .ok to => storeList to (sparseStores p k idx vs)
  | .dense vs =>
    if n ≤ vs.length then storeList to ((List.range n).map fun j => (j * (p + 1) + k, vs.getD j 0)) else .error .ub

/-- `convert`, l.90-123, from array `k` on; `to` has been given its size -/
def convert {R : Type} [Zero R] (n p : Nat) : List (RArr R) → Nat → Mem R → Except Err (Mem R)
  | [], _, to => .ok to
  | a :: as, k, to =>
    match convertOne a n p k to with
    | .error e => .error e
    | .ok to => convert n p as (k + 1) to

/-- `values[j] += from[j * p1 + k]`, l.141-143 -/
def addEach {R : Type} [Zero R] [Add R] (src : Nat → R) (p k : Nat) : List Nat → Mem R → Except Err (Mem R)
  | [], out => .ok out
  | j :: js, out =>
    match load out j with
    | .error e => .error e
    | .ok v => match store out j (v + src (j * (p + 1) + k)) with
      | .error e => .error e
      | .ok out => addEach src p k js out

/-- `convertAdd`, l.125-146 -/
def convertAdd {R : Type} [Zero R] [Add R] (src : Nat → R) (n p k : Nat) (out : Mem R) : Except Err (Mem R) :=
  if p = 0 then storeList out ((List.range n).map fun j => (j, src j))
  else addEach src p k (List.range n) out

/-- contents of a vector; only read where something was stored -/
def contents {R : Type} [Zero R] (a : Mem R) (i : Nat) : R := (a.getD i none).getD 0

/-- size of an array -/
def RArr.size {R : Type} : RArr R → Nat
  | .dense a => a.length
  | .sparse size _ _ => size

/-- `AtomicExternalFunctionWrapper::forward`, l.32-56; `user q p tx ty` are the results of `atomic_->forward`, which is
given zeros as Taylor coefficients of the results -/
def userForward {R : Type} [Zero R] [Add R] (user : Nat → Nat → (Nat → R) → (Nat → R) → Nat → R) : ForExt R :=
    fun q p tx y =>
  match tx with
  | [] => .error .ub
  | t :: _ =>
    match convert t.size p (tx.take (p + 1)) 0 (List.replicate (t.size * (p + 1)) none) with
    | .error e => .error e
    | .ok txv => convertAdd (user q p (contents txv) fun _ => 0) y.length p p y

/-- `AtomicExternalFunctionWrapper::reverse`, l.58-95; `user p tx ty py` are the results of `atomic_->reverse`, which is
given zeros as Taylor coefficients of the results. This is the code with `NDEBUG`; without it a flag makes a forward call
first. -/
def userReverse {R : Type} [Zero R] [Add R] (user : Nat → (Nat → R) → (Nat → R) → (Nat → R) → Nat → R) : RevExt R :=
    fun p tx px py =>
  match tx, py with
  | t :: _, w :: _ =>
    match convert t.size p (tx.take (p + 1)) 0 (List.replicate (t.size * (p + 1)) none),
      convert w.size p (py.take (p + 1)) 0 (List.replicate (w.size * (p + 1)) none) with
    | .ok txv, .ok pyv => convertAdd (user p (contents txv) (fun _ => 0) (contents pyv)) t.size p 0 px
    | .error e, _ => .error e
    | _, .error e => .error e
  | _, _ => .error .ub

/-! ### compiled models -/

/-- `GenericModelExternalFunctionWrapper::forward`, generic_model_external_function_wrapper.hpp l.34-63. `zero x` is what
the generated zero order function stores, `fn` and `elements` are the function `sparse_forward_one`. Failed assertions are
exceptions. -/
def modelForward {R : Type} [Zero R] [Add R] (zero : List R → List R) (fn : Fun R) (elements : List (Nat × List Nat))
    (m : Nat) : ForExt R := fun _ p tx y =>
  match p, tx with
  | 0, [.dense x] => storeList y ((List.range m).map fun i => (i, (zero x).getD i 0))
  | 1, [.dense x, .sparse _ idx tx1] => sparseProduct fn elements m m x idx tx1 [] y
  | _, _ => .error .exception

/-- `GenericModelExternalFunctionWrapper::reverse`, l.65-104; `fn1`, `els1` are `sparse_reverse_one`, `fn2`, `els2`
`sparse_reverse_two` -/
def modelReverse {R : Type} [Zero R] [Add R] (fn1 : Fun R) (els1 : List (Nat × List Nat)) (fn2 : Fun R)
    (els2 : List (Nat × List Nat)) (n : Nat) : RevExt R := fun p tx px py =>
  match p, tx, py with
  | 0, [.dense x], [.sparse _ idx w] => sparseProduct fn1 els1 n n x idx w [] px
  | 1, [.dense x, .sparse _ idx tx1], [.sparse _ _ w0, .dense w1] =>
    if w0.isEmpty then sparseProduct fn2 els2 n n x idx tx1 [w1] px else .error .exception
  | _, _, _ => .error .exception

end Verif.Atomic
