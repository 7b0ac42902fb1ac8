import Verif.Library.ModelCall
import Mathlib.Data.List.Forall2

/-
What is expected of a call of the interface of a compiled model (C70): it is successful if and only if it can be, and then its result is right;
otherwise the error handler is called and no array was changed. There is no undefined behavior.
-/
namespace Verif.Library.Call

variable {R α : Type}

/-- the arrays of pointers have the sizes given by the library -/
structure St.Fits (L : Lib R) (s : St R) : Prop where
  inp : s.inp.length = L.arrays.length
  inHess : s.inHess.length = L.arrays.length + 1
  out : 0 < s.out.length

/-- the library is still there, the same external functions are missing and the arrays of pointers have the same sizes -/
structure Keeps (s s' : St R) : Prop where
  ready : s'.ready = s.ready
  missing : s'.missing = s.missing
  junk : s'.junk = s.junk
  inp : s'.inp.length = s.inp.length
  inHess : s'.inHess.length = s.inHess.length
  out : s'.out.length = s.out.length

/-- a call which is successful if and only if `can`, with a `good` result -/
structure Gives (s : St R) (r : Res R α) (can : Prop) (good : α → Heap R → Prop) : Prop where
  ok : can → ∃ a s', r = .ok a s' ∧ good a s'.heap ∧ Keeps s s'
  error : ¬ can → ∃ s', r = .error s' ∧ s'.heap = s.heap ∧ Keeps s s'

/-- the library was not closed and no external function is missing -/
def St.Usable (s : St R) : Prop := s.ready = true ∧ s.missing = 0

/-- the independents are in one array -/
def Lib.OneArray (L : Lib R) : Prop := L.arrays.length = 1

/-- a caller who gives several arrays gives arrays of the sizes of the library -/
def Given (L : Lib R) (H : Heap R) (x : List Ptr) (xs : List (List R)) : Prop :=
  x.length = L.arrays.length → List.Forall₂ (Holds H) x xs ∧ xs.map List.length = L.arrays

/-- one at position `i`, zero elsewhere -/
def unit [Zero R] [One R] (m i : Nat) : List R := (List.range m).map fun k => if k = i then 1 else 0

/-- the calls of the interface; between them any array can change, and others can be made or deleted -/
inductive Op (R : Type)
  | memory (H : Heap R)
  | zero (x dep : View)
  | zeroArrays (x : List Ptr) (dep : View)
  | zeroVars (vx vy : List Bool) (x dep : View)
  | jac (x jac : View)
  | hess (x w hess : View)
  | hessOf (x : View) (i : Nat) (hess : View)
  | sjacDense (x jac : View)
  | sjacVec (x jac : Nat)
  | sjacView (x jac : View)
  | sjacArrays (x : List Ptr) (jac : View)
  | shessDense (x w hess : View)
  | shessVec (x w hess : Nat)
  | shessView (x w hess : View)
  | shessArrays (x : List Ptr) (w hess : View)

/-- the state after a call, also after an error; none after undefined behavior -/
def Res.after : Res R α → Option (St R)
  | .ok _ s => some s
  | .error s => some s
  | .ub => none

def St.step [Zero R] [One R] (L : Lib R) (s : St R) : Op R → Option (St R)
  | .memory H => some { s with heap := H }
  | .zero x dep => (forwardZero L x dep s).after
  | .zeroArrays x dep => (forwardZeroArrays L x dep s).after
  | .zeroVars vx vy x dep => (forwardZeroVars L vx vy x dep s).after
  | .jac x j => (jacobian L x j s).after
  | .hess x w h => (hessian L x w h s).after
  | .hessOf x i h => (hessianOf L x i h s).after
  | .sjacDense x j => (sparseJacobianDense L x j s).after
  | .sjacVec x j => (sparseJacobianVec L x j s).after
  | .sjacView x j => (sparseJacobianView L x j s).after
  | .sjacArrays x j => (sparseJacobianArrays L x j s).after
  | .shessDense x w h => (sparseHessianDense L x w h s).after
  | .shessVec x w h => (sparseHessianVec L x w h s).after
  | .shessView x w h => (sparseHessianView L x w h s).after
  | .shessArrays x w h => (sparseHessianArrays L x w h s).after

def St.steps [Zero R] [One R] (L : Lib R) (s : St R) : List (Op R) → Option (St R)
  | [] => some s
  | o :: os => match s.step L o with
    | some s' => s'.steps L os
    | none => none

end Verif.Library.Call
