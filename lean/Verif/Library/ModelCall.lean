import Verif.Library.SpecCall

/-
Model of the evaluation of compiled models, model/functor_generic_model.hpp l.159-315 (sparsity), l.334-445 (values, Jacobian, Hessian),
l.640-890 (sparse Jacobian and Hessian), l.1011-1051, and `Hessian(x, i)` of generic_model.hpp l.383-395. The model keeps arrays of
pointers (`_in`, `_inHess`, `_out`) which keep their pointers after a call, also to memory which was freed. A failed check
(`CPPADCG_ASSERT_KNOWN`, present in all builds) calls the error handler, which does not return. Simplified: a compiled function reads all its
arguments before it writes its results; the products with directions are those of C46; the external functions are those of C69.
-/
namespace Verif.Library.Call

variable {R : Type}

/-- what can change: `_isLibraryReady`, `_missingAtomicFunctions`, `_in`, `_inHess`, `_out`, and the memory; `junk` is found in new memory -/
structure St (R : Type) where
  ready : Bool
  missing : Nat
  inp : List (Option Ptr)
  inHess : List (Option Ptr)
  out : List (Option Ptr)
  heap : Heap R
  junk : Nat → R

/-- a result, a call of the error handler, or undefined behavior -/
inductive Res (R α : Type)
  | ok (a : α) (s : St R)
  | error (s : St R)
  | ub

abbrev M (R α : Type) := St R → Res R α

instance : Monad (M R) where
  pure a s := .ok a s
  bind x f s := match x s with
    | .ok a s' => f a s'
    | .error s' => .error s'
    | .ub => .ub

/-- `CPPADCG_ASSERT_KNOWN` -/
def known (b : Bool) : M R Unit := fun s => if b then .ok () s else .error s

/-- a pointer to a function which has to be there -/
def defined {α} (f : Option α) : M R α := fun s => match f with
  | some f => .ok f s
  | none => .error s

def get : M R (St R) := fun s => .ok s s

def ub {α} : M R α := fun _ => .ub

/-- `_in[i] = p` -/
def setIn (i : Nat) (p : Ptr) : M R Unit := fun s => if i < s.inp.length then .ok () { s with inp := s.inp.set i (some p) } else .ub

/-- `_inHess[i] = p` -/
def setInHess (i : Nat) (p : Ptr) : M R Unit :=
  fun s => if i < s.inHess.length then .ok () { s with inHess := s.inHess.set i (some p) } else .ub

/-- `_out[0] = p` -/
def setOut (p : Ptr) : M R Unit := fun s => if 0 < s.out.length then .ok () { s with out := s.out.set 0 (some p) } else .ub

/-- `k` elements from `p` on -/
def read (H : Heap R) (p : Ptr) (k : Nat) : Option (List R) :=
  match H[p.buf]? with
  | some l => if p.off + k ≤ l.length then some ((l.drop p.off).take k) else none
  | none => none

def readAll (H : Heap R) : List Nat → List (Option Ptr) → Option (List (List R))
  | [], _ => some []
  | k :: ks, some p :: ps => match read H p k, readAll H ks ps with
    | some l, some ls => some (l :: ls)
    | _, _ => none
  | _ :: _, _ => none

/-- the elements from `p` on become `vs` -/
def write (H : Heap R) (p : Ptr) (vs : List R) : Option (Heap R) :=
  match H[p.buf]? with
  | some l => if p.off + vs.length ≤ l.length then some (H.set p.buf (l.take p.off ++ vs ++ l.drop (p.off + vs.length))) else none
  | none => none

/-- a call of a compiled function with arrays of pointers -/
def call (f : Fn R) (ins outs : List (Option Ptr)) : M R Unit := fun s =>
  match readAll s.heap f.ins ins, outs with
  | some args, some p :: _ => match write s.heap p (f.val args) with
    | some H => .ok () { s with heap := H }
    | none => .ub
  | _, _ => .ub

/-- `CppAD::vector<Base> v(k)`: the elements are not set; the number of the new array -/
def alloc (k : Nat) : M R Nat := fun s => .ok s.heap.length { s with heap := s.heap ++ [(List.range k).map s.junk] }

/-- the end of the life of the newest array, also if the error handler is called -/
def withArray {α} (k : Nat) (body : Nat → M R α) : M R α := fun s =>
  match alloc k s with
  | .ok b s' => match body b s' with
    | .ok a s'' => .ok a { s'' with heap := s''.heap.take b }
    | .error s'' => .error { s'' with heap := s''.heap.take b }
    | .ub => .ub
  | .error s' => .error s'
  | .ub => .ub

/-- `std::vector::resize` -/
def resize [Zero R] (b k : Nat) : M R Unit := fun s =>
  match s.heap[b]? with
  | some l => .ok () { s with heap := s.heap.set b (l.take k ++ List.replicate (k - l.length) 0) }
  | none => .ub

/-- the elements of the view become the given ones -/
def store (v : View) (vs : List R) : M R Unit := fun s =>
  match write s.heap v.data vs with
  | some H => .ok () { s with heap := H }
  | none => .ub

/-- the loop of `createDenseFromSparse`, l.1048-1050 -/
def scatter (t : Table) (ncols : Nat) (vals : List R) : Nat → List R → Option (List R)
  | 0, mat => some mat
  | e + 1, mat => match scatter t ncols vals e mat, t.rows[e]?, t.cols[e]?, vals[e]? with
    | some mat, some i, some j, some v => if i * ncols + j < mat.length then some (mat.set (i * ncols + j) v) else none
    | _, _, _, _ => none

/-- `createDenseFromSparse`, l.1039-1051 -/
def createDense [Zero R] (compressed : Ptr) (nrows ncols : Nat) (t : Table) (nnz : Nat) (mat : View) : M R Unit := do
  known (mat.size == nrows * ncols)
  let s ← get
  match read s.heap compressed nnz, read s.heap mat.data mat.size with
  | some vals, some _ => match scatter t ncols vals nnz (List.replicate mat.size 0) with
    | some l => store mat l
    | none => ub
  | _, _ => ub

/-! ### sparsity -/

/-- `loadSparsity` for elements which are true or false, l.1011-1022; it starts with an empty vector -/
def loadBool (t : Table) (nrows ncols : Nat) : Nat → Option (List Bool)
  | 0 => some (List.replicate (nrows * ncols) false)
  | e + 1 => match loadBool t nrows ncols e, t.rows[e]?, t.cols[e]? with
    | some l, some i, some j => if i * ncols + j < l.length then some (l.set (i * ncols + j) true) else none
    | _, _, _ => none

/-- `std::set::insert` -/
def insertSet (j : Nat) : List Nat → List Nat
  | [] => [j]
  | k :: ks => if j < k then j :: k :: ks else if j = k then k :: ks else k :: insertSet j ks

/-- `loadSparsity` for sets, l.1024-1037 -/
def loadSet (t : Table) (nrows : Nat) : Nat → Option (List (List Nat))
  | 0 => some (List.replicate nrows [])
  | e + 1 => match loadSet t nrows e, t.rows[e]?, t.cols[e]? with
    | some l, some i, some j => match l[i]? with
      | some c => some (l.set i (insertSet j c))
      | none => none
    | _, _, _ => none

/-- l.164-178, l.217-231, l.269-283 -/
def sparsityBool (sp : Option Table) (nrows ncols : Nat) : M R (List Bool) := do
  known (← get).ready
  let t ← defined sp
  match loadBool t nrows ncols t.rows.length with
  | some l => pure l
  | none => ub

/-- l.180-194, l.233-247, l.285-299 -/
def sparsitySet (sp : Option Table) (nrows : Nat) : M R (List (List Nat)) := do
  known (← get).ready
  let t ← defined sp
  match loadSet t nrows t.rows.length with
  | some l => pure l
  | none => ub

/-- l.196-210, l.249-263, l.301-315 -/
def sparsityLists (sp : Option Table) : M R (List Nat × List Nat) := do
  known (← get).ready
  let t ← defined sp
  pure (t.rows, t.cols)

/-! ### values -/

/-- l.336-350 -/
def forwardZero (L : Lib R) (x dep : View) : M R Unit := do
  known (← get).ready
  let f ← defined L.zero
  known ((← get).inp.length == 1)
  known (dep.size == L.m)
  known (x.size == L.n)
  known ((← get).missing == 0)
  setIn 0 x.data
  setOut dep.data
  let s ← get
  call f s.inp s.out

/-- l.352-363 -/
def forwardZeroArrays (L : Lib R) (x : List Ptr) (dep : View) : M R Unit := do
  known (← get).ready
  let f ← defined L.zero
  known ((← get).inp.length == x.length)
  known (dep.size == L.m)
  known ((← get).missing == 0)
  setOut dep.data
  let s ← get
  call f (x.map some) s.out

/-- the inner loop of l.388-393: is there a variable in the row? -/
def anyVariable (vx : List Bool) : List Nat → Option Bool
  | [] => some false
  | j :: js => match vx[j]? with
    | some true => some true
    | some false => anyVariable vx js
    | none => none

/-- the loop l.386-394 -/
def markVariables (rows : List (List Nat)) (vx : List Bool) : Nat → List Bool → Option (List Bool)
  | 0, vy => some vy
  | i + 1, vy => match markVariables rows vx i vy, rows[i]? with
    | some vy, some r => match anyVariable vx r with
      | some true => if i < vy.length then some (vy.set i true) else none
      | some false => some vy
      | none => none
    | _, _ => none

/-- l.382-395 -/
def marks (L : Lib R) (vx vy : List Bool) : M R (List Bool) :=
  if vx.length > 0 then do
    known (L.n ≤ vx.length)
    known (L.m ≤ vy.length)
    let rows ← sparsitySet L.jsp L.m
    match markVariables rows vx L.m vy with
    | some vy => pure vy
    | none => ub
  else pure vy

/-- l.365-396; the result is `vy` -/
def forwardZeroVars (L : Lib R) (vx vy : List Bool) (x dep : View) : M R (List Bool) := do
  known (← get).ready
  let f ← defined L.zero
  known ((← get).inp.length == 1)
  known (x.size == L.n)
  known (dep.size == L.m)
  known ((← get).missing == 0)
  setIn 0 x.data
  setOut dep.data
  let s ← get
  call f s.inp s.out
  marks L vx vy

/-- l.402-417 -/
def jacobian (L : Lib R) (x jac : View) : M R Unit := do
  known (← get).ready
  let f ← defined L.jac
  known ((← get).inp.length == 1)
  known (x.size == L.n)
  known (jac.size == L.m * L.n)
  known ((← get).missing == 0)
  setIn 0 x.data
  setOut jac.data
  let s ← get
  call f s.inp s.out

/-- l.424-441 -/
def hessian (L : Lib R) (x w hess : View) : M R Unit := do
  known (← get).ready
  let f ← defined L.hess
  known ((← get).inp.length == 1)
  known (x.size == L.n)
  known (w.size == L.m)
  known (hess.size == L.n * L.n)
  known ((← get).missing == 0)
  setInHess 0 x.data
  setInHess 1 w.data
  setOut hess.data
  let s ← get
  call f s.inHess s.out

/-- `Hessian(x, i)`, generic_model.hpp l.383-395, for a vector class which does not set new elements (`CppAD::vector`); `hess` is the array which is
returned -/
def hessianOf [One R] (L : Lib R) (x : View) (i : Nat) (hess : View) : M R Unit := do
  known (i < L.m)
  withArray L.m fun b => do
    store ⟨⟨b, i⟩, 1⟩ [1]
    hessian L x ⟨⟨b, 0⟩, L.m⟩ hess

/-! ### sparse Jacobian and Hessian -/

/-- l.648-677 -/
def sparseJacobianDense [Zero R] (L : Lib R) (x jac : View) : M R Unit := do
  known (← get).ready
  let f ← defined L.sjac
  known ((← get).inp.length == 1)
  known (x.size == L.n)
  known (jac.size == L.m * L.n)
  known ((← get).missing == 0)
  match L.jsp with
  | none => ub
  | some t => withArray t.rows.length fun b => do
    if t.rows.length > 0 then do
      setIn 0 x.data
      setOut ⟨b, 0⟩
      let s ← get
      call f s.inp s.out
    createDense ⟨b, 0⟩ L.m L.n t t.rows.length jac

/-- l.679-706; `x` and `jac` are vectors, the size of `x` is not checked; the result is `row` and `col` -/
def sparseJacobianVec [Zero R] (L : Lib R) (x jac : Nat) : M R (List Nat × List Nat) := do
  known (← get).ready
  let f ← defined L.sjac
  known ((← get).inp.length == 1)
  known ((← get).missing == 0)
  match L.jsp with
  | none => ub
  | some t => do
    resize jac t.rows.length
    if t.rows.length > 0 then do
      setIn 0 ⟨x, 0⟩
      setOut ⟨jac, 0⟩
      let s ← get
      call f s.inp s.out
      pure (t.rows, t.cols)
    else pure ([], [])

/-- l.708-733 -/
def sparseJacobianView (L : Lib R) (x jac : View) : M R (List Nat × List Nat) := do
  known (← get).ready
  let f ← defined L.sjac
  known ((← get).inp.length == 1)
  known (x.size == L.n)
  known ((← get).missing == 0)
  match L.jsp with
  | none => ub
  | some t => do
    known (t.rows.length == jac.size)
    if t.rows.length > 0 then do
      setIn 0 x.data
      setOut jac.data
      let s ← get
      call f s.inp s.out
    pure (t.rows, t.cols)

/-- l.735-758 -/
def sparseJacobianArrays (L : Lib R) (x : List Ptr) (jac : View) : M R (List Nat × List Nat) := do
  known (← get).ready
  let f ← defined L.sjac
  known ((← get).inp.length == x.length)
  known ((← get).missing == 0)
  match L.jsp with
  | none => ub
  | some t => do
    known (t.rows.length == jac.size)
    if t.rows.length > 0 then do
      setOut jac.data
      let s ← get
      call f (x.map some) s.out
    pure (t.rows, t.cols)

/-- l.765-795; the size of `hess` is checked by `createDenseFromSparse` -/
def sparseHessianDense [Zero R] (L : Lib R) (x w hess : View) : M R Unit := do
  known (← get).ready
  let f ← defined L.shess
  known (x.size == L.n)
  known (w.size == L.m)
  known ((← get).inp.length == 1)
  known ((← get).missing == 0)
  match L.hsp with
  | none => ub
  | some t => withArray t.rows.length fun b => do
    if t.rows.length > 0 then do
      setInHess 0 x.data
      setInHess 1 w.data
      setOut ⟨b, 0⟩
      let s ← get
      call f s.inHess s.out
    createDense ⟨b, 0⟩ L.n L.n t t.rows.length hess

/-- l.797-828; `x`, `w` and `hess` are vectors -/
def sparseHessianVec [Zero R] (L : Lib R) (x w hess : Nat) : M R (List Nat × List Nat) := do
  known (← get).ready
  let f ← defined L.shess
  known (((← get).heap.getD x []).length == L.n)
  known (((← get).heap.getD w []).length == L.m)
  known ((← get).inp.length == 1)
  known ((← get).missing == 0)
  match L.hsp with
  | none => ub
  | some t => do
    resize hess t.rows.length
    if t.rows.length > 0 then do
      setInHess 0 ⟨x, 0⟩
      setInHess 1 ⟨w, 0⟩
      setOut ⟨hess, 0⟩
      let s ← get
      call f s.inHess s.out
      pure (t.rows, t.cols)
    else pure ([], [])

/-- l.830-857 -/
def sparseHessianView (L : Lib R) (x w hess : View) : M R (List Nat × List Nat) := do
  known (← get).ready
  let f ← defined L.shess
  known ((← get).inp.length == 1)
  known (x.size == L.n)
  known (w.size == L.m)
  known ((← get).missing == 0)
  match L.hsp with
  | none => ub
  | some t => do
    known (t.rows.length == hess.size)
    if t.rows.length > 0 then do
      setInHess 0 x.data
      setInHess 1 w.data
      setOut hess.data
      let s ← get
      call f s.inHess s.out
    pure (t.rows, t.cols)

/-- `std::copy(x.begin(), x.end(), _inHess.begin())`, l.881 -/
def copyInHess : Nat → List Ptr → M R Unit
  | _, [] => pure ()
  | i, p :: ps => do
    setInHess i p
    copyInHess (i + 1) ps

/-- l.859-889 -/
def sparseHessianArrays (L : Lib R) (x : List Ptr) (w hess : View) : M R (List Nat × List Nat) := do
  known (← get).ready
  let f ← defined L.shess
  known ((← get).inp.length == x.length)
  known (w.size == L.m)
  known ((← get).missing == 0)
  match L.hsp with
  | none => ub
  | some t => do
    known (t.rows.length == hess.size)
    if t.rows.length > 0 then do
      copyInHess 0 x
      setInHess ((← get).inHess.length - 1) w.data
      setOut hess.data
      let s ← get
      call f s.inHess s.out
    pure (t.rows, t.cols)

/-- a model which was loaded, l.921-962 -/
def St.load (L : Lib R) (missing outSize : Nat) (heap : Heap R) (junk : Nat → R) : St R :=
  ⟨true, missing, List.replicate L.arrays.length none, List.replicate (L.arrays.length + 1) none, List.replicate outSize none, heap, junk⟩

end Verif.Library.Call
