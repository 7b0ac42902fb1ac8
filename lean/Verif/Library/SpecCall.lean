/-
Specification of the evaluation of a compiled model through its interface: arrays in memory, sparse matrices and what the functions of
the compiled library compute. Nothing here knows about the pointers kept by the model.
-/
namespace Verif.Library.Call

/-- the arrays in memory -/
abbrev Heap (R : Type) := List (List R)

/-- the address of an element of an array -/
structure Ptr where
  buf : Nat
  off : Nat
deriving DecidableEq

/-- some elements which are next to each other, array_view.hpp l.27-51 -/
structure View where
  data : Ptr
  size : Nat
deriving DecidableEq

/-- the elements of the view exist -/
def View.Exists {R} (v : View) (H : Heap R) : Prop := ∃ l, H[v.data.buf]? = some l ∧ v.data.off + v.size ≤ l.length

/-- the values from this address on -/
def Holds {R} (H : Heap R) (p : Ptr) (vs : List R) : Prop :=
  ∃ l, H[p.buf]? = some l ∧ p.off + vs.length ≤ l.length ∧ ∀ k, k < vs.length → l[p.off + k]? = vs[k]?

/-- nothing outside of the view is different -/
def OnlyIn {R} (v : View) (H H' : Heap R) : Prop :=
  H'.length = H.length ∧ ∀ (b : Nat) (l l' : List R), H[b]? = some l → H'[b]? = some l' → l'.length = l.length ∧
    ∀ i, (b = v.data.buf → i < v.data.off ∨ v.data.off + v.size ≤ i) → l'[i]? = l[i]?

/-- nothing outside of the array is different (the array can have another size) -/
def OnlyArray {R} (b : Nat) (H H' : Heap R) : Prop := H'.length = H.length ∧ ∀ b', b' ≠ b → H'[b']? = H[b']?

/-- rows and columns of the elements of a sparse matrix -/
structure Table where
  rows : List Nat
  cols : List Nat
deriving DecidableEq

/-- element `e` is at row `i` and column `j` -/
def Table.At (t : Table) (e i j : Nat) : Prop := t.rows[e]? = some i ∧ t.cols[e]? = some j

/-- all elements are inside of the matrix, no two of them are at the same position -/
structure Table.Ok (t : Table) (nrows ncols : Nat) : Prop where
  size : t.cols.length = t.rows.length
  rows : ∀ i ∈ t.rows, i < nrows
  cols : ∀ j ∈ t.cols, j < ncols
  single : ∀ e e' i j, t.At e i j → t.At e' i j → e = e'

/-- the values of all elements of a matrix, row by row: those of the sparse matrix at their positions, zero elsewhere -/
def Dense {R} [Zero R] (t : Table) (vals : List R) (nrows ncols : Nat) (mat : List R) : Prop :=
  mat.length = nrows * ncols ∧ ∀ i j, i < nrows → j < ncols →
    (∀ e, t.At e i j → mat[i * ncols + j]? = vals[e]?) ∧ ((∀ e, ¬ t.At e i j) → mat[i * ncols + j]? = some 0)

/-- a compiled function: the number of elements read in each array it is given, the number of values it returns, and these values -/
structure Fn (R : Type) where
  ins : List Nat
  out : Nat
  val : List (List R) → List R

/-- it takes arrays of these sizes and returns a number of values -/
structure Fn.Ok {R} (f : Fn R) (ins : List Nat) (out : Nat) : Prop where
  ins : f.ins = ins
  size : ∀ args, (f.val args).length = out

/-- what a compiled library has for a model: the number of dependent and independent variables, the sizes of the arrays of independents, the functions
and the sparsity patterns (of the Hessian of all and of single equations) -/
structure Lib (R : Type) where
  m : Nat
  n : Nat
  arrays : List Nat
  zero : Option (Fn R)
  jac : Option (Fn R)
  hess : Option (Fn R)
  sjac : Option (Fn R)
  shess : Option (Fn R)
  jsp : Option Table
  hsp : Option Table
  hsp2 : Option (Nat → Table)

/-- the functions fit together (functor_generic_model.hpp l.985-992: sparse functions have their sparsity) -/
structure Lib.Ok {R} (L : Lib R) : Prop where
  sum : L.arrays.sum = L.n
  arrays : L.arrays ≠ []
  zero : ∀ f, L.zero = some f → f.Ok L.arrays L.m
  jac : ∀ f, L.jac = some f → f.Ok L.arrays (L.m * L.n)
  hess : ∀ f, L.hess = some f → f.Ok (L.arrays ++ [L.m]) (L.n * L.n)
  sjac : ∀ f, L.sjac = some f → ∃ t, L.jsp = some t ∧ f.Ok L.arrays t.rows.length
  shess : ∀ f, L.shess = some f → ∃ t, L.hsp = some t ∧ f.Ok (L.arrays ++ [L.m]) t.rows.length
  jsp : ∀ t, L.jsp = some t → t.Ok L.m L.n
  hsp : ∀ t, L.hsp = some t → t.Ok L.n L.n
  hsp2 : ∀ h i, L.hsp2 = some h → (h i).Ok L.n L.n

end Verif.Library.Call
