import Verif.Deriv.Model
/-
Model of the generated functions which return sparsity patterns (model_c_source_gen_impl.hpp), of the generated products
with directions (model_c_source_gen_for1.hpp, _rev1.hpp, _rev2.hpp) and of the methods which call the functions of one
row or column (functor_generic_model.hpp). Memory is always available. Pointers into an array are the rest of the array.
-/
namespace Verif.Deriv

/-! ### sparsity tables -/

/-- The function generated by `generateSparsity1DSource2`: the arrays `els<k>`, the array `els` of pointers to them
(`none` for `0`) and the array `nnzs`. With no entries it returns `0`. -/
structure Table where
  arrays : List (Nat × List Nat)
  els : List (Option Nat)
  nnzs : List Nat
deriving DecidableEq, Repr

/-- `maxNnzIndex` after the loop and the increment, impl.hpp l.507-523: one after the last key with elements -/
def maxNnzIndex : List (Nat × List Nat) → Nat → Nat
  | [], n => n
  | (k, v) :: m, n => maxNnzIndex m (if v.isEmpty then n else k + 1)

/-- `nnzs[it.first] = els.size()`, impl.hpp l.505-521 -/
def nnzsLoop : List (Nat × List Nat) → List Nat → List Nat
  | [], a => a
  | (k, v) :: m, a => nnzsLoop m (if v.isEmpty then a else a.set k v.length)

/-- the loop over `it` at impl.hpp l.528-539, with `r` rounds left -/
def elsLoop : Nat → Nat → List (Nat × List Nat) → List (Option Nat)
  | 0, _, _ => []
  | r + 1, i, [] => none :: elsLoop r (i + 1) []
  | r + 1, i, (k, v) :: m =>
    if i ≠ k then none :: elsLoop r (i + 1) ((k, v) :: m) else some i :: elsLoop r (i + 1) m

/-- `vector::resize` -/
def resize (a : List Nat) (n : Nat) : List Nat := a.take n ++ List.replicate (n - a.length) 0

/-- `generateSparsity1DSource2`, impl.hpp l.498-560 -/
def gen1D (elements : List (Nat × List Nat)) : Table :=
  let n := maxNnzIndex elements 0
  ⟨elements.filter fun g => !g.2.isEmpty, elsLoop n 0 elements,
    resize (nnzsLoop elements (List.replicate (match elements.getLast? with | none => 0 | some g => g.1 + 1) 0)) n⟩

/-- every name in the array of pointers is declared -/
def Table.compiles (t : Table) : Bool :=
  t.els.all fun o => match o with | none => true | some k => t.arrays.any (·.1 == k)

/-- the generated function: the array `*elements` (`none`: null) and `*nnz` -/
def Table.lookup (t : Table) (pos : Nat) : Option (List Nat) × Nat :=
  if pos < t.els.length then
    (match t.els.getD pos none with
     | none => none
     | some k => (t.arrays.find? (·.1 == k)).map (·.2),
     t.nnzs.getD pos 0)
  else (none, 0)

/-- The function generated by `generateSparsity2DSource2`: for each equation the arrays `rows<i>`, `cols<i>` if they were
printed, the arrays of pointers and `nnzs`. -/
structure Table2 where
  rowArrays : List (Option (List Nat))
  colArrays : List (Option (List Nat))
  rows : List (Option Nat)
  cols : List (Option Nat)
  nnzs : List Nat
deriving DecidableEq, Repr

/-- `maxNnzIndex` of impl.hpp l.427-451 from equation `i` on -/
def maxNnzIndex2 : List (List Nat × List Nat) → Nat → Nat → Nat
  | [], _, n => n
  | (r, _) :: s, i, n => maxNnzIndex2 s (i + 1) (if r.isEmpty then n else i + 1)

/-- `makeArrayOfArrays`, impl.hpp l.454-468 -/
def pointers : List (List Nat × List Nat) → Nat → List (Option Nat)
  | [], _ => []
  | (r, _) :: s, i => (if r.isEmpty then none else some i) :: pointers s (i + 1)

/-- `generateSparsity2DSource2`, impl.hpp l.415-495; one pair (rows, cols) for each equation -/
def gen2D (sp : List (List Nat × List Nat)) : Table2 :=
  let n := maxNnzIndex2 sp 0 0
  ⟨sp.map fun s => if s.1.isEmpty then none else some s.1, sp.map fun s => if s.1.isEmpty then none else some s.2,
    (pointers sp 0).take n, (pointers sp 0).take n, resize (sp.map (·.1.length)) n⟩

def Table2.compiles (t : Table2) : Bool :=
  (t.rows.all fun o => match o with | none => true | some k => (t.rowArrays.getD k none).isSome) &&
  (t.cols.all fun o => match o with | none => true | some k => (t.colArrays.getD k none).isSome)

/-- the generated function: `*row`, `*col` and `*nnz` -/
def Table2.lookup (t : Table2) (i : Nat) : Option (List Nat) × Option (List Nat) × Nat :=
  if i < t.rows.length then
    ((match t.rows.getD i none with | none => none | some k => t.rowArrays.getD k none),
     (match t.cols.getD i none with | none => none | some k => t.colArrays.getD k none), t.nnzs.getD i 0)
  else (none, none, 0)

/-! ### products with directions -/

/-- the first loop of `forward_one`, for1.hpp l.258-275 (`reverse_one`: rev1.hpp l.264-281, `reverse_two`: rev2.hpp
l.306-323): which keys are used, and `nnzMax` -/
def scanStep (nz : Nat → Bool) (nnz : Nat → Nat) (acc : List Nat × Nat) (j : Nat) : List Nat × Nat :=
  if nz j then
    if nnz j > acc.2 then (acc.1 ++ [j], nnz j)
    else if nnz j = 0 then acc
    else (acc.1 ++ [j], acc.2)
  else acc

def scan (nz : Nat → Bool) (nnz : Nat → Nat) (n : Nat) : List Nat × Nat := (List.range n).foldl (scanStep nz nnz) ([], 0)

/-- `out[pos[e] * stride + off] += compressed[e]`, for1.hpp l.310-312, rev1.hpp l.313-315, rev2.hpp l.356-358 -/
def addAll {V : Type} [Add V] (stride off : Nat) (comp : Mem V) : List Nat → Nat → Mem V → Except Err (Mem V)
  | [], _, out => .ok out
  | p :: pos, e, out =>
    match load out (p * stride + off), load comp e with
    | .ok a, .ok b =>
      match store out (p * stride + off) (a + b) with
      | .ok out => addAll stride off comp pos (e + 1) out
      | .error x => .error x
    | _, _ => .error .ub

/-- `pos[0]`, ..., `pos[nnz - 1]` -/
def readPos (r : Option (List Nat) × Nat) : Except Err (List Nat) :=
  if r.2 = 0 then .ok []
  else match r.1 with
    | none => .error .ub
    | some a => if r.2 ≤ a.length then .ok (a.take r.2) else .error .ub

/-- The second loop of `forward_one`, for1.hpp l.290-317 (rev1.hpp l.293-320, rev2.hpp l.335-363): `ts` are the keys and
the arguments of each call. The function `sparse_forward_one` is a switch over the keys with elements, impl.hpp
l.335-347. The result is the value returned and the array. -/
def accum {V : Type} [Add V] (fn : Fun V) (elements : List (Nat × List Nat)) (stride off : Nat) :
    List (Nat × Args V) → Mem V → Mem V → Except Err (Nat × Mem V)
  | [], _, out => .ok (0, out)
  | (j, a) :: ts, comp, out =>
    if elements.any (·.1 == j) then
      match fn j a with
      | none => .error .ub
      | some vs =>
        match storeAll comp 0 vs with
        | .error e => .error e
        | .ok comp =>
          match readPos ((gen1D elements).lookup j) with
          | .error e => .error e
          | .ok pos =>
            match addAll stride off comp pos 0 out with
            | .error e => .error e
            | .ok out => accum fn elements stride off ts comp out
    else .ok (1, out)     -- `default: return 1;`

/-- `for (i = 0; i < m; i++) out[i * stride + off] = 0;` -/
def zeros {V : Type} [Zero V] (stride off m : Nat) (out : Mem V) : Except Err (Mem V) :=
  storeList out ((List.range m).map fun i => (i * stride + off, 0))

/-- `x[j] = tx[j * 2]` -/
def evens {V : Type} [Zero V] (n : Nat) (tx : List V) : List V := (List.range n).map fun j => tx.getD (j * 2) 0

/-- `forward_one`, for1.hpp l.243-318; `tx` must have `2 n` elements. -/
def forwardOne {V : Type} [Zero V] [Add V] [DecidableEq V] (fn : Fun V) (elements : List (Nat × List Nat)) (n m : Nat)
    (tx : List V) (ty : Mem V) : Except Err (Nat × Mem V) :=
  if tx.length < 2 * n then .error .ub
  else
    let s := scan (fun j => tx.getD (j * 2 + 1) 0 != 0) (fun j => ((gen1D elements).lookup j).2) n
    match zeros 2 1 m ty with
    | .error e => .error e
    | .ok ty =>
      if s.1.isEmpty then .ok (0, ty)
      else accum fn elements 2 1 (s.1.map fun j => (j, [evens n tx, tx.drop (j * 2 + 1)])) (List.replicate s.2 none) ty

/-- `reverse_one`, rev1.hpp l.250-321; `py` must have `m` elements. -/
def reverseOne {V : Type} [Zero V] [Add V] [DecidableEq V] (fn : Fun V) (elements : List (Nat × List Nat)) (n m : Nat)
    (x : List V) (px : Mem V) (py : List V) : Except Err (Nat × Mem V) :=
  if py.length < m then .error .ub
  else
    let s := scan (fun i => py.getD i 0 != 0) (fun i => ((gen1D elements).lookup i).2) m
    match zeros 1 0 n px with
    | .error e => .error e
    | .ok px =>
      if s.1.isEmpty then .ok (0, px)
      else accum fn elements 1 0 (s.1.map fun i => (i, [x, py.drop i])) (List.replicate s.2 none) px

/-- `reverse_two`, rev2.hpp l.273-364; `tx` must have `2 n` elements and `py` `2 m` (also when the function returns 1
before it reads all of them). -/
def reverseTwo {V : Type} [Zero V] [Add V] [DecidableEq V] (fn : Fun V) (elements : List (Nat × List Nat)) (n m : Nat)
    (tx : List V) (px : Mem V) (py : List V) : Except Err (Nat × Mem V) :=
  if tx.length < 2 * n ∨ py.length < 2 * m then .error .ub
  else if (List.range m).any fun i => py.getD (i * 2) 0 != 0 then .ok (1, px)
  else
    let w := (List.range m).map fun i => py.getD (i * 2 + 1) 0
    match zeros 2 0 n px with
    | .error e => .error e
    | .ok px =>
      if w.all (· == 0) then .ok (0, px)
      else
        let s := scan (fun j => tx.getD (j * 2 + 1) 0 != 0) (fun j => ((gen1D elements).lookup j).2) n
        if s.1.isEmpty then .ok (0, px)
        else accum fn elements 2 0 (s.1.map fun j => (j, [evens n tx, tx.drop (j * 2 + 1), w])) (List.replicate s.2 none) px

/-- `CPPADCG_ASSERT_KNOWN(ret == 0, ...)`, the error handler of CppAD is taken to raise an exception -/
def known {V : Type} (r : Except Err (Nat × Mem V)) : Except Err (Mem V) :=
  match r with
  | .error e => .error e
  | .ok (0, a) => .ok a
  | .ok _ => .error .exception

/-- the arguments of each call of the loops below: `x`, `&tx1[e]` and what follows -/
def calls {V : Type} (x : List V) (tx1 : List V) (w : Args V) : List Nat → Nat → List (Nat × Args V)
  | [], _ => []
  | j :: idx, e => (j, x :: tx1.drop e :: w) :: calls x tx1 w idx (e + 1)

/-- `ForwardOne`, `ReverseOne` and `ReverseTwo` of `FunctorGenericModel` with the indexes `idx` of the elements `tx1`
which are not zero, functor_generic_model.hpp l.466-502, l.532-568, l.600-640. `size` is the size of the result, `k` the
size of the local array (`_ty`, `_px`) and `w` the weights, if any. The loop is the one of the generated functions. -/
def sparseProduct {V : Type} [Zero V] [Add V] (fn : Fun V) (elements : List (Nat × List Nat)) (size k : Nat) (x : List V)
    (idx : List Nat) (tx1 : List V) (w : Args V) (out : Mem V) : Except Err (Mem V) :=
  match zeros 1 0 size out with
  | .error e => .error e
  | .ok out => known (accum fn elements 1 0 (calls x tx1 w idx 0) (List.replicate k none) out)

end Verif.Deriv
