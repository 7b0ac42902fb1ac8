/-
Model of extra/sparse_forjac_hessian.hpp.

Simplifications: sets are lists of which only the elements matter; `forbidden` is the list of the forbidden colors; positions in the sorted arrays
are given by the entries from there on. `index_sort`, forward mode and reverse mode of CppAD are parameters; the latter two take the direction, the
point and the weights being fixed. Assertions are compiled out. `none` is an access outside of an array.
-/
namespace Verif.Colors

/-- `SparseForjacHessianWorkJac`, l.28-41 -/
structure WorkJac where
  row : List Nat
  col : List Nat
  sort : List Nat
  K : Nat

/-- `SparseForjacHessianWorkHes`, l.108-117 -/
structure WorkHes where
  row : List Nat
  col : List Nat
  sort : List Nat
  K : Nat

/-- `SparseForjacHessianWork`, l.178-183 -/
structure Work where
  jac : WorkJac
  hes : WorkHes
  color : List Nat

/-- a work object of which nothing is known, after `clear`, l.207-211 -/
def Work.empty : Work := ⟨⟨[], [], [], 0⟩, ⟨[], [], [], 0⟩, []⟩

/-- `SparseForjacHessianWorkJac::prepare`, l.43-70 -/
def prepareJac (sort : List Nat → List Nat) (m n : Nat) (row col : List Nat) (w : WorkJac) : WorkJac :=
  if w.row = [] then ⟨row ++ [m], col ++ [n], sort (col ++ [n]), row.length⟩ else { w with K := row.length }

/-- `SparseForjacHessianWorkHes::prepare`, l.119-143 -/
def prepareHes (sort : List Nat → List Nat) (n : Nat) (row col : List Nat) (w : WorkHes) : WorkHes :=
  if w.row = [] then ⟨(sort row).map (row.getD · 0) ++ [n], (sort row).map (col.getD · 0), sort row, row.length⟩ else { w with K := row.length }

/-- the sets used for the coloring, as predicates: elements in the pattern and elements in the request -/
structure Sets where
  /-- columns which are non-zero in a row -/
  pattern : Nat → List Nat
  /-- elements of the request -/
  used : List (Nat × Nat)

/-- columns of a row which are used (`jac_c_used`, `hes_c_used`), l.282-295, 315-327 -/
def Sets.colsUsed (s : Sets) (i : Nat) : List Nat := (s.used.filter fun e => e.1 = i).map (·.2)

/-- rows of a column which are used (`jac_r_used`, `hes_r_used`) -/
def Sets.rowsUsed (s : Sets) (j : Nat) : List Nat := (s.used.filter fun e => e.2 = j).map (·.1)

/-- rows which are non-zero in a column (`p_transpose`), l.268-271 -/
def Sets.transposed (s : Sets) (m j : Nat) : List Nat := (List.range m).filter fun i => j ∈ s.pattern i

/-- columns which are non-zero in a row and not used, l.297-299 with `computeNotUsed`, l.214-234 -/
def Sets.colsNotUsed (s : Sets) (i : Nat) : List Nat := (s.pattern i).filter fun j => j ∉ s.colsUsed i

/-- rows which are non-zero in a column and not used, l.329-331 with `computeNotUsed` -/
def Sets.rowsNotUsed (s : Sets) (m j : Nat) : List Nat := (s.transposed m j).filter fun i => i ∉ s.rowsUsed j

/-- columns `j11` (rows of the Hessian) whose colors are forbidden for `j1`, l.348-423, without the test `j11 < j1` -/
def conflicts (jac hes : Sets) (m n j1 : Nat) : List Nat :=
  (jac.transposed m j1).flatMap jac.colsUsed ++
  (jac.rowsUsed j1).flatMap jac.colsNotUsed ++
  (hes.pattern j1).flatMap hes.rowsUsed ++
  (hes.colsUsed j1).flatMap (hes.rowsNotUsed n)

/-- the color of one column, l.342-432; the colors forbidden are those of columns before it -/
def colorStep (jac hes : Sets) (m n : Nat) (color : List Nat) (j1 : Nat) : Option (List Nat) :=
  let forbidden := ((conflicts jac hes m n j1).filter (· < j1)).map (color.getD · 0)
  match (List.range (j1 + 1)).find? (fun c => decide (c ∉ forbidden)) with
  | some c => some (color.set j1 c)
  | none => none

/-- the coloring, l.333-433 -/
def coloring (jac hes : Sets) (m n : Nat) : Option (List Nat) :=
  (List.range' 1 (n - 1)).foldlM (colorStep jac hes m n) (List.range n)

/-- `colorForwardJacobianHessian`, l.236-434, without the number of colors; the request is read from the work object -/
def colors (m n : Nat) (jacP hesP : List (List Nat)) (w : Work) : Option Work :=
  if w.color = [] then
    let jac : Sets := ⟨fun i => jacP.getD i [], (w.jac.sort.take w.jac.K).map fun s => (w.jac.row.getD s 0, w.jac.col.getD s 0)⟩
    let hes : Sets := ⟨fun i => hesP.getD i [], (List.range w.hes.K).map fun k => (w.hes.row.getD k 0, w.hes.col.getD k 0)⟩
    (coloring jac hes m n).map fun c => { w with color := c }
  else some w

/-- the number of colors, l.437-441 -/
def numColors (color : List Nat) : Nat := color.foldl (fun a c => max a (c + 1)) 1

/-- an entry of the sorted arrays: the column of the Jacobian or row of the Hessian, and what is stored where, if this can be read -/
structure Entry where
  key : Nat
  data : Option (Nat × Nat)

/-- the entries of the Jacobian: `user_col[sort_col[k]]`, `user_row[sort_col[k]]` and `sort_col[k]` -/
def jacEntries (w : WorkJac) : List Entry :=
  w.sort.map fun s => ⟨w.col.getD s 0, some (w.row.getD s 0, s)⟩

/-- the entries of the Hessian: `r_sort[k]`, `c_sort[k]`, `k_sort[k]`; the last one only has the first of these -/
def hesEntries (w : WorkHes) : List Entry :=
  w.row.zipIdx.map fun e => ⟨e.1, match w.col[e.2]?, w.sort[e.2]? with
    | some j, some k => some (j, k)
    | _, _ => none⟩

/-- `while (key[k] < j1) k++`, l.604-605, 617-618, 641-642, 666-667 -/
def skip (j : Nat) : List Entry → Option (List Entry)
  | [] => none
  | e :: l => if e.key < j then skip j l else some (e :: l)

/-- whether or not there is an element with the color, and the first one, l.599-610 and 612-623 -/
def firstUse (color : List Nat) (c : Nat) : List Nat → List Entry → Option (Bool × List Entry)
  | [], l => some (false, l)
  | j :: js, l =>
    match color[j]? with
    | none => none
    | some cj =>
      if cj = c then
        match skip j l with
        | some (e :: l') => if e.key = j then some (true, e :: l') else firstUse color c js (e :: l')
        | _ => none
      else firstUse color c js l

/-- `while (key[k] == j1) { out[…] = v[…]; k++; }`, l.644-647, 669-673 -/
def store {R : Type} (v : Nat → Option R) (j : Nat) : List Entry → List R → Option (List Entry × List R)
  | [], _ => none
  | e :: l, out =>
    if e.key = j then
      match e.data with
      | none => none
      | some (o, k) =>
        match v o with
        | none => none
        | some x => if k < out.length then store v j l (out.set k x) else none
    else some (e :: l, out)

/-- the loop over the columns with the color, l.638-649, 662-675 -/
def extract {R : Type} (color : List Nat) (c : Nat) (v : Nat → Option R) : List Nat → List Entry → List R → Option (List R)
  | [], _, out => some out
  | j :: js, l, out =>
    match color[j]? with
    | none => none
    | some cj =>
      if cj = c then
        match skip j l with
        | none => none
        | some l =>
          match store v j l out with
          | none => none
          | some (l, out) => extract color c v js l out
      else extract color c v js l out

/-- all Hessians, l.655-676 -/
def extractHes {R : Type} (color : List Nat) (c n : Nat) (l : List Entry) (u : List R) : List (List R → List R) → List (List R) → Option (List (List R))
  | rev :: revs, h :: hs =>
    match extract color c (fun j => (rev u)[j * 2 + 1]?) (List.range n) l h with
    | none => none
    | some h => (extractHes color c n l u revs hs).map (h :: ·)
  | [], [] => some []
  | _, _ => none

/-- one color, l.597-679: Jacobian, Hessians and number of sweeps -/
def sweep {R : Type} [Zero R] [One R] (fwd : List R → List R) (revs : List (List R → List R)) (n : Nat) (w : Work) (c : Nat)
    (s : List R × List (List R) × Nat) : Option (List R × List (List R) × Nat) :=
  match firstUse w.color c (List.range n) (jacEntries w.jac), firstUse w.color c (List.range n) (hesEntries w.hes) with
  | some (anyJac, lj), some (anyHes, lh) =>
    if anyJac || anyHes then
      let u : List R := (List.range n).map fun j => if w.color.getD j 0 = c then 1 else 0
      match (if anyJac then extract w.color c (fun i => (fwd u)[i]?) (List.range n) lj s.1 else some s.1) with
      | none => none
      | some jac =>
        match (if anyHes then extractHes w.color c n lh u revs s.2.1 else some s.2.1) with
        | none => none
        | some hes => some (jac, hes, s.2.2 + 1 + if anyHes then 1 else 0)
    else some s
  | _, _ => none

/-- `sparseForJacHessian`, l.521-681: the vectors of the results have been resized by the caller -/
def sparseForJacHessian {R : Type} [Zero R] [One R] (sort : List Nat → List Nat) (m n : Nat) (fwd : List R → List R) (revs : List (List R → List R))
    (jacP : List (List Nat)) (jacRow jacCol : List Nat) (jac : List R) (hesP : List (List Nat)) (hesRow hesCol : List Nat) (hes : List (List R))
    (w : Work) : Option (Work × List R × List (List R) × Nat) :=
  let w := { w with jac := prepareJac sort m n jacRow jacCol w.jac, hes := prepareHes sort n hesRow hesCol w.hes }
  match colors m n jacP hesP w with
  | none => none
  | some w =>
    if jac.length < jacRow.length ∨ hes.any (fun h => h.length < hesRow.length) then none
    else
      let jac := List.replicate jacRow.length 0 ++ jac.drop jacRow.length
      let hes := hes.map fun h => List.replicate hesRow.length 0 ++ h.drop hesRow.length
      match (List.range (numColors w.color)).foldlM (fun s c => sweep fwd revs n w c s) (jac, hes, 0) with
      | none => none
      | some (jac, hes, k) => some (w, jac, hes, k)

end Verif.Colors
