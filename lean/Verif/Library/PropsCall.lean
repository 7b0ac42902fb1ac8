import Verif.Library.LemmasCallMore

/-
Evaluation of compiled models through their interface (C70). `f.val` are the values which the compiled function computes (the subject of C05, C45
and others); here: the right function is called with the right arrays, its results are put in their places, and the sizes given by the caller are checked.
-/
namespace Verif.Library.Call

variable {R : Type}

/-- a model which was loaded (the sizes of the library are not zero, l.953-958) has arrays of pointers of the right sizes, and so it does after any calls
of the interface, also with errors: everything below holds in all these states, whatever the pointers left by earlier calls -/
theorem after_any_calls [Zero R] [One R] (L : Lib R) (missing outSize : Nat) (H : Heap R) (junk : Nat → R) (ho : 0 < outSize) (os : List (Op R)) (s : St R)
    (h : (St.load L missing outSize H junk).steps L os = some s) : s.Fits L ∧ s.ready = true ∧ s.missing = missing := by
  have hk := keeps_steps h
  exact ⟨hk.fits ⟨by simp [St.load], by simp [St.load], by simpa [St.load] using ho⟩, hk.ready, hk.missing⟩

section
variable (L : Lib R) (hL : L.Ok) (s : St R) (hs : s.Fits L)
include hL hs

/-- `ForwardZero(x, dep)`: the values, if the sizes are right; otherwise the error handler is called and nothing changes -/
theorem values_right (x dep : View) (xs : List R) (hx : Holds s.heap x.data xs) (hxs : xs.length = x.size) (hd : dep.Exists s.heap) :
    Gives s (forwardZero L x dep s) (s.Usable ∧ L.OneArray ∧ L.zero.isSome ∧ x.size = L.n ∧ dep.size = L.m) fun _ H' =>
      (∀ f, L.zero = some f → Holds H' dep.data (f.val [xs])) ∧ OnlyIn dep s.heap H' :=
  forwardZero_gives hL hs hx hxs hd

/-- the same with independents in several arrays -/
theorem values_right_arrays (x : List Ptr) (dep : View) (xs : List (List R)) (hx : Given L s.heap x xs) (hd : dep.Exists s.heap) :
    Gives s (forwardZeroArrays L x dep s) (s.Usable ∧ x.length = L.arrays.length ∧ L.zero.isSome ∧ dep.size = L.m) fun _ H' =>
      (∀ f, L.zero = some f → Holds H' dep.data (f.val xs)) ∧ OnlyIn dep s.heap H' :=
  forwardZeroArrays_gives hL hs hx hd

/-- `ForwardZero(vx, vy, tx, ty)`: the values, and marks of the dependents which depend on variables, according to the sparsity of the Jacobian -/
theorem variables_marked (vx vy : List Bool) (x dep : View) (xs : List R) (hx : Holds s.heap x.data xs) (hxs : xs.length = x.size)
    (hd : dep.Exists s.heap) (hu : s.Usable) (h1 : L.OneArray) (f : Fn R) (hf : L.zero = some f) (hn : x.size = L.n) (hm : dep.size = L.m)
    (t : Table) (ht : L.jsp = some t) (h0 : vx ≠ []) (hvx : L.n ≤ vx.length) (hvy : L.m ≤ vy.length) :
    ∃ s' vy', forwardZeroVars L vx vy x dep s = .ok vy' s' ∧ Holds s'.heap dep.data (f.val [xs]) ∧ OnlyIn dep s.heap s'.heap ∧ Keeps s s' ∧
      vy'.length = vy.length ∧
      ∀ k, k < vy.length → (vy'[k]? = some true ↔ vy[k]? = some true ∨ k < L.m ∧ ∃ e j, t.At e k j ∧ vx[j]? = some true) := by
  obtain ⟨s', k1, k2, k3, -, -, k4⟩ := forwardZeroVars_ok (vx := vx) (vy := vy) hL hs hx hxs hd hu h1 hf hn hm
  obtain ⟨vy', j1, j2, j3⟩ := k4 t h0 hvx hvy ht
  exact ⟨s', vy', j1, k1, k2, k3, j2, j3⟩

/-- without `vx` there are no marks; if the sizes are not enough or there is no sparsity, the error handler is called after the values were computed -/
theorem variables_not_marked (vx vy : List Bool) (x dep : View) (xs : List R) (hx : Holds s.heap x.data xs) (hxs : xs.length = x.size)
    (hd : dep.Exists s.heap) (hu : s.Usable) (h1 : L.OneArray) (f : Fn R) (hf : L.zero = some f) (hn : x.size = L.n) (hm : dep.size = L.m) :
    ∃ s', Holds s'.heap dep.data (f.val [xs]) ∧ OnlyIn dep s.heap s'.heap ∧ Keeps s s' ∧ (vx = [] → forwardZeroVars L vx vy x dep s = .ok vy s') ∧
      (vx ≠ [] → ¬ (L.n ≤ vx.length ∧ L.m ≤ vy.length ∧ L.jsp.isSome) → forwardZeroVars L vx vy x dep s = .error s') := by
  obtain ⟨s', k1, k2, k3, k4, k5, -⟩ := forwardZeroVars_ok (vx := vx) (vy := vy) hL hs hx hxs hd hu h1 hf hn hm
  exact ⟨s', k1, k2, k3, k4, k5⟩

/-- `Jacobian(x, jac)` -/
theorem jacobian_right (x jac : View) (xs : List R) (hx : Holds s.heap x.data xs) (hxs : xs.length = x.size) (hd : jac.Exists s.heap) :
    Gives s (jacobian L x jac s) (s.Usable ∧ L.OneArray ∧ L.jac.isSome ∧ x.size = L.n ∧ jac.size = L.m * L.n) fun _ H' =>
      (∀ f, L.jac = some f → Holds H' jac.data (f.val [xs])) ∧ OnlyIn jac s.heap H' :=
  jacobian_gives hL hs hx hxs hd

/-- `Hessian(x, w, hess)` -/
theorem hessian_right (x w hess : View) (xs ws : List R) (hx : Holds s.heap x.data xs) (hxs : xs.length = x.size) (hw : Holds s.heap w.data ws)
    (hws : ws.length = w.size) (hd : hess.Exists s.heap) :
    Gives s (hessian L x w hess s) (s.Usable ∧ L.OneArray ∧ L.hess.isSome ∧ x.size = L.n ∧ w.size = L.m ∧ hess.size = L.n * L.n) fun _ H' =>
      (∀ f, L.hess = some f → Holds H' hess.data (f.val [xs, ws])) ∧ OnlyIn hess s.heap H' :=
  hessian_gives hL hs hx hxs hw hws hd

/-- `Hessian(x, i)`, if the elements of a new vector are zero (`std::vector`, `std::valarray`). Missing: `CppAD::vector`, where it is wrong, see
`hessian_of_equation_counterexample`. -/
theorem hessian_of_equation_partial [Zero R] [One R] (hj : ∀ k, s.junk k = 0) (x hess : View) (i : Nat) (xs : List R) (hx : Holds s.heap x.data xs)
    (hxs : xs.length = x.size) (hd : hess.Exists s.heap) :
    Gives s (hessianOf L x i hess s) (i < L.m ∧ s.Usable ∧ L.OneArray ∧ L.hess.isSome ∧ x.size = L.n ∧ hess.size = L.n * L.n) fun _ H' =>
      (∀ f, L.hess = some f → Holds H' hess.data (f.val [xs, unit L.m i])) ∧ OnlyIn hess s.heap H' := by
  have h := hessianOf_gives (i := i) hL hs hx hxs hd
  rwa [unit_eq hj] at h

/-- `SparseJacobian(x, jac)`: the elements of the sparse Jacobian at their positions, zeros elsewhere -/
theorem sparse_jacobian_dense [Zero R] (x jac : View) (xs : List R) (hx : Holds s.heap x.data xs) (hxs : xs.length = x.size) (hd : jac.Exists s.heap) :
    Gives s (sparseJacobianDense L x jac s) (s.Usable ∧ L.OneArray ∧ L.sjac.isSome ∧ x.size = L.n ∧ jac.size = L.m * L.n) fun _ H' =>
      (∀ f t, L.sjac = some f → L.jsp = some t → ∃ mat, Holds H' jac.data mat ∧ Dense t (f.val [xs]) L.m L.n mat) ∧ OnlyIn jac s.heap H' :=
  sparseJacobianDense_gives hL hs hx hxs hd

/-- `SparseJacobian(x, jac, row, col)` with arrays of the caller -/
theorem sparse_jacobian_view (x jac : View) (xs : List R) (hx : Holds s.heap x.data xs) (hxs : xs.length = x.size) (hd : jac.Exists s.heap) :
    Gives s (sparseJacobianView L x jac s)
      (s.Usable ∧ L.OneArray ∧ L.sjac.isSome ∧ x.size = L.n ∧ ∀ t, L.jsp = some t → jac.size = t.rows.length) fun rc H' =>
      (∀ f t, L.sjac = some f → L.jsp = some t → rc = (t.rows, t.cols) ∧ Holds H' jac.data (f.val [xs])) ∧ OnlyIn jac s.heap H' :=
  sparseJacobianView_gives hL hs hx hxs hd

/-- the same with independents in several arrays -/
theorem sparse_jacobian_arrays (x : List Ptr) (jac : View) (xs : List (List R)) (hx : Given L s.heap x xs) (hd : jac.Exists s.heap) :
    Gives s (sparseJacobianArrays L x jac s)
      (s.Usable ∧ x.length = L.arrays.length ∧ L.sjac.isSome ∧ ∀ t, L.jsp = some t → jac.size = t.rows.length) fun rc H' =>
      (∀ f t, L.sjac = some f → L.jsp = some t → rc = (t.rows, t.cols) ∧ Holds H' jac.data (f.val xs)) ∧ OnlyIn jac s.heap H' :=
  sparseJacobianArrays_gives hL hs hx hd

/-- the same with vectors which get the right sizes, if `x` has the right size. Missing: a vector `x` of another size is not noticed, see
`sparse_jacobian_vectors_counterexample`. -/
theorem sparse_jacobian_vectors_partial [Zero R] (x jac : Nat) (xs old : List R) (hx : s.heap[x]? = some xs) (hxs : xs.length = L.n)
    (hd : s.heap[jac]? = some old) (hne : x ≠ jac) :
    Gives s (sparseJacobianVec L x jac s) (s.Usable ∧ L.OneArray ∧ L.sjac.isSome) fun rc H' =>
      (∀ f t, L.sjac = some f → L.jsp = some t → rc = (t.rows, t.cols) ∧ H'[jac]? = some (f.val [xs])) ∧ OnlyArray jac s.heap H' :=
  sparseJacobianVec_gives hL hs hx hxs hd hne

/-- `SparseHessian(x, w, hess)` -/
theorem sparse_hessian_dense [Zero R] (x w hess : View) (xs ws : List R) (hx : Holds s.heap x.data xs) (hxs : xs.length = x.size)
    (hw : Holds s.heap w.data ws) (hws : ws.length = w.size) (hd : hess.Exists s.heap) :
    Gives s (sparseHessianDense L x w hess s)
      (s.Usable ∧ L.OneArray ∧ L.shess.isSome ∧ x.size = L.n ∧ w.size = L.m ∧ hess.size = L.n * L.n) fun _ H' =>
      (∀ f t, L.shess = some f → L.hsp = some t → ∃ mat, Holds H' hess.data mat ∧ Dense t (f.val [xs, ws]) L.n L.n mat) ∧ OnlyIn hess s.heap H' :=
  sparseHessianDense_gives hL hs hx hxs hw hws hd

/-- `SparseHessian(x, w, hess, row, col)` with arrays of the caller -/
theorem sparse_hessian_view (x w hess : View) (xs ws : List R) (hx : Holds s.heap x.data xs) (hxs : xs.length = x.size)
    (hw : Holds s.heap w.data ws) (hws : ws.length = w.size) (hd : hess.Exists s.heap) :
    Gives s (sparseHessianView L x w hess s)
      (s.Usable ∧ L.OneArray ∧ L.shess.isSome ∧ x.size = L.n ∧ w.size = L.m ∧ ∀ t, L.hsp = some t → hess.size = t.rows.length) fun rc H' =>
      (∀ f t, L.shess = some f → L.hsp = some t → rc = (t.rows, t.cols) ∧ Holds H' hess.data (f.val [xs, ws])) ∧ OnlyIn hess s.heap H' :=
  sparseHessianView_gives hL hs hx hxs hw hws hd

/-- the same with independents in several arrays: the multipliers come after all of them -/
theorem sparse_hessian_arrays (x : List Ptr) (w hess : View) (xs : List (List R)) (ws : List R) (hx : Given L s.heap x xs)
    (hw : Holds s.heap w.data ws) (hws : ws.length = w.size) (hd : hess.Exists s.heap) :
    Gives s (sparseHessianArrays L x w hess s)
      (s.Usable ∧ x.length = L.arrays.length ∧ L.shess.isSome ∧ w.size = L.m ∧ ∀ t, L.hsp = some t → hess.size = t.rows.length) fun rc H' =>
      (∀ f t, L.shess = some f → L.hsp = some t → rc = (t.rows, t.cols) ∧ Holds H' hess.data (f.val (xs ++ [ws]))) ∧ OnlyIn hess s.heap H' :=
  sparseHessianArrays_gives hL hs hx hw hws hd

/-- the same with vectors which get the right sizes -/
theorem sparse_hessian_vectors [Zero R] (x w hess : Nat) (xs ws old : List R) (hx : s.heap[x]? = some xs) (hw : s.heap[w]? = some ws)
    (hd : s.heap[hess]? = some old) (hne : x ≠ hess) (hne2 : w ≠ hess) :
    Gives s (sparseHessianVec L x w hess s) (s.Usable ∧ L.OneArray ∧ L.shess.isSome ∧ xs.length = L.n ∧ ws.length = L.m) fun rc H' =>
      (∀ f t, L.shess = some f → L.hsp = some t → rc = (t.rows, t.cols) ∧ H'[hess]? = some (f.val [xs, ws])) ∧ OnlyArray hess s.heap H' :=
  sparseHessianVec_gives hL hs hx hw hd hne hne2

end

/-- The three forms of a sparsity pattern: true for exactly the elements of the sparse matrix, row by row; for each row the columns of its elements, in
increasing order; the rows and columns of the elements. -/
theorem sparsity_right (s : St R) (hr : s.ready = true) (t : Table) (nrows ncols : Nat) (ht : t.Ok nrows ncols) :
    (∃ l, sparsityBool (some t) nrows ncols s = .ok l s ∧ l.length = nrows * ncols ∧
      ∀ i j, i < nrows → j < ncols → (l[i * ncols + j]? = some true ↔ ∃ e, t.At e i j)) ∧
    (∃ l, sparsitySet (some t) nrows s = .ok l s ∧ l.length = nrows ∧
      ∀ i c, l[i]? = some c → c.Pairwise (· < ·) ∧ ∀ j, j ∈ c ↔ ∃ e, t.At e i j) ∧
    sparsityLists (some t) s = .ok (t.rows, t.cols) s := by
  refine ⟨sparsityBool_ok ht hr, sparsitySet_ok ht hr, ?_⟩
  simp only [sparsityLists, get_bind, known_bind, defined_bind, hr, if_true]
  rfl

/-- **C70.** A sparsity pattern of a closed library, or one which is not in the library, is reported and nothing
is changed. -/
theorem sparsity_reported (s : St R) (sp : Option Table) (nrows ncols : Nat) (h : s.ready = false ∨ sp = none) :
    sparsityBool sp nrows ncols s = .error s ∧ sparsitySet sp nrows s = .error s ∧ sparsityLists sp s = .error s := by
  rcases hr : s.ready with _ | _
  · simp [sparsityBool, sparsitySet, sparsityLists, get_bind, known_bind, hr]
  · obtain rfl : sp = none := by simpa [hr] using h
    simp [sparsityBool, sparsitySet, sparsityLists, get_bind, known_bind, defined_bind, hr]

/-- a closed library with a pattern -/
example (hp : Heap Int) : sparsityLists (some ⟨[0], [1]⟩) (⟨false, 0, [none], [none, none], [none], hp, fun _ => 0⟩ : St Int)
    = .error ⟨false, 0, [none], [none, none], [none], hp, fun _ => 0⟩ :=
  (sparsity_reported _ (some ⟨[0], [1]⟩) 2 2 (.inl rfl)).2.2

/-! ### a model with two dependents and two independents, `y0 = x0 * x1`, `y1 = 3 * x1` -/

private def at' (l : List Int) (i : Nat) : Int := l.getD i 0

private def zero' : Fn Int := ⟨[2], 2, fun a => [at' (a.getD 0 []) 0 * at' (a.getD 0 []) 1, 3 * at' (a.getD 0 []) 1]⟩
private def jac' : Fn Int := ⟨[2], 4, fun a => [at' (a.getD 0 []) 1, at' (a.getD 0 []) 0, 0, 3]⟩
private def hess' : Fn Int := ⟨[2, 2], 4, fun a => [0, at' (a.getD 1 []) 0, at' (a.getD 1 []) 0, 0]⟩
private def sjac' : Fn Int := ⟨[2], 3, fun a => [at' (a.getD 0 []) 1, at' (a.getD 0 []) 0, 3]⟩
private def shess' : Fn Int := ⟨[2, 2], 2, fun a => [at' (a.getD 1 []) 0, at' (a.getD 1 []) 0]⟩
private def jt : Table := ⟨[0, 0, 1], [0, 1, 1]⟩
private def ht' : Table := ⟨[0, 1], [1, 0]⟩
private def lib : Lib Int := ⟨2, 2, [2], some zero', some jac', some hess', some sjac', some shess', some jt, some ht', none⟩

private theorem at_bound {t : Table} {k : Nat} (hk : t.rows.length ≤ k) (h : ∀ e < k, ∀ e' < k, t.rows[e]? = t.rows[e']? → t.cols[e]? = t.cols[e']? → e = e') :
    ∀ e e' i j, t.At e i j → t.At e' i j → e = e' := fun e e' i j h1 h2 =>
  h e (Nat.lt_of_lt_of_le (at_lt h1) hk) e' (Nat.lt_of_lt_of_le (at_lt h2) hk) (h1.1.trans h2.1.symm) (h1.2.trans h2.2.symm)

private theorem jt_ok : jt.Ok 2 2 := ⟨rfl, by decide, by decide, at_bound (k := 3) (by decide) (by decide)⟩
private theorem ht_ok : ht'.Ok 2 2 := ⟨rfl, by decide, by decide, at_bound (k := 2) (by decide) (by decide)⟩

private theorem lib_ok : lib.Ok where
  sum := rfl
  arrays := by decide
  zero f h := by cases h; exact ⟨rfl, fun _ => rfl⟩
  jac f h := by cases h; exact ⟨rfl, fun _ => rfl⟩
  hess f h := by cases h; exact ⟨rfl, fun _ => rfl⟩
  sjac f h := by cases h; exact ⟨jt, rfl, rfl, fun _ => rfl⟩
  shess f h := by cases h; exact ⟨ht', rfl, rfl, fun _ => rfl⟩
  jsp t h := by cases h; exact jt_ok
  hsp t h := by cases h; exact ht_ok
  hsp2 h i h' := by cases h'

/-- `x = (5, 7)` in array 0, `w = (2, 4)` in array 1, results in arrays 2 (two elements and more) and 3 -/
private def mem : Heap Int := [[5, 7], [2, 4], [9, 9, 9], [8, 8, 8, 8], []]
private def st : St Int := St.load lib 0 1 mem fun _ => 6

example : st.Fits lib := ⟨rfl, rfl, by decide⟩
example : st.Usable ∧ lib.OneArray := ⟨⟨rfl, rfl⟩, rfl⟩
example : Holds st.heap ⟨0, 0⟩ [5, 7] := ⟨[5, 7], rfl, by decide, by decide⟩
example : (⟨⟨2, 1⟩, 2⟩ : View).Exists st.heap := ⟨[9, 9, 9], rfl, by decide⟩
example : Given lib st.heap [⟨0, 0⟩] [[5, 7]] := fun _ => ⟨.cons ⟨[5, 7], rfl, by decide, by decide⟩ .nil, rfl⟩

private def heapAfter {α : Type} (r : Res Int α) : Option (Heap Int) := r.after.map (·.heap)

/-- the values are put in the last two elements of array 2 -/
example : heapAfter (forwardZero lib ⟨⟨0, 0⟩, 2⟩ ⟨⟨2, 1⟩, 2⟩ st) = some [[5, 7], [2, 4], [9, 35, 21], [8, 8, 8, 8], []] := by decide
/-- a wrong size -/
example : forwardZero lib ⟨⟨0, 0⟩, 2⟩ ⟨⟨2, 0⟩, 3⟩ st = .error st := rfl
/-- the sparse Jacobian and the Jacobian are the same matrix -/
example : heapAfter (sparseJacobianDense lib ⟨⟨0, 0⟩, 2⟩ ⟨⟨3, 0⟩, 4⟩ st) = some [[5, 7], [2, 4], [9, 9, 9], [7, 5, 0, 3], []] ∧
    heapAfter (jacobian lib ⟨⟨0, 0⟩, 2⟩ ⟨⟨3, 0⟩, 4⟩ st) = some [[5, 7], [2, 4], [9, 9, 9], [7, 5, 0, 3], []] := by decide
example : heapAfter (sparseJacobianVec lib 0 4 st) = some [[5, 7], [2, 4], [9, 9, 9], [8, 8, 8, 8], [7, 5, 3]] := by decide
example : heapAfter (sparseHessianDense lib ⟨⟨0, 0⟩, 2⟩ ⟨⟨1, 0⟩, 2⟩ ⟨⟨3, 0⟩, 4⟩ st) = some [[5, 7], [2, 4], [9, 9, 9], [0, 2, 2, 0], []] := by decide
example : heapAfter (sparseHessianArrays lib [⟨0, 0⟩] ⟨⟨1, 0⟩, 2⟩ ⟨⟨2, 0⟩, 2⟩ st) = some [[5, 7], [2, 4], [2, 2, 9], [8, 8, 8, 8], []] := by decide
/-- pointers to memory which was freed are left by the first call and not used by the second -/
example : ((st.steps lib [.sjacDense ⟨⟨0, 0⟩, 2⟩ ⟨⟨3, 0⟩, 4⟩, .hess ⟨⟨0, 0⟩, 2⟩ ⟨⟨1, 0⟩, 2⟩ ⟨⟨3, 0⟩, 4⟩]).map (·.heap)) =
    some [[5, 7], [2, 4], [9, 9, 9], [0, 2, 2, 0], []] := by decide
/-- the second dependent does not depend on the first independent -/
example : (match forwardZeroVars lib [true, false] [false, false] ⟨⟨0, 0⟩, 2⟩ ⟨⟨2, 0⟩, 2⟩ st with
    | .ok vy _ => some vy
    | _ => none) = some [true, false] := by decide
example : (match sparsitySet (some jt) 2 st with
    | .ok l _ => some l
    | _ => none) = some [[0, 1], [1]] := by decide

/-! ### defects -/

/-- `Hessian(x, i)` for `CppAD::vector`: the other multipliers are what was found in memory (6 here), the Hessian of equation 1 (which is zero) is
not the result -/
theorem hessian_of_equation_counterexample :
    heapAfter (hessianOf lib ⟨⟨0, 0⟩, 2⟩ 1 ⟨⟨3, 0⟩, 4⟩ st) = some [[5, 7], [2, 4], [9, 9, 9], [0, 6, 6, 0], []] ∧
      hess'.val [[5, 7], unit 2 1] = [0, 0, 0, 0] := by decide

/-- `SparseJacobian(x, jac, row, col)` for vectors: with too few elements in `x` the compiled function reads outside of the vector, other functions call
the error handler -/
theorem sparse_jacobian_vectors_counterexample :
    sparseJacobianVec lib 0 3 { st with heap := [[5], [2, 4], [9, 9, 9], [8, 8, 8, 8], []] } = .ub ∧
      sparseHessianVec lib 0 1 3 { st with heap := [[5], [2, 4], [9, 9, 9], [8, 8, 8, 8], []] } =
        .error { st with heap := [[5], [2, 4], [9, 9, 9], [8, 8, 8, 8], []] } := ⟨rfl, rfl⟩

/-- marks of dependents which are set before are kept, though nothing is a variable -/
theorem marks_kept_counterexample :
    (match forwardZeroVars lib [false, false] [true, false] ⟨⟨0, 0⟩, 2⟩ ⟨⟨2, 0⟩, 2⟩ st with
      | .ok vy _ => some vy
      | _ => none) = some [true, false] := by decide

end Verif.Library.Call
