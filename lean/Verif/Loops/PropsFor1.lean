import Verif.Loops.LemmasFor1Col
import Verif.Loops.PropsJac

/-
C79: products of the Jacobian of a model with loops with directions, one column at a time (forward mode of order one). The functions are those
of model_c_source_gen_loops_for1.hpp, their callers are in model_c_source_gen_for1.hpp and functor_generic_model.hpp.
-/
namespace Verif.Loops.For1

open Verif.Index Verif.Ranges

variable {α : Type} [CommRing α]

/-- `sparse_forward_one` with an array of zeros: element `e` of the column is the derivative of its equation, by the chain rule over the tape of the
loop, times the factor; the rest of the array is left alone. Missing: requests for which the source generation fails (`generation_counterexample`) and
arrays which are not zero (`stale_counterexample`). -/
theorem column_right_partial {M : Model} (hM : M.Ok) {D : Nat → Nat → Nat → Nat → α} {G : Nat → Nat → α} (hc : M.Covers D G) {n : Nat}
    {elements : List (Nat × List Nat)} (hE : M.Columns n elements) (hdir : M.DirectToo elements) {j : Nat} {rows : List Nat} (hm : (j, rows) ∈ elements)
    (dx : α) (out : Nat → α) (h0 : ∀ e < rows.length, out e = 0) : ∃ o, sparseForwardOne M D G n elements j dx out = .ok (0, o) ∧
      (∀ (e i : Nat) (v : α), rows[e]? = some i → M.Deriv D G i j v → o e = v * dx) ∧ ∀ e, rows.length ≤ e → o e = out e := by
  obtain ⟨a, ha, h⟩ := analysis hM hE
  obtain ⟨o, c1, c2, c3⟩ := column_core hM hc hE hdir ha h hm dx out
  refine ⟨o, c1, fun e i v hi hv => ?_, c3⟩
  rw [c2 e i v hi hv, h0 e (List.getElem?_eq_some_iff.mp hi).1, ite_self, zero_add]

/-- If one of the equations requested for the column is outside of the loops, the content of the array does not matter. -/
theorem column_with_free_partial {M : Model} (hM : M.Ok) {D : Nat → Nat → Nat → Nat → α} {G : Nat → Nat → α} (hc : M.Covers D G) {n : Nat}
    {elements : List (Nat × List Nat)} (hE : M.Columns n elements) (hdir : M.DirectToo elements) {j : Nat} {rows : List Nat} (hm : (j, rows) ∈ elements)
    {fr : Free} (hf : M.free = some fr) (hfree : ∃ i ∈ rows, i ∈ fr.eqs)
    (dx : α) (out : Nat → α) : ∃ o, sparseForwardOne M D G n elements j dx out = .ok (0, o) ∧
      ∀ (e i : Nat) (v : α), rows[e]? = some i → M.Deriv D G i j v → o e = v * dx := by
  obtain ⟨a, ha, h⟩ := analysis hM hE
  obtain ⟨o, c1, c2, _⟩ := column_core hM hc hE hdir ha h hm dx out
  refine ⟨o, c1, fun e i v hi hv => ?_⟩
  obtain ⟨i', hi1, hi2⟩ := hfree
  obtain ⟨e', he'⟩ := List.getElem?_of_mem hi1
  obtain ⟨r, hr⟩ := List.getElem?_of_mem hi2
  have hmem := mem_reqAll.mpr ⟨rows, hm, he'⟩
  rw [c2 e i v hi hv, if_neg (freeCol_val hM h G dx hf hr (fun _ h' => req_unique hE.cols hmem h') hmem).1, zero_add]

/-- Other columns: the value 1 is returned and the array left alone. -/
theorem column_absent {M : Model} (hM : M.Ok) (D : Nat → Nat → Nat → Nat → α) (G : Nat → Nat → α) {n : Nat} {elements : List (Nat × List Nat)}
    (hE : M.Columns n elements) {j : Nat} (hj : ∀ c ∈ elements, c.1 ≠ j) (dx : α) (out : Nat → α) :
    sparseForwardOne M D G n elements j dx out = .ok (1, out) := by
  obtain ⟨a, ha, _⟩ := analysis hM hE
  rw [sparseForwardOne, ha]
  simp only
  rw [List.find?_eq_none.mpr fun c hc => by simpa using hj c hc]

/-- `forward_one`: the first order of the result is the product of the requested elements with the direction, whatever the array from `malloc` contains. -/
theorem forward_right_partial [DecidableEq α] {M : Model} (hM : M.Ok) {D : Nat → Nat → Nat → Nat → α} {G : Nat → Nat → α} (hc : M.Covers D G) {n : Nat}
    {elements : List (Nat × List Nat)} (hE : M.Columns n elements) (hdir : M.DirectToo elements) (tx1 mem : Nat → α) :
    ∃ ty, forwardOne M D G n elements tx1 mem = .ok (0, ty) ∧
      ∀ i w, M.Product D G elements i ((List.range n).map fun j => (j, tx1 j)) w → ty i = w := by
  obtain ⟨a, ha, h⟩ := analysis hM hE
  obtain ⟨t, t1, t2⟩ := drive_ok hM hc hE hdir ha h true (usedCols elements n tx1) (by
    rintro ⟨j, d⟩ hd
    unfold usedCols at hd
    rw [List.mem_filterMap] at hd
    obtain ⟨j', _, hd⟩ := hd
    split at hd
    · simp at hd
    · rename_i hne
      simp only [Option.some.injEq, Prod.mk.injEq] at hd
      obtain ⟨rfl, rfl⟩ := hd
      cases hfd : elements.find? fun c => c.1 == j' with
      | none => rw [hfd] at hne; exact absurd (Or.inr rfl) hne
      | some c =>
        refine ⟨c.2, ?_, Or.inl rfl⟩
        have h1 := List.mem_of_find?_eq_some hfd
        have h2 : c.1 = j' := by simpa using List.find?_some hfd
        rw [← h2]
        exact h1) mem fun _ => 0
  refine ⟨t, t1, fun i w hw => ?_⟩
  rw [t2 i w, zero_add]
  refine product_used tx1 (fun j => tx1 j = 0 ∨ ((elements.find? fun c => c.1 == j).map (·.2)).getD [] = []) (fun j hj => ?_) _ w hw
  refine hj.imp_right fun hj => ?_
  rintro ⟨rows, hm, hi⟩
  rw [find_col hE.cols hm] at hj
  simp only [Option.map_some, Option.getD_some] at hj
  rw [hj] at hi
  simp at hi

/-- `ForwardOne` with the elements of the direction: right if each of its columns has an element of an equation outside of the loops. Missing: all other
directions with more than one column, and later calls (`stale_counterexample`). -/
theorem sparse_right_partial {M : Model} (hM : M.Ok) {D : Nat → Nat → Nat → Nat → α} {G : Nat → Nat → α} (hc : M.Covers D G) {n : Nat}
    {elements : List (Nat × List Nat)} (hE : M.Columns n elements) (hdir : M.DirectToo elements) {fr : Free} (hf : M.free = some fr)
    (dirs : List (Nat × α)) (hd : ∀ d ∈ dirs, ∃ rows, (d.1, rows) ∈ elements ∧ ∃ i ∈ rows, i ∈ fr.eqs) (old : Nat → α) :
    ∃ ty, sparseProduct M D G n elements dirs old = .ok (0, ty) ∧ ∀ i w, M.Product D G elements i dirs w → ty i = w := by
  obtain ⟨a, ha, h⟩ := analysis hM hE
  obtain ⟨t, t1, t2⟩ := drive_ok hM hc hE hdir ha h false dirs (by
    intro d hd'
    obtain ⟨rows, hm, i, hi1, hi2⟩ := hd d hd'
    obtain ⟨e, he⟩ := List.getElem?_of_mem hi1
    obtain ⟨r, hr⟩ := List.getElem?_of_mem hi2
    have hmem := mem_reqAll.mpr ⟨rows, hm, he⟩
    exact ⟨rows, hm, Or.inr (freeCol_val hM h G d.2 hf hr (fun _ h' => req_unique hE.cols hmem h') hmem).1⟩) old fun _ => 0
  exact ⟨t, t1, fun i w hw => by rw [t2 i w hw, zero_add]⟩

/-! ### examples -/

/-- the first column has elements of loops only, the last one an element of the equation outside of the loop -/
def exElements : List (Nat × List Nat) := [(0, [4, 0]), (2, [2, 0]), (5, [3, 0, 4]), (4, [5, 2])]

theorem exElements_columns : exModel.Columns 6 exElements where
  cols := by decide
  rows := by decide
  lt := by decide
  computes := by
    have h1 : ∀ i < 6, (∃ t < 2, ∃ it < 3, exLoop.eq t it = some i) ∨ i ∈ [5] := by decide
    have h2 : ∀ c ∈ exElements, ∀ i ∈ c.2, i < 6 := by decide
    intro c hc i hi
    rcases h1 i (h2 c hc i hi) with ⟨t, _, it, _, h⟩ | h
    · exact Or.inl ⟨0, t, it, exLoop, exRows, rfl, h⟩
    · exact Or.inr ⟨_, rfl, h⟩

theorem exElements_direct : exModel.DirectToo exElements := by
  intro q l jac hl c hc hn _
  obtain ⟨rfl, rfl, rfl⟩ := exModel_one hl
  have h5 : c.1 = 5 := by simpa [exLoop] using hn
  have : ∀ c ∈ exElements, c.1 = 5 → c = (5, [3, 0, 4]) := by decide
  rw [this c hc h5]
  exact ⟨0, by decide, 0, 0, 0, exLoop, exRows, [0, 1, 2, 3], rfl, by decide, rfl, rfl, by decide⟩

def zeros (_ : Nat) : Int := 0

example : ∃ o, sparseForwardOne exModel exD exG 6 exElements 5 3 zeros = .ok (0, o) ∧ o 0 = 3 * 1572 ∧ o 1 = 3 * 393 ∧ o 3 = 0 := by
  obtain ⟨o, h1, h2, h3⟩ := column_right_partial exModel_ok exModel_covers exElements_columns exElements_direct (j := 5) (rows := [3, 0, 4]) (by decide) 3 zeros
    fun _ _ => rfl
  refine ⟨o, h1, ?_, ?_, h3 3 (by decide)⟩
  · rw [h2 0 3 _ rfl (Model.Deriv.loop (q := 0) (tapeI := 1) (it := 0) (l := exLoop) (jac := exRows) rfl (by decide))]; decide +kernel
  · rw [h2 1 0 _ rfl (Model.Deriv.loop (q := 0) (tapeI := 0) (it := 0) (l := exLoop) (jac := exRows) rfl (by decide))]; decide +kernel

/-- derivatives of the first equation -/
theorem ex_deriv (j : Nat) : exModel.Deriv exD exG 0 j (exLoop.chain (fun t => exD 0 0 t 0) (fun k j => exG (1 + k) j) 0 j) :=
  Model.Deriv.loop (q := 0) (tapeI := 0) (it := 0) (l := exLoop) (jac := exRows) rfl (by decide)

example (mem : Nat → Int) : ∃ ty, forwardOne exModel exD exG 6 exElements (fun j => if j = 2 then 2 else if j = 0 then 1 else 0) mem = .ok (0, ty) ∧
    ty 0 = 581 := by
  obtain ⟨ty, h1, h2⟩ := forward_right_partial exModel_ok exModel_covers exElements_columns exElements_direct
    (fun j => if j = 2 then (2 : Int) else if j = 0 then 1 else 0) mem
  refine ⟨ty, h1, ?_⟩
  rw [h2 0 _ (.take ⟨[4, 0], by decide, by decide⟩ (ex_deriv 0) (.skip (by simp [exElements]) (.take ⟨[2, 0], by decide, by decide⟩ (ex_deriv 2)
    (.skip (by simp [exElements]) (.skip (by simp [exElements]) (.take ⟨[3, 0, 4], by decide, by decide⟩ (ex_deriv 5) .nil))))))]
  decide +kernel

example (old : Nat → Int) : ∃ ty, sparseProduct exModel exD exG 6 exElements [(4, 5)] old = .ok (0, ty) ∧ ty 5 = 20 := by
  obtain ⟨ty, h1, h2⟩ := sparse_right_partial exModel_ok exModel_covers exElements_columns exElements_direct (fr := ⟨[5], [[4], [2, 5]]⟩) rfl [(4, 5)]
    (by
      intro d hd
      obtain rfl : d = (4, 5) := by simpa using hd
      exact ⟨[5, 2], by decide, 5, by decide, by decide⟩) old
  refine ⟨ty, h1, ?_⟩
  rw [h2 5 _ (.take ⟨[5, 2], by decide, by decide⟩ (Model.Deriv.free (r := 0) rfl rfl) .nil)]
  decide +kernel

example : exModel.Columns 6 exElements ∧ ∀ c ∈ exElements, c.1 ≠ 1 := ⟨exElements_columns, by decide⟩

/-- The first call of `ForwardOne` with two columns of loops, on an array of zeros: the elements of the first column are still in the array when those of the
second column are added, and are counted twice. -/
theorem stale_counterexample : ∃ (ty : Nat → Int) (w : Int), sparseProduct exModel exD exG 6 exElements [(0, 1), (2, 1)] zeros = .ok (0, ty) ∧
    exModel.Product exD exG exElements 0 [(0, 1), (2, 1)] w ∧ w = 291 ∧ ty 0 = 292 := by
  obtain ⟨a, ha, h⟩ := analysis exModel_ok exElements_columns
  have hfr : (match analyseAll exModel (reqAll exElements) {} with | .ok a => freeRows exModel a 0 ++ freeRows exModel a 2 | .error _ => [7]) = [] := by
    decide +kernel
  rw [ha] at hfr
  simp only [List.append_eq_nil_iff] at hfr
  obtain ⟨o, c1, c2, _⟩ := column_core exModel_ok exModel_covers exElements_columns exElements_direct ha h (j := 0) (rows := [4, 0]) (by decide) 1 zeros
  obtain ⟨o', d1, d2, _⟩ := column_core exModel_ok exModel_covers exElements_columns exElements_direct ha h (j := 2) (rows := [2, 0]) (by decide) 1 o
  refine ⟨spread o' [2, 0].zipIdx (spread o [4, 0].zipIdx fun _ => 0), _, ?_, .take ⟨[4, 0], by decide, by decide⟩ (ex_deriv 0)
    (.take ⟨[2, 0], by decide, by decide⟩ (ex_deriv 2) .nil), by decide +kernel, ?_⟩
  · rw [sparseProduct, drive]
    simp only [Bool.false_eq_true, if_false]
    rw [c1]
    simp only
    rw [drive]
    simp only [Bool.false_eq_true, if_false]
    rw [d1]
    rfl
  · rw [(spread_rows (by decide) o' _).1 0 1 rfl, (spread_rows (by decide) o _).1 0 1 rfl, d2 1 0 _ rfl (ex_deriv 2), c2 1 0 _ rfl (ex_deriv 0),
      if_pos hfr.1, if_pos hfr.2]
    decide +kernel

/-- The only requested element of the column of variable 5, a non-indexed variable of the loop, is of an equation which depends on it through the temporary
alone: the source generation throws `std::out_of_range` (`dyiDxtapeT.at(tapeJ)`, l.783, with a tape variable for which nothing
was evaluated). -/
theorem generation_counterexample (dx : Int) (out : Nat → Int) : exModel.Columns 6 [(5, [3])] ∧
    sparseForwardOne exModel exD exG 6 [(5, [3])] 5 dx out = .error .undefined := by
  refine ⟨⟨by decide, by decide, by decide, ?_⟩, ?_⟩
  · intro c hc i hi
    obtain rfl : c = (5, [3]) := by simpa using hc
    obtain rfl : i = 3 := by simpa using hi
    exact Or.inl ⟨0, 1, 0, exLoop, exRows, rfl, by decide⟩
  · rfl

end Verif.Loops.For1
