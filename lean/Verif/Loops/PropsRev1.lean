import Verif.Loops.LemmasRev1Row
import Verif.Loops.PropsFor1

/-
C80: products of weights with the Jacobian of a model with loops, one equation at a time (reverse mode of order one). The functions are those
of model_c_source_gen_loops_rev1.hpp, their callers are in model_c_source_gen_rev1.hpp and functor_generic_model.hpp.
-/
namespace Verif.Loops.Rev1

open Verif.Index Verif.Ranges

variable {α : Type} [CommRing α]

/-- `sparse_reverse_one` with an array of zeros: element `e` of the row is the derivative of the equation with respect to its variable, by the chain rule over
the tape of the loop, times the weight; the rest of the array is left alone. The source generation does not fail. -/
theorem row_right {M : Model} (hM : M.Ok) {D : Nat → Nat → Nat → Nat → α} {G : Nat → Nat → α} (hc : M.Covers D G) {m : Nat}
    {elements : List (Nat × List Nat)} (hE : M.Rows m elements) {i : Nat} {vars : List Nat} (hm : (i, vars) ∈ elements)
    (py : α) (out : Nat → α) (h0 : ∀ e < vars.length, out e = 0) : ∃ o, sparseReverseOne M D G m elements i py out = .ok (0, o) ∧
      (∀ (e j : Nat) (v : α), vars[e]? = some j → M.Deriv D G i j v → o e = v * py) ∧ ∀ e, vars.length ≤ e → o e = out e := by
  obtain ⟨o, c1, c2, c3⟩ := row_core hM hc hE hm py out
  refine ⟨o, c1, fun e j v hj hv => ?_, c3⟩
  by_cases hf : ∃ fr, M.free = some fr ∧ i ∈ fr.eqs
  · exact (c2 e j v hj hv).1 hf
  · rw [(c2 e j v hj hv).2 hf, h0 e (List.getElem?_eq_some_iff.mp hj).1, zero_add]

/-- Equations outside of the loops: the content of the array does not matter. -/
theorem row_sets {M : Model} (hM : M.Ok) {D : Nat → Nat → Nat → Nat → α} {G : Nat → Nat → α} (hc : M.Covers D G) {m : Nat}
    {elements : List (Nat × List Nat)} (hE : M.Rows m elements) {i : Nat} {vars : List Nat} (hm : (i, vars) ∈ elements)
    {fr : Free} (hf : M.free = some fr) (hi : i ∈ fr.eqs) (py : α) (out : Nat → α) : ∃ o, sparseReverseOne M D G m elements i py out = .ok (0, o) ∧
      ∀ (e j : Nat) (v : α), vars[e]? = some j → M.Deriv D G i j v → o e = v * py := by
  obtain ⟨o, c1, c2, _⟩ := row_core hM hc hE hm py out
  exact ⟨o, c1, fun e j v hj hv => (c2 e j v hj hv).1 ⟨fr, hf, hi⟩⟩

/-- Equations in loops: the product is added to what the array contains. -/
theorem row_adds {M : Model} (hM : M.Ok) {D : Nat → Nat → Nat → Nat → α} {G : Nat → Nat → α} (hc : M.Covers D G) {m : Nat}
    {elements : List (Nat × List Nat)} (hE : M.Rows m elements) {i : Nat} {vars : List Nat} (hm : (i, vars) ∈ elements)
    {q t it : Nat} {l : Loop} {jac : List (List Nat)} (hl : M.loops[q]? = some (l, jac)) (hi : l.eq t it = some i) (py : α) (out : Nat → α) :
    ∃ o, sparseReverseOne M D G m elements i py out = .ok (0, o) ∧
      ∀ (e j : Nat) (v : α), vars[e]? = some j → M.Deriv D G i j v → o e = out e + v * py := by
  obtain ⟨o, c1, c2, _⟩ := row_core hM hc hE hm py out
  refine ⟨o, c1, fun e j v hj hv => (c2 e j v hj hv).2 ?_⟩
  rintro ⟨fr, hf, hif⟩
  exact hM.apart q l jac t it i fr hl hi hf hif

/-- Other equations: the value 1 is returned and the array left alone. -/
theorem row_absent {M : Model} (hM : M.Ok) (D : Nat → Nat → Nat → Nat → α) (G : Nat → Nat → α) {m : Nat} {elements : List (Nat × List Nat)}
    (hE : M.Rows m elements) {i : Nat} (hi : ∀ c ∈ elements, c.1 ≠ i) (py : α) (out : Nat → α) :
    sparseReverseOne M D G m elements i py out = .ok (1, out) := by
  obtain ⟨a, ha, _⟩ := analysis hM hE
  rw [sparseReverseOne, ha]
  simp only
  rw [List.find?_eq_none.mpr fun c hc => by simpa using hi c hc]

/-- `reverse_one`: the result is the product of the weights with the requested elements, whatever the array from `malloc` contains. -/
theorem reverse_right [DecidableEq α] {M : Model} (hM : M.Ok) {D : Nat → Nat → Nat → Nat → α} {G : Nat → Nat → α} (hc : M.Covers D G) {m : Nat}
    {elements : List (Nat × List Nat)} (hE : M.Rows m elements) (py mem : Nat → α) :
    ∃ px, reverseOne M D G m elements py mem = .ok (0, px) ∧
      ∀ j w, M.RowProduct D G elements j ((List.range m).map fun i => (i, py i)) w → px j = w := by
  obtain ⟨t, t1, t2⟩ := drive_ok hM hc hE true (usedRows elements m py) (by
    rintro ⟨i, d⟩ hd
    unfold usedRows at hd
    rw [List.mem_filterMap] at hd
    obtain ⟨i', _, hd⟩ := hd
    split at hd
    · simp at hd
    · rename_i hne
      simp only [Option.some.injEq, Prod.mk.injEq] at hd
      obtain ⟨rfl, rfl⟩ := hd
      cases hfd : elements.find? fun c => c.1 == i' with
      | none => rw [hfd] at hne; exact absurd (Or.inr rfl) hne
      | some c =>
        refine ⟨c.2, ?_, Or.inl rfl⟩
        have h1 := List.mem_of_find?_eq_some hfd
        have h2 : c.1 = i' := by simpa using List.find?_some hfd
        rw [← h2]
        exact h1) mem fun _ => 0
  refine ⟨t, t1, fun j w hw => ?_⟩
  rw [t2 j w, zero_add]
  refine product_used py (fun i => py i = 0 ∨ ((elements.find? fun c => c.1 == i).map (·.2)).getD [] = []) (fun i hi => ?_) _ w hw
  refine hi.imp_right fun hi => ?_
  rintro ⟨vars, hm, hj⟩
  rw [For1.find_col hE.rows hm] at hi
  simp only [Option.map_some, Option.getD_some] at hi
  rw [hi] at hj
  simp at hj

/-- `ReverseOne` with the elements of the weights: right if its equations are outside of the loops. Missing: weights with more than one equation in a loop, and
later calls (`stale_counterexample`). -/
theorem sparse_right_partial {M : Model} (hM : M.Ok) {D : Nat → Nat → Nat → Nat → α} {G : Nat → Nat → α} (hc : M.Covers D G) {m : Nat}
    {elements : List (Nat × List Nat)} (hE : M.Rows m elements) {fr : Free} (hf : M.free = some fr)
    (weights : List (Nat × α)) (hw : ∀ d ∈ weights, d.1 ∈ fr.eqs ∧ ∃ vars, (d.1, vars) ∈ elements) (old : Nat → α) :
    ∃ px, sparseProduct M D G m elements weights old = .ok (0, px) ∧ ∀ j w, M.RowProduct D G elements j weights w → px j = w := by
  obtain ⟨t, t1, t2⟩ := drive_ok hM hc hE false weights (fun d hd => by
    obtain ⟨h1, vars, h2⟩ := hw d hd
    exact ⟨vars, h2, Or.inr ⟨fr, hf, h1⟩⟩) old fun _ => 0
  exact ⟨t, t1, fun j w hw => by rw [t2 j w hw, zero_add]⟩

/-! ### examples -/

/-- the last equation is outside of the loop; equation 3 depends on variable 5 through the temporary only -/
def exElements : List (Nat × List Nat) := [(0, [5, 0]), (3, [5]), (2, [2, 3]), (5, [1, 4])]

theorem exElements_rows : exModel.Rows 6 exElements where
  rows := by decide
  vars := by decide
  lt := by decide
  computes := by
    have h1 : ∀ i < 6, (∃ t < 2, ∃ it < 3, exLoop.eq t it = some i) ∨ i ∈ [5] := by decide
    have h2 : ∀ c ∈ exElements, c.1 < 6 := by decide
    intro c hc
    rcases h1 c.1 (h2 c hc) with ⟨t, _, it, _, h⟩ | h
    · exact Or.inl ⟨0, t, it, exLoop, exRows, rfl, h⟩
    · exact Or.inr ⟨_, rfl, h⟩

/-- derivatives of the fourth equation -/
theorem ex_deriv3 (j : Nat) : exModel.Deriv exD exG 3 j (exLoop.chain (fun t => exD 0 1 t 0) (fun k j => exG (1 + k) j) 0 j) :=
  Model.Deriv.loop (q := 0) (tapeI := 1) (it := 0) (l := exLoop) (jac := exRows) rfl (by decide)

example : ∃ o, sparseReverseOne exModel exD exG 6 exElements 0 3 For1.zeros = .ok (0, o) ∧ o 0 = 3 * 393 ∧ o 1 = 3 ∧ o 2 = 0 := by
  obtain ⟨o, h1, h2, h3⟩ := row_right exModel_ok exModel_covers exElements_rows (i := 0) (vars := [5, 0]) (by decide) 3 For1.zeros fun _ _ => rfl
  refine ⟨o, h1, ?_, ?_, h3 2 (by decide)⟩
  · rw [h2 0 5 _ rfl (For1.ex_deriv 5)]; decide +kernel
  · rw [h2 1 0 _ rfl (For1.ex_deriv 0)]; decide +kernel

/-- the temporary alone -/
example (out : Nat → Int) : ∃ o, sparseReverseOne exModel exD exG 6 exElements 3 2 out = .ok (0, o) ∧ o 0 = out 0 + 2 * 1572 := by
  obtain ⟨o, h1, h2⟩ := row_adds exModel_ok exModel_covers exElements_rows (i := 3) (vars := [5]) (by decide) (q := 0) (t := 1) (it := 0) (l := exLoop)
    (jac := exRows) rfl (by decide) 2 out
  refine ⟨o, h1, ?_⟩
  rw [h2 0 5 _ rfl (ex_deriv3 5)]
  congr 1

example (out : Nat → Int) : ∃ o, sparseReverseOne exModel exD exG 6 exElements 5 2 out = .ok (0, o) ∧ o 0 = 0 ∧ o 1 = 8 := by
  obtain ⟨o, h1, h2⟩ := row_sets exModel_ok exModel_covers exElements_rows (i := 5) (vars := [1, 4]) (by decide) (fr := ⟨[5], [[4], [2, 5]]⟩) rfl (by decide)
    2 out
  refine ⟨o, h1, ?_, ?_⟩
  · rw [h2 0 1 _ rfl (Model.Deriv.free (r := 0) rfl rfl)]; decide +kernel
  · rw [h2 1 4 _ rfl (Model.Deriv.free (r := 0) rfl rfl)]; decide +kernel

example : exModel.Rows 6 exElements ∧ ∀ c ∈ exElements, c.1 ≠ 1 := ⟨exElements_rows, by decide⟩

example (mem : Nat → Int) : ∃ px, reverseOne exModel exD exG 6 exElements (fun i => if i = 0 then 2 else if i = 3 then 1 else 0) mem = .ok (0, px) ∧
    px 5 = 2358 := by
  obtain ⟨px, h1, h2⟩ := reverse_right exModel_ok exModel_covers exElements_rows (fun i => if i = 0 then (2 : Int) else if i = 3 then 1 else 0) mem
  refine ⟨px, h1, ?_⟩
  rw [h2 5 _ (.take ⟨[5, 0], by decide, by decide⟩ (For1.ex_deriv 5) (.skip (by simp [exElements]) (.skip (by simp [exElements])
    (.take ⟨[5], by decide, by decide⟩ (ex_deriv3 5) (.skip (by simp [exElements]) (.skip (by simp [exElements]) .nil))))))]
  decide +kernel

example (old : Nat → Int) : ∃ px, sparseProduct exModel exD exG 6 exElements [(5, 5), (5, 1)] old = .ok (0, px) ∧ px 4 = 24 := by
  obtain ⟨px, h1, h2⟩ := sparse_right_partial exModel_ok exModel_covers exElements_rows (fr := ⟨[5], [[4], [2, 5]]⟩) rfl [(5, 5), (5, 1)]
    (by
      intro d hd
      have : d.1 = 5 := by
        rcases List.mem_cons.mp hd with rfl | hd
        · rfl
        · obtain rfl : d = (5, 1) := by simpa using hd
          rfl
      rw [this]
      exact ⟨by decide, [1, 4], by decide⟩) old
  refine ⟨px, h1, ?_⟩
  have hd : exModel.Deriv exD exG 5 4 (exG 0 4) := Model.Deriv.free (r := 0) rfl rfl
  rw [h2 4 _ (.take ⟨[1, 4], by decide, by decide⟩ hd (.take ⟨[1, 4], by decide, by decide⟩ hd .nil))]
  decide +kernel

/-- The first call of `ReverseOne` with two equations of loops, on an array of zeros: the element of the first equation is still in the array when that of the
second equation is added, and is counted twice. -/
theorem stale_counterexample : ∃ (px : Nat → Int) (w : Int), sparseProduct exModel exD exG 6 exElements [(0, 1), (3, 1)] For1.zeros = .ok (0, px) ∧
    exModel.RowProduct exD exG exElements 5 [(0, 1), (3, 1)] w ∧ w = 1965 ∧ px 5 = 2358 := by
  obtain ⟨o, c1, c2⟩ := row_adds exModel_ok exModel_covers exElements_rows (i := 0) (vars := [5, 0]) (by decide) (q := 0) (t := 0) (it := 0) (l := exLoop)
    (jac := exRows) rfl (by decide) 1 For1.zeros
  obtain ⟨o', d1, d2⟩ := row_adds exModel_ok exModel_covers exElements_rows (i := 3) (vars := [5]) (by decide) (q := 0) (t := 1) (it := 0) (l := exLoop)
    (jac := exRows) rfl (by decide) 1 o
  refine ⟨For1.spread o' [5].zipIdx (For1.spread o [5, 0].zipIdx fun _ => 0), _, ?_, .take ⟨[5, 0], by decide, by decide⟩ (For1.ex_deriv 5)
    (.take ⟨[5], by decide, by decide⟩ (ex_deriv3 5) .nil), by decide +kernel, ?_⟩
  · rw [sparseProduct, drive]
    simp only [Bool.false_eq_true, if_false]
    rw [c1]
    simp only
    rw [drive]
    simp only [Bool.false_eq_true, if_false]
    rw [d1]
    rfl
  · rw [(For1.spread_rows (by decide) o' _).1 5 0 rfl, (For1.spread_rows (by decide) o _).1 5 0 rfl, d2 0 5 _ rfl (ex_deriv3 5),
      c2 0 5 _ rfl (For1.ex_deriv 5)]
    decide +kernel

end Verif.Loops.Rev1
