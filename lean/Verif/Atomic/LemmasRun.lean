import Verif.Atomic.Lemmas
/-
Lemmas on the conversion of arrays in calls of atomic functions of the user.
-/
namespace Verif.Atomic
open Verif.Deriv (sumTo sumTo_congr sumTo_zero Err Mem load store storeList zeros zeros_ok storeList_ok store_ok Cells)

/-- element `j` of a sparse array -/
def sparseVal {R : Type} [Zero R] : List Nat → List R → Nat → R
  | a :: idx, v :: vs, j => if j = a then v else sparseVal idx vs j
  | _, _, _ => 0

theorem sparseVal_not_mem {R : Type} [Zero R] : ∀ (idx : List Nat) (vs : List R) {j : Nat}, j ∉ idx → sparseVal idx vs j = 0
  | [], _, _, _ => by simp [sparseVal]
  | _ :: _, [], _, _ => by simp [sparseVal]
  | a :: idx, v :: vs, j, h => by
    rw [sparseVal, if_neg (by simp at h; exact h.1), sparseVal_not_mem idx vs (by simp at h; exact h.2)]

theorem sumTo_single {R : Type} [NonUnitalNonAssocSemiring R] (g : Nat → R) (rest : Nat → R) (a : Nat) (v : R) (h : rest a = 0) :
    ∀ {n : Nat}, (sumTo n fun j => g j * if j = a then v else rest j) =
      (if a < n then g a * v else 0) + sumTo n fun j => g j * rest j
  | 0 => by simp [sumTo]
  | n + 1 => by
    rw [sumTo, sumTo, sumTo_single g rest a v h (n := n)]
    by_cases hn : n = a
    · subst hn
      rw [if_neg (by omega), if_pos rfl, if_pos (by omega), h, mul_zero, add_zero, zero_add, add_comm]
    · rw [if_neg hn]
      by_cases ha : a < n
      · rw [if_pos ha, if_pos (by omega), add_assoc]
      · rw [if_neg ha, if_neg (by omega), add_assoc]

theorem sumTo_succ_front {R : Type} [AddMonoid R] (f : Nat → R) (n : Nat) : sumTo (n + 1) f = f 0 + sumTo n fun j => f (j + 1) := by
  rw [Nat.add_comm, sumTo_append, sumTo, sumTo, zero_add]
  congr 1
  apply sumTo_congr
  intro j _
  rw [Nat.add_comm]

theorem sumTo_sparseVal {R : Type} [NonUnitalNonAssocSemiring R] (g : Nat → R) {n : Nat} : ∀ (idx : List Nat) (vs : List R),
    idx.length = vs.length → idx.Nodup → (∀ j ∈ idx, j < n) →
    (sumTo n fun j => g j * sparseVal idx vs j) = sumTo idx.length fun e => g (idx.getD e 0) * vs.getD e 0
  | [], vs, _, _, _ => by
    rw [List.length_nil, sumTo]
    exact sumTo_zero fun j _ => by simp [sparseVal]
  | _ :: _, [], h, _, _ => by simp at h
  | a :: idx, v :: vs, h, hn, hlt => by
    rw [List.nodup_cons] at hn
    have ih := sumTo_sparseVal g (n := n) idx vs (by simpa using h) hn.2 fun j hj => hlt j (List.mem_cons_of_mem _ hj)
    have := sumTo_single g (sparseVal idx vs) a v (sparseVal_not_mem idx vs hn.1) (n := n)
    rw [if_pos (hlt a (by simp)), ih] at this
    rw [List.length_cons, sumTo_succ_front, show (sumTo n fun j => g j * sparseVal (a :: idx) (v :: vs) j) =
      sumTo n fun j => g j * if j = a then v else sparseVal idx vs j from rfl, this]
    rfl

theorem dense_cells {R : Type} [Zero R] {vs : List R} {n p k : Nat} {dst : Mem R} (hn : n ≤ vs.length)
    (hto : ∀ j < n, j * (p + 1) + k < dst.length) :
    ∃ dst', convertOne (.dense vs) n p k dst = .ok dst' ∧ Cells (p + 1) k n dst dst' fun j => vs.getD j 0 := by
  unfold convertOne
  simp only [if_pos hn]
  obtain ⟨dst', h1, h2, h3⟩ := storeList_ok ((List.range n).map fun j => (j * (p + 1) + k, vs.getD j 0)) dst (fun w hw => by
    obtain ⟨j, hj, rfl⟩ := List.mem_map.1 hw
    exact hto j (List.mem_range.1 hj))
  have h3 := h3 (fun l => vs.getD ((l - k) / (p + 1)) 0) (fun w hw => by
    obtain ⟨j, _, rfl⟩ := List.mem_map.1 hw
    simp only [Nat.add_sub_cancel]
    rw [Nat.mul_div_cancel _ (by omega)])
  refine ⟨dst', h1, h2, fun j hj => ?_, fun l hl => ?_⟩
  · have := (h3 (j * (p + 1) + k)).1 ⟨_, List.mem_map.2 ⟨j, List.mem_range.2 hj, rfl⟩, rfl⟩
    rw [this, Nat.add_sub_cancel, Nat.mul_div_cancel _ (by omega)]
  · refine (h3 l).2 fun w hw => ?_
    obtain ⟨j, hj, rfl⟩ := List.mem_map.1 hw
    exact (hl j (List.mem_range.1 hj)).symm

theorem sparseStores_mem {R : Type} [Zero R] (p k : Nat) : ∀ (idx : List Nat) (vs : List R), idx.length = vs.length →
    idx.Nodup → (∀ w ∈ sparseStores p k idx vs, ∃ j ∈ idx, w = (j * (p + 1) + k, sparseVal idx vs j)) ∧
      ∀ j ∈ idx, ∃ w ∈ sparseStores p k idx vs, w.1 = j * (p + 1) + k
  | [], _, _, _ => ⟨by simp [sparseStores], by simp⟩
  | _ :: _, [], h, _ => by simp at h
  | a :: idx, v :: vs, h, hn => by
    rw [List.nodup_cons] at hn
    obtain ⟨h1, h2⟩ := sparseStores_mem p k idx vs (by simpa using h) hn.2
    rw [sparseStores]
    constructor
    · intro w hw
      rcases List.mem_cons.1 hw with rfl | hw
      · exact ⟨a, by simp, by simp [sparseVal]⟩
      · obtain ⟨j, hj, rfl⟩ := h1 w hw
        refine ⟨j, List.mem_cons_of_mem _ hj, ?_⟩
        rw [sparseVal, if_neg]
        rintro rfl
        exact hn.1 hj
    · intro j hj
      rcases List.mem_cons.1 hj with rfl | hj
      · exact ⟨_, List.mem_cons_self, rfl⟩
      · obtain ⟨w, hw, e⟩ := h2 j hj
        exact ⟨w, List.mem_cons_of_mem _ hw, e⟩

theorem sparse_cells {R : Type} [Zero R] {size : Nat} {idx : List Nat} {vs : List R} {n p k : Nat} {dst : Mem R}
    (hlen : idx.length = vs.length) (hnd : idx.Nodup) (hidx : ∀ j ∈ idx, j < n) (hk : k ≤ p)
    (hto : ∀ j < n, j * (p + 1) + k < dst.length) :
    ∃ dst', convertOne (.sparse size idx vs) n p k dst = .ok dst' ∧ Cells (p + 1) k n dst dst' (sparseVal idx vs) := by
  unfold convertOne
  have hz : (if p = 0 then zeros 1 0 n dst else zeros (p + 1) k n dst) = zeros (p + 1) k n dst := by
    split
    · obtain rfl : p = 0 := by assumption
      obtain rfl : k = 0 := by omega
      rfl
    · rfl
  simp only [hz]
  obtain ⟨dst1, h1, hc1, hc2, hc3⟩ := zeros_ok (V := R) hto
  rw [h1]
  simp only
  obtain ⟨hs1, hs2⟩ := sparseStores_mem p k idx vs hlen hnd
  obtain ⟨dst', h4, h5, h6⟩ := storeList_ok (sparseStores p k idx vs) dst1 (fun w hw => by
    obtain ⟨j, hj, rfl⟩ := hs1 w hw
    rw [hc1]
    exact hto j (hidx j hj))
  have h6 := h6 (fun l => sparseVal idx vs ((l - k) / (p + 1))) (fun w hw => by
    obtain ⟨j, _, rfl⟩ := hs1 w hw
    simp only [Nat.add_sub_cancel]
    rw [Nat.mul_div_cancel _ (by omega)])
  refine ⟨dst', h4, h5.trans hc1, fun j hj => ?_, fun l hl => ?_⟩
  · by_cases hm : j ∈ idx
    · have := (h6 (j * (p + 1) + k)).1 (hs2 j hm)
      rw [this, Nat.add_sub_cancel, Nat.mul_div_cancel _ (by omega)]
    · rw [(h6 _).2, hc2 j hj, sparseVal_not_mem _ _ hm]
      intro w hw he
      obtain ⟨j', hj', rfl⟩ := hs1 w hw
      simp only [Nat.add_right_cancel_iff] at he
      have := Nat.eq_of_mul_eq_mul_right (by omega) he
      exact hm (this ▸ hj')
  · rw [(h6 l).2, hc3 l hl]
    intro w hw
    obtain ⟨j, hj, rfl⟩ := hs1 w hw
    exact (hl j (hidx j hj)).symm

theorem addEach_ok {R : Type} [Zero R] [Add R] (src : Nat → R) (p k : Nat) (o : Nat → R) : ∀ (js : List Nat) (out : Mem R),
    js.Nodup → (∀ j ∈ js, out[j]? = some (some (o j))) →
    ∃ out', addEach src p k js out = .ok out' ∧ (∀ j ∈ js, out'[j]? = some (some (o j + src (j * (p + 1) + k)))) ∧
      ∀ l, l ∉ js → out'[l]? = out[l]?
  | [], out, _, _ => ⟨out, rfl, by simp, by simp⟩
  | a :: js, out, hn, h => by
    rw [List.nodup_cons] at hn
    have ha := h a (by simp)
    have hlt : a < out.length := by
      by_contra hge
      rw [List.getElem?_eq_none (by omega)] at ha
      cases ha
    obtain ⟨out', h1, h2, h3⟩ := addEach_ok src p k o js (out.set a (some (o a + src (a * (p + 1) + k)))) hn.2 (fun j hj => by
      rw [List.getElem?_set_ne (by rintro rfl; exact hn.1 hj)]
      exact h j (List.mem_cons_of_mem _ hj))
    refine ⟨out', ?_, fun j hj => ?_, fun l hl => ?_⟩
    · rw [addEach, load, ha]
      simp only
      rw [store_ok _ hlt]
      exact h1
    · rcases List.mem_cons.1 hj with rfl | hj
      · rw [h3 _ hn.1, List.getElem?_set_self hlt]
      · exact h2 j hj
    · simp only [List.mem_cons, not_or] at hl
      rw [h3 l hl.2, List.getElem?_set_ne (fun e => hl.1 e.symm)]

end Verif.Atomic
