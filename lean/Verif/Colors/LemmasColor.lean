import Verif.Colors.Spec
import Verif.Colors.Model

/- Helper lemmas: the coloring. -/
namespace Verif.Colors

theorem mem_colsUsed {s : Sets} {i j : Nat} : j ∈ s.colsUsed i ↔ (i, j) ∈ s.used := by
  simp only [Sets.colsUsed, List.mem_map, List.mem_filter, decide_eq_true_eq]
  constructor
  · rintro ⟨⟨a, b⟩, ⟨h1, rfl⟩, rfl⟩
    exact h1
  · exact fun h => ⟨(i, j), ⟨h, rfl⟩, rfl⟩

theorem mem_rowsUsed {s : Sets} {i j : Nat} : i ∈ s.rowsUsed j ↔ (i, j) ∈ s.used := by
  simp only [Sets.rowsUsed, List.mem_map, List.mem_filter, decide_eq_true_eq]
  constructor
  · rintro ⟨⟨a, b⟩, ⟨h1, rfl⟩, rfl⟩
    exact h1
  · exact fun h => ⟨(i, j), ⟨h, rfl⟩, rfl⟩

theorem mem_transposed {s : Sets} {m i j : Nat} : i ∈ s.transposed m j ↔ i < m ∧ j ∈ s.pattern i := by
  simp [Sets.transposed]

theorem mem_colsNotUsed {s : Sets} {i j : Nat} : j ∈ s.colsNotUsed i ↔ j ∈ s.pattern i ∧ (i, j) ∉ s.used := by
  simp [Sets.colsNotUsed, mem_colsUsed]

theorem mem_rowsNotUsed {s : Sets} {m i j : Nat} : i ∈ s.rowsNotUsed m j ↔ (i < m ∧ j ∈ s.pattern i) ∧ (i, j) ∉ s.used := by
  simp [Sets.rowsNotUsed, mem_rowsUsed, mem_transposed]

/-- colors up to column `b` are chosen -/
structure Chosen (jac hes : Sets) (m n : Nat) (color : List Nat) (b : Nat) : Prop where
  length : color.length = n
  le : ∀ j < n, color.getD j 0 ≤ j
  differ : ∀ j1 < b, j1 < n → ∀ j ∈ conflicts jac hes m n j1, j < j1 → color.getD j1 0 ≠ color.getD j 0

theorem getD_set {l : List Nat} {i j v : Nat} (hi : i < l.length) : (l.set i v).getD j 0 = if j = i then v else l.getD j 0 := by
  by_cases h : j = i
  · subst h
    simp [hi]
  · simp [h, List.getD_eq_getElem?_getD, List.getElem?_set_ne (Ne.symm h)]

theorem colorStep_ok {jac hes : Sets} {m n : Nat} {color : List Nat} {b : Nat} (h : Chosen jac hes m n color b) (hb : b < n) :
    ∃ color', colorStep jac hes m n color b = some color' ∧ Chosen jac hes m n color' (b + 1) := by
  unfold colorStep
  simp only
  have hlen := h.length
  cases hf : (List.range (b + 1)).find? (fun c => decide (c ∉ ((conflicts jac hes m n b).filter (· < b)).map (color.getD · 0))) with
  | none =>
    rw [List.find?_eq_none] at hf
    have hb' := hf b (by simp)
    simp only [decide_eq_true_eq, List.mem_map, List.mem_filter] at hb'
    replace hb' := Classical.not_not.1 hb'
    obtain ⟨j, ⟨_, h2⟩, h3⟩ := hb'
    have := h.le j (by omega)
    omega
  | some c =>
    have h1 := List.find?_some hf
    have h2 := List.mem_of_find?_eq_some hf
    simp only [decide_eq_true_eq, List.mem_map, List.mem_filter, not_exists, not_and] at h1
    simp only [List.mem_range] at h2
    refine ⟨_, rfl, ⟨by simp [hlen], ?_, ?_⟩⟩
    · intro j hj
      rw [getD_set (by omega)]
      split
      · omega
      · exact h.le j hj
    · intro j1 hj1 hj1n j hj hlt
      rw [getD_set (by omega), getD_set (by omega)]
      have hjb : j ≠ b := by omega
      rw [if_neg hjb]
      by_cases e : j1 = b
      · subst e
        rw [if_pos rfl]
        exact fun e => h1 j ⟨hj, hlt⟩ e.symm
      · rw [if_neg e]
        exact h.differ j1 (by omega) hj1n j hj hlt

theorem colorFold_ok {jac hes : Sets} {m n : Nat} : ∀ (k b : Nat) (color : List Nat), Chosen jac hes m n color b → b + k ≤ n →
    ∃ color', (List.range' b k).foldlM (colorStep jac hes m n) color = some color' ∧ Chosen jac hes m n color' (b + k)
  | 0, b, color, h, _ => ⟨color, rfl, h⟩
  | k + 1, b, color, h, hk => by
    obtain ⟨c1, h1, h2⟩ := colorStep_ok h (by omega)
    obtain ⟨c2, h3, h4⟩ := colorFold_ok k (b + 1) c1 h2 (by omega)
    refine ⟨c2, ?_, by rw [show b + (k + 1) = b + 1 + k by omega]; exact h4⟩
    rw [List.range'_succ, List.foldlM_cons, h1]
    exact h3

theorem coloring_ok (jac hes : Sets) (m n : Nat) : ∃ color, coloring jac hes m n = some color ∧ Chosen jac hes m n color n := by
  have h0 : Chosen jac hes m n (List.range n) 1 :=
    ⟨by simp, fun j hj => by simp [hj], fun j1 h1 _ j _ h2 => by omega⟩
  unfold coloring
  cases n with
  | zero => exact ⟨_, rfl, ⟨h0.length, h0.le, fun _ h => by omega⟩⟩
  | succ n =>
    obtain ⟨c, h1, h2⟩ := colorFold_ok n 1 _ h0 (by omega)
    exact ⟨c, h1, by rw [Nat.add_comm 1 n] at h2; exact h2⟩

/-- columns of the same color do not disturb elements of the request -/
theorem Chosen.jac {jac hes : Sets} {m n : Nat} {color : List Nat} (h : Chosen jac hes m n color n)
    (hin : ∀ i j, (i, j) ∈ jac.used → i < m ∧ j ∈ jac.pattern i) {i j j' : Nat} (hu : (i, j) ∈ jac.used) (hp : j' ∈ jac.pattern i)
    (hj : j < n) (hj' : j' < n) (hne : j ≠ j') : color.getD j 0 ≠ color.getD j' 0 := by
  obtain ⟨him, hip⟩ := hin i j hu
  rcases Nat.lt_or_gt_of_ne hne with hlt | hlt
  · refine fun e => h.differ j' hj' hj' j ?_ hlt e.symm
    simp only [conflicts, List.mem_append, List.mem_flatMap]
    exact .inl (.inl (.inl ⟨i, mem_transposed.2 ⟨him, hp⟩, mem_colsUsed.2 hu⟩))
  · refine h.differ j hj hj j' ?_ hlt
    simp only [conflicts, List.mem_append, List.mem_flatMap]
    by_cases hu' : (i, j') ∈ jac.used
    · exact .inl (.inl (.inl ⟨i, mem_transposed.2 ⟨him, hip⟩, mem_colsUsed.2 hu'⟩))
    · exact .inl (.inl (.inr ⟨i, mem_rowsUsed.2 hu, mem_colsNotUsed.2 ⟨hp, hu'⟩⟩))

/-- rows of the same color do not disturb elements of the request -/
theorem Chosen.hes {jac hes : Sets} {m n : Nat} {color : List Nat} (h : Chosen jac hes m n color n)
    (hin : ∀ i j, (i, j) ∈ hes.used → i < n ∧ j ∈ hes.pattern i) {i i' j : Nat} (hu : (i, j) ∈ hes.used) (hp : j ∈ hes.pattern i')
    (hi' : i' < n) (hne : i ≠ i') : color.getD i 0 ≠ color.getD i' 0 := by
  obtain ⟨hi, hip⟩ := hin i j hu
  rcases Nat.lt_or_gt_of_ne hne with hlt | hlt
  · refine fun e => h.differ i' hi' hi' i ?_ hlt e.symm
    simp only [conflicts, List.mem_append, List.mem_flatMap]
    exact .inl (.inr ⟨j, hp, mem_rowsUsed.2 hu⟩)
  · refine h.differ i hi hi i' ?_ hlt
    simp only [conflicts, List.mem_append, List.mem_flatMap]
    by_cases hu' : (i', j) ∈ hes.used
    · exact .inl (.inr ⟨j, hip, mem_rowsUsed.2 hu'⟩)
    · exact .inr ⟨j, mem_colsUsed.2 hu, mem_rowsNotUsed.2 ⟨⟨hi', hp⟩, hu'⟩⟩

theorem numColors_gt {color : List Nat} {c : Nat} (h : c ∈ color) : c < numColors color := by
  have key : ∀ (l : List Nat) (a : Nat), a ≤ l.foldl (fun a c => max a (c + 1)) a ∧ ∀ c ∈ l, c < l.foldl (fun a c => max a (c + 1)) a := by
    intro l
    induction l with
    | nil => exact fun a => ⟨Nat.le_refl _, fun c h => by simp at h⟩
    | cons x l ih =>
      intro a
      obtain ⟨h1, h2⟩ := ih (max a (x + 1))
      refine ⟨by simp only [List.foldl_cons]; omega, ?_⟩
      intro c hc
      rcases List.mem_cons.1 hc with rfl | hc
      · simp only [List.foldl_cons]; omega
      · exact h2 c hc
  exact (key color 1).2 c h

end Verif.Colors
