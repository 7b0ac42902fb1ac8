import Verif.Ranges.Model
/- Helper lemmas for iteration ranges. -/
namespace Verif.Ranges

/-- lexicographic order on ranges -/
def LexLe (r s : Nat × Nat) : Prop := r.1 < s.1 ∨ (r.1 = s.1 ∧ r.2 ≤ s.2)

theorem LexLe.trans {a b c : Nat × Nat} (h : LexLe a b) (h' : LexLe b c) : LexLe a c := by
  unfold LexLe at *; omega

theorem LexLe.fst {a b : Nat × Nat} (h : LexLe a b) : a.1 ≤ b.1 := by
  unfold LexLe at *; omega

theorem pairLt_iff (a b : Nat × Nat) : pairLt a b = true ↔ ¬ LexLe b a := by
  simp only [pairLt, LexLe, Bool.or_eq_true, Bool.and_eq_true, decide_eq_true_eq, beq_iff_eq]
  omega

theorem mem_insertAll (x : Nat × Nat) (s ps : List (Nat × Nat)) :
    x ∈ insertAll s ps ↔ x ∈ s ∨ x ∈ ps := by
  induction ps generalizing s with
  | nil => simp [insertAll]
  | cons p ps ih =>
    unfold insertAll
    rw [List.mem_append, List.mem_cons, ih]
    have : x ∈ s ↔ x ∈ s.takeWhile (pairLt · p) ∨ x ∈ s.dropWhile (pairLt · p) := by
      rw [← List.mem_append, List.takeWhile_append_dropWhile]
    rw [this, List.mem_cons]
    constructor
    · rintro (h | h | h | h) <;> simp [h]
    · rintro ((h | h) | h | h) <;> simp [h]

theorem dropWhile_all_ge (p : Nat × Nat) (s : List (Nat × Nat)) (hs : s.Pairwise LexLe) :
    ∀ x ∈ s.dropWhile (pairLt · p), LexLe p x := by
  induction s with
  | nil => simp
  | cons a s ih =>
    rw [List.pairwise_cons] at hs
    intro x hx
    by_cases hap : pairLt a p = true
    · rw [List.dropWhile_cons_of_pos (p := (pairLt · p)) hap] at hx
      exact ih hs.2 x hx
    · rw [List.dropWhile_cons_of_neg (p := (pairLt · p)) hap] at hx
      have hpa : LexLe p a := by
        rw [pairLt_iff] at hap
        exact Classical.byContradiction hap
      rcases List.mem_cons.1 hx with rfl | hx
      · exact hpa
      · exact hpa.trans (hs.1 x hx)

theorem takeWhile_all_lt (p : Nat × Nat) (s : List (Nat × Nat)) :
    ∀ x ∈ s.takeWhile (pairLt · p), LexLe x p := by
  induction s with
  | nil => simp
  | cons a s ih =>
    intro x hx
    by_cases h : pairLt a p = true
    · rw [List.takeWhile_cons_of_pos (p := (pairLt · p)) h] at hx
      rcases List.mem_cons.1 hx with rfl | hx
      · rw [pairLt_iff] at h
        unfold LexLe at *; omega
      · exact ih x hx
    · rw [List.takeWhile_cons_of_neg (p := (pairLt · p)) h] at hx
      simp at hx

theorem insertAll_sorted (s ps : List (Nat × Nat)) (hs : s.Pairwise LexLe)
    (hps : ps.Pairwise LexLe) : (insertAll s ps).Pairwise LexLe := by
  induction ps generalizing s with
  | nil => simpa [insertAll] using hs
  | cons p ps ih =>
    rw [List.pairwise_cons] at hps
    unfold insertAll
    have hd : (s.dropWhile (pairLt · p)).Pairwise LexLe :=
      hs.sublist (List.dropWhile_sublist _)
    have hge : ∀ x ∈ insertAll (s.dropWhile (pairLt · p)) ps, LexLe p x := by
      intro x hx
      rcases (mem_insertAll _ _ _).1 hx with h | h
      · exact dropWhile_all_ge p s hs x h
      · exact hps.1 x h
    rw [List.pairwise_append]
    refine ⟨hs.sublist (List.takeWhile_sublist _), ?_, ?_⟩
    · rw [List.pairwise_cons]
      exact ⟨hge, ih _ hd hps.2⟩
    · intro x hx y hy
      have hxp := takeWhile_all_lt p s x hx
      rcases List.mem_cons.1 hy with rfl | hy
      · exact hxp
      · exact hxp.trans (hge y hy)

theorem covers_cons (r : Nat × Nat) (rs : List (Nat × Nat)) (i : Nat) :
    Covers (r :: rs) i ↔ (r.1 ≤ i ∧ i ≤ r.2) ∨ Covers rs i := by
  simp [Covers]

theorem covers_nil (i : Nat) : ¬ Covers [] i := by simp [Covers]

theorem covers_append (a b : List (Nat × Nat)) (i : Nat) :
    Covers (a ++ b) i ↔ Covers a i ∨ Covers b i := by
  simp only [Covers, List.mem_append]
  constructor
  · rintro ⟨r, h | h, h'⟩
    · exact Or.inl ⟨r, h, h'⟩
    · exact Or.inr ⟨r, h, h'⟩
  · rintro (⟨r, h, h'⟩ | ⟨r, h, h'⟩)
    · exact ⟨r, Or.inl h, h'⟩
    · exact ⟨r, Or.inr h, h'⟩

theorem mergeLoop_covers (i : Nat) (cs : List (Nat × Nat)) :
    ∀ top : Nat × Nat, (top :: cs).Pairwise (fun r s => r.1 ≤ s.1) →
      (∀ r ∈ top :: cs, r.1 ≤ r.2 ∧ r.2 ≤ sizeMax) →
      (Covers (mergeLoop top cs) i ↔ Covers (top :: cs) i) := by
  induction cs with
  | nil => intro top _ _; simp [mergeLoop]
  | cons c cs ih =>
    intro top hp hv
    rw [List.pairwise_cons] at hp
    have hp2 := hp.2
    rw [List.pairwise_cons] at hp2
    have htc := hp.1 c (by simp)
    have hvt := hv top (by simp)
    have hvc := hv c (by simp)
    unfold mergeLoop
    split
    · rename_i hmax
      rw [covers_cons, covers_cons top]
      constructor
      · rintro (h | h)
        · exact Or.inl h
        · exact absurd h (covers_nil i)
      · rintro (h | ⟨r, hr, h1, h2⟩)
        · exact Or.inl h
        · have := hp.1 r hr
          have := hv r (List.mem_cons_of_mem _ hr)
          left; omega
    · split
      · rw [covers_cons, covers_cons top, ih c hp.2 (fun r hr => hv r (List.mem_cons_of_mem _ hr))]
      · split
        · rw [ih (top.1, c.2)]
          · simp only [covers_cons]
            have : (top.1 ≤ i ∧ i ≤ c.2) ↔ ((top.1 ≤ i ∧ i ≤ top.2) ∨ (c.1 ≤ i ∧ i ≤ c.2)) := by
              omega
            rw [this, or_assoc]
          · rw [List.pairwise_cons]
            exact ⟨fun r hr => hp.1 r (List.mem_cons_of_mem _ hr), hp2.2⟩
          · intro r hr
            rcases List.mem_cons.1 hr with rfl | hr
            · simp only; omega
            · exact hv r (by simp [hr])
        · rw [ih top]
          · simp only [covers_cons]
            constructor
            · rintro (h | h)
              · exact Or.inl h
              · exact Or.inr (Or.inr h)
            · rintro (h | h | h)
              · exact Or.inl h
              · left; omega
              · exact Or.inr h
          · rw [List.pairwise_cons]
            exact ⟨fun r hr => hp.1 r (List.mem_cons_of_mem _ hr), hp2.2⟩
          · intro r hr
            rcases List.mem_cons.1 hr with rfl | hr
            · exact hvt
            · exact hv r (by simp [hr])

theorem mergeLoop_fst_ge (cs : List (Nat × Nat)) :
    ∀ top : Nat × Nat, (top :: cs).Pairwise (fun r s => r.1 ≤ s.1) →
      ∀ r ∈ mergeLoop top cs, top.1 ≤ r.1 := by
  induction cs with
  | nil => intro top _ r hr; simp [mergeLoop] at hr; simp [hr]
  | cons c cs ih =>
    intro top hp r hr
    rw [List.pairwise_cons] at hp
    have hp2 := hp.2
    rw [List.pairwise_cons] at hp2
    have htc := hp.1 c (by simp)
    have key : ((top.1, c.2) :: cs).Pairwise (fun r s : Nat × Nat => r.1 ≤ s.1) := by
      rw [List.pairwise_cons]
      exact ⟨fun r hr => hp.1 r (List.mem_cons_of_mem _ hr), hp2.2⟩
    have key' : (top :: cs).Pairwise (fun r s : Nat × Nat => r.1 ≤ s.1) := by
      rw [List.pairwise_cons]
      exact ⟨fun r hr => hp.1 r (List.mem_cons_of_mem _ hr), hp2.2⟩
    unfold mergeLoop at hr
    split at hr
    · simp at hr; simp [hr]
    · split at hr
      · rcases List.mem_cons.1 hr with rfl | hr
        · exact Nat.le_refl _
        · exact Nat.le_trans htc (ih c hp.2 r hr)
      · split at hr
        · exact ih _ key r hr
        · exact ih _ key' r hr

theorem mergeLoop_separated (cs : List (Nat × Nat)) :
    ∀ top : Nat × Nat, (top :: cs).Pairwise (fun r s => r.1 ≤ s.1) →
      (∀ r ∈ top :: cs, r.1 ≤ r.2 ∧ r.2 ≤ sizeMax) →
      SeparatedRanges (mergeLoop top cs) := by
  induction cs with
  | nil =>
    intro top _ hv
    simp only [mergeLoop]
    exact ⟨List.pairwise_singleton _ _, hv⟩
  | cons c cs ih =>
    intro top hp hv
    rw [List.pairwise_cons] at hp
    have hp2 := hp.2
    rw [List.pairwise_cons] at hp2
    have htc := hp.1 c (by simp)
    have hvt := hv top (by simp)
    have hvc := hv c (by simp)
    unfold mergeLoop
    split
    · exact ⟨List.pairwise_singleton _ _, by simpa using hvt⟩
    · split
      · rename_i hlt
        have h1 := ih c hp.2 (fun r hr => hv r (List.mem_cons_of_mem _ hr))
        refine ⟨?_, ?_⟩
        · rw [List.pairwise_cons]
          refine ⟨fun r hr => ?_, h1.1⟩
          have := mergeLoop_fst_ge cs c hp.2 r hr
          omega
        · intro r hr
          rcases List.mem_cons.1 hr with rfl | hr
          · exact hvt
          · exact h1.2 r hr
      · split
        · apply ih
          · rw [List.pairwise_cons]
            exact ⟨fun r hr => hp.1 r (List.mem_cons_of_mem _ hr), hp2.2⟩
          · intro r hr
            rcases List.mem_cons.1 hr with rfl | hr
            · simp only; omega
            · exact hv r (by simp [hr])
        · apply ih
          · rw [List.pairwise_cons]
            exact ⟨fun r hr => hp.1 r (List.mem_cons_of_mem _ hr), hp2.2⟩
          · intro r hr
            rcases List.mem_cons.1 hr with rfl | hr
            · exact hvt
            · exact hv r (by simp [hr])

theorem combineOverlap_of_ne (a b : List (Nat × Nat)) (ha : OrderedRanges a) (hb : OrderedRanges b)
    (hna : a ≠ []) (hnb : b ≠ []) :
    ∃ t ts, combineOverlap a b = mergeLoop t ts ∧ insertAll a b = t :: ts ∧
      (t :: ts).Pairwise (fun r s => r.1 ≤ s.1) ∧
      (∀ r ∈ t :: ts, r.1 ≤ r.2 ∧ r.2 ≤ sizeMax) := by
  unfold combineOverlap
  rw [if_neg hna, if_neg hnb]
  have hm := fun x => mem_insertAll x a b
  have hs := insertAll_sorted a b ha.1 hb.1
  match h : insertAll a b with
  | [] =>
    obtain ⟨x, hx⟩ := List.exists_mem_of_ne_nil a hna
    have := (hm x).2 (Or.inl hx)
    rw [h] at this; simp at this
  | t :: ts =>
    refine ⟨t, ts, rfl, rfl, ?_, ?_⟩
    · rw [h] at hs; exact hs.imp (fun {a b} hab => LexLe.fst hab)
    · intro r hr
      rw [← h, hm] at hr
      rcases hr with hr | hr
      · exact ha.2 r hr
      · exact hb.2 r hr

theorem SeparatedRanges.disjoint {rs : List (Nat × Nat)} (h : SeparatedRanges rs) :
    DisjointRanges rs :=
  ⟨h.1.imp (fun {a b} hab => by omega), h.2⟩

theorem DisjointRanges.ordered {rs : List (Nat × Nat)} (h : DisjointRanges rs) :
    OrderedRanges rs := by
  refine ⟨?_, h.2⟩
  refine List.Pairwise.imp_of_mem ?_ h.1
  intro a b ha hb hab
  have := h.2 a ha
  omega

theorem invertGo_covers (i : Nat) (hi : i ≤ sizeMax) (rs : List (Nat × Nat)) :
    ∀ e : Nat, e ≤ sizeMax → (∀ r ∈ rs, e < r.1) → DisjointRanges rs →
      (Covers (invertGo e rs) i ↔ e < i ∧ ¬ Covers rs i) := by
  induction rs with
  | nil =>
    intro e he _ _
    unfold invertGo
    by_cases h : e = sizeMax
    · simp [h, covers_nil]; omega
    · simp only [ne_eq, h, not_false_eq_true, if_true, covers_cons, covers_nil, or_false]
      simp only [and_true]
      omega
  | cons r rs ih =>
    intro e he hlt hd
    obtain ⟨hp, hv⟩ := hd
    rw [List.pairwise_cons] at hp
    have hvr := hv r (by simp)
    have her := hlt r (by simp)
    unfold invertGo
    rw [covers_cons, ih r.2 hvr.2 hp.1 ⟨hp.2, fun s hs => hv s (List.mem_cons_of_mem _ hs)⟩,
      covers_cons]
    have hafter : Covers rs i → r.2 < i := by
      rintro ⟨s, hs, h1, h2⟩
      have := hp.1 s hs
      omega
    simp only
    constructor
    · rintro (h | h)
      · refine ⟨by omega, ?_⟩
        rintro (h' | h')
        · omega
        · have := hafter h'; omega
      · refine ⟨by omega, ?_⟩
        rintro (h' | h')
        · omega
        · exact h.2 h'
    · rintro ⟨h1, h2⟩
      by_cases hc : i < r.1
      · left; omega
      · right
        refine ⟨?_, fun h => h2 (Or.inr h)⟩
        apply Classical.byContradiction
        intro h3
        exact h2 (Or.inl ⟨by omega, by omega⟩)

end Verif.Ranges
