import Verif.Ranges.Lemmas
import Mathlib.Data.List.Basic
import Batteries.Data.List.Perm
/- Helper lemmas for iteration conditions and if/else chains. -/
namespace Verif.Ranges

/-- keys of an ordered map -/
def KeysSorted (m : List (Nat × Bool)) : Prop := m.Pairwise (fun a b => a.1 < b.1)

theorem mem_mapSet (m : List (Nat × Bool)) (hm : KeysSorted m) (k : Nat) (b : Bool)
    (k' : Nat) (b' : Bool) :
    (k', b') ∈ mapSet m k b ↔ (k' = k ∧ b' = b) ∨ (k' ≠ k ∧ (k', b') ∈ m) := by
  induction m with
  | nil => simp [mapSet]
  | cons p m ih =>
    obtain ⟨q, c⟩ := p
    unfold KeysSorted at hm ih
    rw [List.pairwise_cons] at hm
    have hgt : ∀ x y, (x, y) ∈ m → q < x := fun x y h => hm.1 (x, y) h
    unfold mapSet
    split
    · rename_i hlt
      have h1 : (k', b') ∈ (q, c) :: m → k' ≠ k := by
        intro h
        rcases List.mem_cons.1 h with h | h
        · simp at h; omega
        · have := hgt _ _ h; omega
      rw [List.mem_cons]
      constructor
      · rintro (h | h)
        · simp at h; exact Or.inl h
        · exact Or.inr ⟨h1 h, h⟩
      · rintro (h | h)
        · left; simp [h]
        · exact Or.inr h.2
    · split
      · rename_i _ heq
        subst heq
        have h1 : (k', b') ∈ m → k' ≠ k := by
          intro h
          have := hgt _ _ h; omega
        simp only [List.mem_cons, Prod.mk.injEq]
        constructor
        · rintro (h | h)
          · exact Or.inl h
          · exact Or.inr ⟨h1 h, Or.inr h⟩
        · rintro (h | ⟨h, h' | h'⟩)
          · exact Or.inl h
          · exact absurd h'.1 h
          · exact Or.inr h'
      · rename_i h1 h2
        simp only [List.mem_cons, Prod.mk.injEq, ih hm.2]
        constructor
        · rintro (h | h | h)
          · right; exact ⟨by omega, Or.inl h⟩
          · exact Or.inl h
          · exact Or.inr ⟨h.1, Or.inr h.2⟩
        · rintro (h | ⟨h, h' | h'⟩)
          · exact Or.inr (Or.inl h)
          · exact Or.inl h'
          · exact Or.inr (Or.inr ⟨h, h'⟩)

theorem mapSet_sorted (m : List (Nat × Bool)) (hm : KeysSorted m) (k : Nat) (b : Bool) :
    KeysSorted (mapSet m k b) := by
  induction m with
  | nil => simp [mapSet, KeysSorted]
  | cons p m ih =>
    obtain ⟨q, c⟩ := p
    have hm' := hm
    unfold KeysSorted at hm ih ⊢
    rw [List.pairwise_cons] at hm
    unfold mapSet
    split
    · rename_i hlt
      rw [List.pairwise_cons, List.pairwise_cons]
      refine ⟨?_, hm⟩
      intro x hx
      rcases List.mem_cons.1 hx with rfl | hx
      · exact hlt
      · have := hm.1 x hx
        simp only at *; omega
    · split
      · rename_i _ heq
        subst heq
        rw [List.pairwise_cons]
        exact hm
      · rename_i h1 h2
        rw [List.pairwise_cons]
        refine ⟨?_, ih hm.2⟩
        rintro ⟨x, y⟩ hx
        rcases (mem_mapSet m hm.2 k b x y).1 hx with h | h
        · simp only; omega
        · exact hm.1 _ h.2

theorem foldl_mapSet (b : Bool) (its : List Nat) : ∀ m, KeysSorted m →
    KeysSorted (its.foldl (fun m it => mapSet m it b) m) ∧
    ∀ k' b', (k', b') ∈ its.foldl (fun m it => mapSet m it b) m ↔
      (k' ∈ its ∧ b' = b) ∨ (k' ∉ its ∧ (k', b') ∈ m) := by
  induction its with
  | nil => intro m hm; exact ⟨hm, by simp⟩
  | cons it its ih =>
    intro m hm
    simp only [List.foldl_cons]
    have h1 := mapSet_sorted m hm it b
    refine ⟨(ih _ h1).1, ?_⟩
    intro k' b'
    rw [(ih _ h1).2, mem_mapSet m hm]
    simp only [List.mem_cons]
    by_cases hk : k' = it
    · subst hk
      by_cases hi : k' ∈ its <;> simp [hi]
    · by_cases hi : k' ∈ its <;> simp [hi, hk]

theorem allIters_sorted (its used : List Nat) : KeysSorted (allIters its used) := by
  unfold allIters
  exact (foldl_mapSet true its _ (foldl_mapSet false used [] (by simp [KeysSorted])).1).1

theorem mem_allIters (its used : List Nat) (k : Nat) (b : Bool) :
    (k, b) ∈ allIters its used ↔ (k ∈ its ∧ b = true) ∨ (k ∉ its ∧ k ∈ used ∧ b = false) := by
  unfold allIters
  have h := foldl_mapSet false used [] (by simp [KeysSorted])
  rw [(foldl_mapSet true its _ h.1).2, h.2]
  simp

/-- what a run knows about the processed part `pre` of the map -/
structure RunOK (r : Run) (pre : List (Nat × Bool)) : Prop where
  le : r.min ≤ r.max
  keys : ∀ k, (r.min ≤ k ∧ k ≤ r.max) ↔ ∃ b, (k, b) ∈ pre
  news : (r.minNew = none ∧ r.maxNew = none ∧ ∀ k, (k, true) ∉ pre) ∨
    (∃ a b, r.minNew = some a ∧ r.maxNew = some b ∧ (a, true) ∈ pre ∧ (b, true) ∈ pre ∧
      ∀ k, (k, true) ∈ pre → a ≤ k ∧ k ≤ b)

theorem runStart_ok (k : Nat) (b : Bool) : RunOK (runStart k b) [(k, b)] := by
  refine ⟨Nat.le_refl _, ?_, ?_⟩
  · intro j
    simp only [runStart, List.mem_singleton, Prod.mk.injEq, exists_and_left, exists_eq, and_true]
    omega
  · cases b
    · left; simp [runStart]
    · right; refine ⟨k, k, ?_⟩
      simp only [runStart, if_true, List.mem_singleton, Prod.mk.injEq, and_true, true_and]
      intro j h; omega

theorem runGo_ok (l : List (Nat × Bool)) : ∀ (r : Run) (pre : List (Nat × Bool)),
    RunOK r pre → KeysSorted l → (∀ p ∈ l, r.max < p.1) →
    ∃ q, l = q ++ (runGo r l).2 ∧ RunOK (runGo r l).1 (pre ++ q) := by
  induction l with
  | nil => intro r pre h _ _; exact ⟨[], by simp [runGo], by simpa [runGo] using h⟩
  | cons p l ih =>
    obtain ⟨k, b⟩ := p
    intro r pre h hs hgt
    unfold KeysSorted at hs ih
    rw [List.pairwise_cons] at hs
    unfold runGo
    split
    · exact ⟨[], by simp, by simpa using h⟩
    · rename_i hk
      have hk : k = r.max + 1 := Classical.byContradiction hk
      have hle := h.le
      obtain ⟨q, hq, hok⟩ := ih (Run.mk r.min k
                 (if b then (if r.minNew = none then some k else r.minNew) else r.minNew)
                 (if b then some k else r.maxNew)) (pre ++ [(k, b)]) (by
          refine ⟨by simp only; omega, ?_, ?_⟩
          · intro j
            simp only [List.mem_append, List.mem_singleton, Prod.mk.injEq]
            constructor
            · rintro ⟨h1, h2⟩
              by_cases hj : j = k
              · exact ⟨b, Or.inr ⟨hj, rfl⟩⟩
              · obtain ⟨c, hc⟩ := (h.keys j).1 ⟨h1, by omega⟩
                exact ⟨c, Or.inl hc⟩
            · rintro ⟨c, hc | hc⟩
              · have := (h.keys j).2 ⟨c, hc⟩
                omega
              · omega
          · cases b
            · simp only [Bool.false_eq_true, if_false, List.mem_append, List.mem_singleton,
                Prod.mk.injEq, Bool.true_eq_false, and_false, or_false]
              exact h.news
            · right
              simp only [if_true, List.mem_append, List.mem_singleton, Prod.mk.injEq, and_true]
              rcases h.news with ⟨h1, h2, h3⟩ | ⟨a, c, h1, h2, h3, h4, h5⟩
              · refine ⟨k, k, by simp [h1], rfl, Or.inr rfl, Or.inr rfl, ?_⟩
                rintro j (hj | hj)
                · exact absurd hj (h3 j)
                · omega
              · refine ⟨a, k, by simp [h1], rfl, Or.inl h3, Or.inr rfl, ?_⟩
                have ha := (h.keys a).2 ⟨true, h3⟩
                rintro j (hj | hj)
                · have := h5 j hj
                  have := (h.keys j).2 ⟨true, hj⟩
                  omega
                · omega) hs.2 (by
          intro p hp
          exact hs.1 p hp)
      refine ⟨(k, b) :: q, ?_, ?_⟩
      · rw [List.cons_append, ← hq]
      · simpa using hok

theorem runInfo_covers (maxIter : Nat) (hmax : maxIter ≤ sizeMax) (r : Run)
    (pre : List (Nat × Bool)) (h : RunOK r pre) (hle : ∀ p ∈ pre, p.1 ≤ maxIter) (i : Nat) :
    ((i, true) ∈ pre → Covers (runInfo maxIter r) i) ∧
    (Covers (runInfo maxIter r) i → i ≤ maxIter → ∃ b, (i, b) ∈ pre) := by
  unfold runInfo
  rcases h.news with ⟨h1, h2, h3⟩ | ⟨a, c, h1, h2, h3, h4, h5⟩
  · simp only [h1, h2]
    exact ⟨fun hi => absurd hi (h3 i), fun hi => absurd hi (covers_nil i)⟩
  · simp only [h1, h2]
    have ha := (h.keys a).2 ⟨true, h3⟩
    have hc := (h.keys c).2 ⟨true, h4⟩
    have hcm := hle _ h4
    simp only at hcm
    constructor
    · intro hi
      have h6 := h5 i hi
      have h7 := (h.keys i).2 ⟨true, hi⟩
      split
      · rw [covers_cons]; left; simp only; omega
      · rw [covers_cons]; left; simp only; constructor
        · split <;> omega
        · split
          · omega
          · omega
    · intro hi him
      rw [← h.keys]
      split at hi
      · rw [covers_cons] at hi
        rcases hi with hi | hi
        · simp only at hi; omega
        · exact absurd hi (covers_nil i)
      · rw [covers_cons] at hi
        rcases hi with hi | hi
        · simp only at hi
          obtain ⟨h8, h9⟩ := hi
          split at h8 <;> split at h9 <;> omega
        · exact absurd hi (covers_nil i)

theorem condScan_covers (maxIter : Nat) (hmax : maxIter ≤ sizeMax) (i : Nat) (n : Nat) :
    ∀ l : List (Nat × Bool), l.length ≤ n → KeysSorted l → (∀ p ∈ l, p.1 ≤ maxIter) →
    ((i, true) ∈ l → Covers (condScan maxIter l) i) ∧
    (Covers (condScan maxIter l) i → i ≤ maxIter → ∃ b, (i, b) ∈ l) := by
  induction n with
  | zero =>
    intro l hl _ _
    have : l = [] := List.length_eq_zero_iff.1 (by omega)
    subst this
    simp [condScan, covers_nil]
  | succ n ih =>
    intro l hl hs hle
    match l with
    | [] => simp [condScan, covers_nil]
    | (k, b) :: rest =>
      unfold KeysSorted at hs ih
      rw [List.pairwise_cons] at hs
      obtain ⟨q, hq, hok⟩ := runGo_ok rest (runStart k b) [(k, b)] (runStart_ok k b) hs.2
        (fun p hp => hs.1 p hp)
      unfold condScan
      generalize hr : (runGo (runStart k b) rest).1 = r at *
      generalize hrest : (runGo (runStart k b) rest).2 = rest' at *
      have hlen : rest'.length ≤ n := by
        have := runGo_length (runStart k b) rest
        rw [hrest] at this
        simp only [List.length_cons] at hl; omega
      have hle' : ∀ p ∈ [(k, b)] ++ q, p.1 ≤ maxIter := by
        intro p hp
        apply hle
        rw [hq]
        simp only [List.cons_append, List.nil_append, List.mem_cons, List.mem_append] at hp ⊢
        rcases hp with h | h
        · exact Or.inl h
        · exact Or.inr (Or.inl h)
      have h1 := runInfo_covers maxIter hmax r _ hok hle' i
      have hs' : rest'.Pairwise (fun a b => a.1 < b.1) := by
        have := hs.2; rw [hq] at this
        exact (List.pairwise_append.1 this).2.1
      have h2 := ih rest' hlen hs' (by
        intro p hp; apply hle; rw [hq]; simp [hp])
      rw [covers_append]
      have hmem : ∀ c, (i, c) ∈ (k, b) :: rest ↔ (i, c) ∈ [(k, b)] ++ q ∨ (i, c) ∈ rest' := by
        intro c; rw [hq]; simp [or_assoc]
      constructor
      · intro hi
        rcases (hmem true).1 hi with h | h
        · exact Or.inl (h1.1 h)
        · exact Or.inr (h2.1 h)
      · rintro (hi | hi) him
        · obtain ⟨c, hc⟩ := h1.2 hi him
          exact ⟨c, (hmem c).2 (Or.inl hc)⟩
        · obtain ⟨c, hc⟩ := h2.2 hi him
          exact ⟨c, (hmem c).2 (Or.inr hc)⟩

theorem rangeCond_eval (r : Nat × Nat) (hr : r.1 ≤ r.2) (j : Nat) (hj : j ≤ sizeMax) :
    (rangeCond r).eval j = true ↔ r.1 ≤ j ∧ j ≤ r.2 := by
  unfold rangeCond
  split
  · simp only [CCond.eval, beq_iff_eq]; omega
  · split
    · simp only [CCond.eval, decide_eq_true_eq]; omega
    · split
      · simp only [CCond.eval, decide_eq_true_eq]; omega
      · split
        · simp only [CCond.eval, Bool.or_eq_true, beq_iff_eq]; omega
        · simp only [CCond.eval, Bool.and_eq_true, decide_eq_true_eq]

theorem printCond_eval (j : Nat) (hj : j ≤ sizeMax) (rs : List (Nat × Nat)) :
    (∀ r ∈ rs, r.1 ≤ r.2) → rs ≠ [] →
    ∃ e, printCond rs = some e ∧ (e.eval j = true ↔ Covers rs j) := by
  induction rs with
  | nil => intro _ h; exact absurd rfl h
  | cons r rs ih =>
    intro hv _
    cases rs with
    | nil =>
      refine ⟨rangeCond r, rfl, ?_⟩
      rw [rangeCond_eval r (hv r (by simp)) j hj, covers_cons]
      simp [covers_nil]
    | cons s rs =>
      obtain ⟨e, he, hev⟩ := ih (fun x hx => hv x (List.mem_cons_of_mem _ hx)) (by simp)
      refine ⟨.or (rangeCond r) e, ?_, ?_⟩
      · rw [printCond, he]; rfl
        simp
      · rw [CCond.eval, Bool.or_eq_true, rangeCond_eval r (hv r (by simp)) j hj, hev,
          covers_cons r]

theorem runInfo_valid (maxIter : Nat) (hmax : maxIter ≤ sizeMax) (r : Run)
    (pre : List (Nat × Bool)) (h : RunOK r pre) (hle : ∀ p ∈ pre, p.1 ≤ maxIter) :
    ∀ x ∈ runInfo maxIter r, x.1 ≤ x.2 := by
  unfold runInfo
  rcases h.news with ⟨h1, h2, h3⟩ | ⟨a, c, h1, h2, h3, h4, h5⟩
  · simp [h1, h2]
  · simp only [h1, h2]
    have hac := h5 a h3
    have hcm := hle _ h4
    simp only at hcm
    have ha := (h.keys a).2 ⟨true, h3⟩
    intro x hx
    split at hx
    · rw [List.mem_singleton] at hx; subst hx; simp only; omega
    · rw [List.mem_singleton] at hx; subst hx; simp only
      split <;> split <;> omega

theorem condScan_valid (maxIter : Nat) (hmax : maxIter ≤ sizeMax) (n : Nat) :
    ∀ l : List (Nat × Bool), l.length ≤ n → KeysSorted l → (∀ p ∈ l, p.1 ≤ maxIter) →
    ∀ x ∈ condScan maxIter l, x.1 ≤ x.2 := by
  induction n with
  | zero =>
    intro l hl _ _
    have : l = [] := List.length_eq_zero_iff.1 (by omega)
    subst this
    simp [condScan]
  | succ n ih =>
    intro l hl hs hle
    match l with
    | [] => simp [condScan]
    | (k, b) :: rest =>
      unfold KeysSorted at hs ih
      rw [List.pairwise_cons] at hs
      obtain ⟨q, hq, hok⟩ := runGo_ok rest (runStart k b) [(k, b)] (runStart_ok k b) hs.2
        (fun p hp => hs.1 p hp)
      unfold condScan
      generalize hr : (runGo (runStart k b) rest).1 = r at *
      generalize hrest : (runGo (runStart k b) rest).2 = rest' at *
      have hlen : rest'.length ≤ n := by
        have := runGo_length (runStart k b) rest
        rw [hrest] at this
        simp only [List.length_cons] at hl; omega
      have hle' : ∀ p ∈ [(k, b)] ++ q, p.1 ≤ maxIter := by
        intro p hp
        apply hle
        rw [hq]
        simp only [List.cons_append, List.nil_append, List.mem_cons, List.mem_append] at hp ⊢
        rcases hp with h | h
        · exact Or.inl h
        · exact Or.inr (Or.inl h)
      have hs' : rest'.Pairwise (fun a b => a.1 < b.1) := by
        have := hs.2; rw [hq] at this
        exact (List.pairwise_append.1 this).2.1
      intro x hx
      rcases List.mem_append.1 hx with hx | hx
      · exact runInfo_valid maxIter hmax r _ hok hle' x hx
      · exact ih rest' hlen hs' (by
          intro p hp; apply hle; rw [hq]; simp [hp]) x hx

/-- the whole condition of one branch -/
theorem createIndexCondition_spec (its used : List Nat) (maxIter : Nat) (hmax : maxIter ≤ sizeMax)
    (hits : ∀ i ∈ its, i ≤ maxIter) (hused : ∀ i ∈ used, i ≤ maxIter) (hne : its ≠ [])
    (j : Nat) (hj : j ≤ maxIter) :
    ∃ e, printCond (createIndexCondition its used maxIter) = some e ∧
      (j ∈ its → e.eval j = true) ∧ (j ∉ its → j ∉ used → e.eval j = false) := by
  have hs := allIters_sorted its used
  have hle : ∀ p ∈ allIters its used, p.1 ≤ maxIter := by
    rintro ⟨k, b⟩ hp
    rcases (mem_allIters its used k b).1 hp with h | h
    · exact hits k h.1
    · exact hused k h.2.1
  have hcov := fun i => condScan_covers maxIter hmax i _ _ (Nat.le_refl _) hs hle
  have hval := condScan_valid maxIter hmax _ _ (Nat.le_refl _) hs hle
  obtain ⟨e, he, hev⟩ := printCond_eval j (Nat.le_trans hj hmax) (condScan maxIter (allIters its used))
    hval (by
      obtain ⟨i, hi⟩ := List.exists_mem_of_ne_nil its hne
      have := (hcov i).1 ((mem_allIters its used i true).2 (Or.inl ⟨hi, rfl⟩))
      intro h; rw [h] at this; exact covers_nil i this)
  refine ⟨e, he, ?_, ?_⟩
  · intro hi
    exact hev.2 ((hcov j).1 ((mem_allIters its used j true).2 (Or.inl ⟨hi, rfl⟩)))
  · intro h1 h2
    cases he : e.eval j with
    | false => rfl
    | true =>
      obtain ⟨b, hb⟩ := (hcov j).2 (hev.1 he) hj
      rcases (mem_allIters its used j b).1 hb with h | h
      · exact absurd h.1 h1
      · exact absurd h.2.1 h2

/-! ### chains -/

theorem mem_setInsert (x k : Nat) (m : List Nat) : x ∈ setInsert m k ↔ x = k ∨ x ∈ m := by
  induction m with
  | nil => simp [setInsert]
  | cons a m ih =>
    unfold setInsert
    split
    · simp
    · split
      · rename_i h; subst h; simp
      · simp only [List.mem_cons, ih]
        constructor
        · rintro (h | h | h) <;> simp [h]
        · rintro (h | h | h) <;> simp [h]

theorem length_setInsert (k : Nat) (m : List Nat) (h : k ∉ m) :
    (setInsert m k).length = m.length + 1 := by
  induction m with
  | nil => simp [setInsert]
  | cons a m ih =>
    unfold setInsert
    simp only [List.mem_cons, not_or] at h
    split
    · simp
    · split
      · rename_i h'; exact absurd h' h.1
      · simp [ih h.2]

theorem foldl_setInsert (its : List Nat) : ∀ m : List Nat, its.Nodup → (∀ x ∈ its, x ∉ m) →
    (its.foldl setInsert m).length = m.length + its.length ∧
    ∀ x, x ∈ its.foldl setInsert m ↔ x ∈ m ∨ x ∈ its := by
  induction its with
  | nil => intro m _ _; simp
  | cons a its ih =>
    intro m hnd hd
    rw [List.nodup_cons] at hnd
    have h := ih (setInsert m a) hnd.2 (by
      intro x hx
      rw [mem_setInsert]
      rintro (h | h)
      · subst h; exact hnd.1 hx
      · exact hd x (List.mem_cons_of_mem _ hx) h)
    simp only [List.foldl_cons]
    refine ⟨?_, ?_⟩
    · rw [h.1, length_setInsert a m (hd a (by simp))]
      simp; omega
    · intro x
      rw [h.2, mem_setInsert]
      simp only [List.mem_cons]
      constructor
      · rintro ((h | h) | h) <;> simp [h]
      · rintro (h | h | h) <;> simp [h]

theorem runChain_spec (maxIter nLocal : Nat) (hmax : maxIter ≤ sizeMax) (L : List Nat)
    (hLn : L.length = nLocal) (hLm : ∀ i ∈ L, i ≤ maxIter)
    (j : Nat) (hj : j ∈ L) (groups : List (List Nat)) :
    ∀ (first : Bool) (used : List Nat) (chain : List Branch),
      buildChain maxIter nLocal first used groups = some chain →
      (used ++ groups.flatten).Nodup → (∀ g ∈ groups, g ≠ []) →
      (∀ i ∈ used ++ groups.flatten, i ∈ L) → j ∉ used →
      ((∀ p g, groups[p]? = some g → j ∈ g → runChain j chain = some p) ∧
       ((∀ g ∈ groups, j ∉ g) → runChain j chain = none)) := by
  induction groups with
  | nil =>
    intro first used chain hb _ _ _ _
    simp [buildChain] at hb
    subst hb
    exact ⟨by simp, fun _ => rfl⟩
  | cons g groups ih =>
    intro first used chain hb hnd hne hsub hju
    have hnd' := hnd
    rw [List.flatten_cons, List.nodup_append] at hnd'
    obtain ⟨hu, hg, hdis⟩ := hnd'
    rw [List.nodup_append] at hg
    obtain ⟨hgn, hrn, hgr⟩ := hg
    unfold buildChain at hb
    split at hb
    · -- else
      rename_i hfull
      split at hb
      · simp at hb
      · -- every local iteration is already accounted for
        have hall : ∀ i ∈ L, i ∈ used ++ g := by
          have hs : (used ++ g).Subperm L := by
            apply List.subperm_of_subset
            · rw [List.nodup_append]
              exact ⟨hu, hgn, fun a ha b hb => hdis a ha b (List.mem_append_left _ hb)⟩
            · intro x hx
              apply hsub
              rw [List.flatten_cons]
              rcases List.mem_append.1 hx with h | h
              · exact List.mem_append_left _ h
              · exact List.mem_append_right _ (List.mem_append_left _ h)
          have hp : (used ++ g).Perm L := hs.perm_of_length_le (by
            rw [List.length_append, hLn, hfull]; exact Nat.le_refl _)
          intro i hi
          exact hp.mem_iff.2 hi
        have hjg : j ∈ g := by
          rcases List.mem_append.1 (hall j hj) with h | h
          · exact absurd h hju
          · exact h
        have hrun : runChain j chain = some 0 := by
          rw [Option.map_eq_some_iff] at hb
          obtain ⟨c, _, rfl⟩ := hb
          rfl
        constructor
        · intro p g' hp hjg'
          cases p with
          | zero => exact hrun
          | succ p =>
            exfalso
            simp only [List.getElem?_cons_succ] at hp
            have hm := List.mem_of_getElem? hp
            exact hgr j hjg j (List.mem_flatten.2 ⟨g', hm, hjg'⟩) rfl
        · intro h
          exact absurd hjg (h g (by simp))
    · rename_i hfull
      rw [Option.map_eq_some_iff] at hb
      obtain ⟨c, hc, rfl⟩ := hb
      have hf := foldl_setInsert g used hgn (fun x hx hxu =>
        hdis x hxu x (List.mem_append_left _ hx) rfl)
      have hcond := createIndexCondition_spec g used maxIter hmax
        (fun i hi => hLm i (hsub i (List.mem_append_right _ (by simp [hi]))))
        (fun i hi => hLm i (hsub i (List.mem_append_left _ hi)))
        (hne g (by simp)) j (hLm j hj)
      obtain ⟨e, he, he1, he2⟩ := hcond
      by_cases hjg : j ∈ g
      · have hrun : runChain j (⟨g, some (createIndexCondition g used maxIter)⟩ :: c) = some 0 := by
          simp [runChain, he, he1 hjg]
        constructor
        · intro p g' hp hjg'
          cases p with
          | zero => exact hrun
          | succ p =>
            exfalso
            simp only [List.getElem?_cons_succ] at hp
            have hm := List.mem_of_getElem? hp
            exact hgr j hjg j (List.mem_flatten.2 ⟨g', hm, hjg'⟩) rfl
        · intro h
          exact absurd hjg (h g (by simp))
      · have hrec := ih false (g.foldl setInsert used) c hc (by
            rw [List.nodup_append]
            refine ⟨?_, hrn, ?_⟩
            · have hnd2 : (used ++ g).Nodup := by
                rw [List.nodup_append]
                exact ⟨hu, hgn, fun a ha b hb => hdis a ha b (List.mem_append_left _ hb)⟩
              have hsp : (used ++ g).Subperm (g.foldl setInsert used) := by
                apply List.subperm_of_subset hnd2
                intro x hx
                rw [hf.2]; exact List.mem_append.1 hx
              exact ((hsp.perm_of_length_le (by
                rw [hf.1, List.length_append]; exact Nat.le_refl _)).nodup_iff).1 hnd2
            · intro a ha b hb hab
              rcases (hf.2 a).1 ha with h | h
              · exact hdis a h b (List.mem_append_right _ hb) hab
              · exact hgr a h b hb hab)
          (fun g' hg' => hne g' (List.mem_cons_of_mem _ hg'))
          (by
            intro i hi
            apply hsub
            rw [List.flatten_cons]
            rcases List.mem_append.1 hi with h | h
            · rcases (hf.2 i).1 h with h | h
              · exact List.mem_append_left _ h
              · exact List.mem_append_right _ (List.mem_append_left _ h)
            · exact List.mem_append_right _ (List.mem_append_right _ h))
          (by rw [hf.2]; rintro (h | h); exacts [hju h, hjg h])
        have hstep : runChain j (⟨g, some (createIndexCondition g used maxIter)⟩ :: c) =
            (runChain j c).map (· + 1) := by
          simp [runChain, he, he2 hjg hju]
        rw [hstep]
        constructor
        · intro p g' hp hjg'
          cases p with
          | zero =>
            simp only [List.getElem?_cons_zero, Option.some.injEq] at hp
            subst hp; exact absurd hjg' hjg
          | succ p =>
            simp only [List.getElem?_cons_succ] at hp
            rw [hrec.1 p g' hp hjg']; rfl
        · intro h
          rw [hrec.2 (fun g' hg' => h g' (List.mem_cons_of_mem _ hg'))]; rfl

theorem buildChain_some (maxIter nLocal : Nat) (groups : List (List Nat)) :
    ∀ used, ∃ c, buildChain maxIter nLocal false used groups = some c := by
  induction groups with
  | nil => intro used; exact ⟨[], rfl⟩
  | cons g groups ih =>
    intro used
    unfold buildChain
    split
    · obtain ⟨c, hc⟩ := ih used
      exact ⟨_, by simp [hc]; rfl⟩
    · obtain ⟨c, hc⟩ := ih (g.foldl setInsert used)
      exact ⟨_, by simp [hc]; rfl⟩

end Verif.Ranges
