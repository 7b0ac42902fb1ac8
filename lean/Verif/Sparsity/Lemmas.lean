import Verif.Sparsity.Model
namespace Verif.Sparsity

theorem mem_setInsert {j k : Nat} {l : List Nat} : k ∈ setInsert j l ↔ k = j ∨ k ∈ l := by
  induction l with
  | nil => simp [setInsert]
  | cons a l ih =>
    unfold setInsert
    split
    · simp
    · split
      · rename_i h; subst h; simp
      · simp only [List.mem_cons, ih]
        exact or_left_comm

theorem sorted_setInsert {j : Nat} {l : List Nat} (h : l.Pairwise (· < ·)) :
    (setInsert j l).Pairwise (· < ·) := by
  induction l with
  | nil => simp [setInsert]
  | cons a l ih =>
    rw [List.pairwise_cons] at h
    unfold setInsert
    split
    · rename_i hj
      rw [List.pairwise_cons, List.pairwise_cons]
      refine ⟨?_, h.1, h.2⟩
      intro k hk
      rcases List.mem_cons.1 hk with rfl | hk
      · exact hj
      · exact Nat.lt_trans hj (h.1 k hk)
    · split
      · rw [List.pairwise_cons]; exact h
      · rename_i h1 h2
        rw [List.pairwise_cons]
        refine ⟨?_, ih h.2⟩
        intro k hk
        rcases mem_setInsert.1 hk with rfl | hk
        · omega
        · exact h.1 k hk

/-- two strictly increasing lists with the same elements are equal -/
theorem sorted_ext {l l' : List Nat} (h : l.Pairwise (· < ·)) (h' : l'.Pairwise (· < ·))
    (he : ∀ k, k ∈ l ↔ k ∈ l') : l = l' := by
  induction l generalizing l' with
  | nil =>
    cases l' with
    | nil => rfl
    | cons b l' => exact absurd ((he b).2 (by simp)) (by simp)
  | cons a l ih =>
    cases l' with
    | nil => exact absurd ((he a).1 (by simp)) (by simp)
    | cons b l' =>
      rw [List.pairwise_cons] at h h'
      have hab : a = b := by
        rcases List.mem_cons.1 ((he a).1 (by simp)) with h1 | h1
        · exact h1
        · rcases List.mem_cons.1 ((he b).2 (by simp)) with h2 | h2
          · exact h2.symm
          · have := h'.1 a h1; have := h.1 b h2; omega
      subst hab
      congr 1
      refine ih h.2 h'.2 ?_
      intro k
      constructor
      · intro hk
        rcases List.mem_cons.1 ((he k).1 (List.mem_cons_of_mem _ hk)) with h1 | h1
        · have := h.1 k hk; omega
        · exact h1
      · intro hk
        rcases List.mem_cons.1 ((he k).2 (List.mem_cons_of_mem _ hk)) with h1 | h1
        · have := h'.1 k hk; omega
        · exact h1

/-- `f` adds the entries `P` to any pattern with `L` rows -/
def Adds (L : Nat) (f : Pattern → Option Pattern) (P : Nat → Nat → Prop) : Prop :=
  ∀ s : Pattern, s.length = L → ∃ s', f s = some s' ∧ s'.length = L ∧ (Sorted s → Sorted s') ∧
    ∀ i j, Entry s' i j ↔ Entry s i j ∨ P i j

theorem Adds.congr {L : Nat} {f : Pattern → Option Pattern} {P Q : Nat → Nat → Prop} (h : Adds L f P)
    (hpq : ∀ i j, P i j ↔ Q i j) : Adds L f Q := by
  intro s hs
  obtain ⟨s', h1, h2, h3, h4⟩ := h s hs
  exact ⟨s', h1, h2, h3, fun i j => by rw [h4, hpq]⟩

theorem adds_pure (L : Nat) : Adds L (fun r => some r) (fun _ _ => False) :=
  fun s hs => ⟨s, rfl, hs, id, by simp⟩

theorem adds_foldlM {β : Type} {L : Nat} (f : Pattern → β → Option Pattern) (P : β → Nat → Nat → Prop)
    (l : List β) (h : ∀ b ∈ l, Adds L (fun r => f r b) (P b)) :
    Adds L (fun r => l.foldlM f r) (fun i j => ∃ b ∈ l, P b i j) := by
  induction l with
  | nil => intro s hs; exact ⟨s, rfl, hs, id, by simp⟩
  | cons b l ih =>
    intro s hs
    obtain ⟨s1, h1, h2, h3, h4⟩ := h b (by simp) s hs
    obtain ⟨s2, k1, k2, k3, k4⟩ := ih (fun c hc => h c (List.mem_cons_of_mem _ hc)) s1 h2
    simp only at h1 k1
    refine ⟨s2, ?_, k2, fun hso => k3 (h3 hso), ?_⟩
    · simp only [List.foldlM_cons, h1]
      exact k1
    · intro i j
      rw [k4, h4]
      simp only [List.mem_cons, exists_eq_or_imp, or_assoc]

theorem adds_insertAt {L i0 j0 : Nat} (h : i0 < L) :
    Adds L (fun r => insertAt r i0 j0) (fun i j => i = i0 ∧ j = j0) := by
  intro s hs
  have hi : i0 < s.length := by omega
  have hg : s[i0]? = some s[i0] := List.getElem?_eq_getElem hi
  refine ⟨s.set i0 (setInsert j0 s[i0]), by simp [insertAt, hg], by simp [hs], ?_, ?_⟩
  · intro hso row hr
    rcases List.mem_or_eq_of_mem_set hr with hr | hr
    · exact hso row hr
    · subst hr
      exact sorted_setInsert (hso _ (List.getElem_mem hi))
  · intro i j
    unfold Entry
    rw [List.getElem?_set]
    by_cases hii : i0 = i
    · subst hii
      simp only [if_true, hi, hg, Option.some.injEq]
      constructor
      · rintro ⟨row, rfl, hj⟩
        rcases mem_setInsert.1 hj with h | h
        · exact Or.inr ⟨trivial, h⟩
        · exact Or.inl ⟨_, rfl, h⟩
      · rintro (⟨row, rfl, hj⟩ | ⟨_, hj⟩)
        · exact ⟨_, rfl, mem_setInsert.2 (Or.inr hj)⟩
        · exact ⟨_, rfl, mem_setInsert.2 (Or.inl hj)⟩
    · rw [if_neg hii]
      constructor
      · exact Or.inl
      · rintro (h | ⟨h, _⟩)
        · exact h
        · exact absurd h.symm hii

theorem adds_cond {L i0 j0 : Nat} (h : i0 < L) (c : Bool) :
    Adds L (fun r => if c = true then insertAt r i0 j0 else some r)
      (fun i j => c = true ∧ i = i0 ∧ j = j0) := by
  cases c with
  | true => exact (adds_insertAt h).congr (by simp)
  | false => exact (adds_pure L).congr (by simp)

theorem entry_of_get {p : Pattern} {i : Nat} {row : List Nat} (h : p[i]? = some row) (j : Nat) :
    Entry p i j ↔ j ∈ row := by
  unfold Entry
  rw [h]
  simp

theorem Dims.get {p : Pattern} {m n i : Nat} (h : Dims p m n) (hi : i < m) :
    ∃ row, p[i]? = some row ∧ ∀ j ∈ row, j < n := by
  have hl : i < p.length := Nat.lt_of_lt_of_le hi h.1
  have hg := List.getElem?_eq_getElem hl
  exact ⟨_, hg, fun j hj => h.2 i j hi ((entry_of_get hg j).2 hj)⟩

theorem adds_addTrans {a : Pattern} {m L : Nat} (ha : Dims a m L) :
    Adds L (fun r => addTrans a m r) (fun i j => j < m ∧ Entry a j i) := by
  unfold addTrans
  refine (adds_foldlM _ (fun i0 i j => j = i0 ∧ Entry a i0 i) _ ?_).congr ?_
  · intro i0 hi0
    rw [List.mem_range] at hi0
    obtain ⟨row, hg, hlt⟩ := ha.get hi0
    simp only [hg, Option.bind_eq_bind, Option.bind_some]
    refine (adds_foldlM _ (fun j0 i j => i = j0 ∧ j = i0) _ ?_).congr ?_
    · intro j0 hj0; exact adds_insertAt (hlt j0 hj0)
    · intro i j
      rw [entry_of_get hg]
      constructor
      · rintro ⟨b, hb, rfl, rfl⟩; exact ⟨rfl, hb⟩
      · rintro ⟨rfl, hb⟩; exact ⟨_, hb, rfl, rfl⟩
  · intro i j
    simp only [List.mem_range]
    constructor
    · rintro ⟨b, hb, rfl, h⟩; exact ⟨hb, h⟩
    · rintro ⟨hb, h⟩; exact ⟨j, hb, rfl, h⟩

theorem transpose_eq (p : Pattern) (m n : Nat) :
    transpose p m n = addTrans p m (List.replicate n []) := rfl

theorem entry_replicate {n i j : Nat} : ¬ Entry (List.replicate n []) i j := by
  rintro ⟨row, h, hj⟩
  have := List.mem_of_getElem? h
  rw [List.mem_replicate] at this
  rw [this.2] at hj
  cases hj

theorem transpose_spec {p : Pattern} {m n : Nat} (h : Dims p m n) :
    ∃ t, transpose p m n = some t ∧ t.length = n ∧ Sorted t ∧ ∀ i j, Entry t i j ↔ j < m ∧ Entry p j i := by
  obtain ⟨t, h1, h2, h3, h4⟩ := adds_addTrans h (List.replicate n []) (by simp)
  refine ⟨t, h1, h2, h3 ?_, fun i j => ?_⟩
  · intro row hr
    rw [List.mem_replicate] at hr
    rw [hr.2]; exact List.Pairwise.nil
  · rw [h4]
    constructor
    · rintro (h | h)
      · exact absurd h entry_replicate
      · exact h
    · exact Or.inr

theorem mem_foldl_insert {row l : List Nat} {k : Nat} :
    k ∈ l.foldl (fun s j => setInsert j s) row ↔ k ∈ row ∨ k ∈ l := by
  induction l generalizing row with
  | nil => simp
  | cons a l ih =>
    simp only [List.foldl_cons, ih, mem_setInsert, List.mem_cons]
    rw [or_assoc]
    exact or_left_comm

theorem sorted_foldl_insert {row l : List Nat} (h : row.Pairwise (· < ·)) :
    (l.foldl (fun s j => setInsert j s) row).Pairwise (· < ·) := by
  induction l generalizing row with
  | nil => exact h
  | cons a l ih => exact ih (sorted_setInsert h)

/-- addition needs the added pattern to have sorted rows because an empty row is replaced -/
theorem adds_addMatrix {a : Pattern} {m L : Nat} (hl : m ≤ a.length) (hL : m ≤ L) (hs : Sorted a) :
    Adds L (fun r => addMatrix a m r) (fun i j => i < m ∧ Entry a i j) := by
  unfold addMatrix
  refine (adds_foldlM _ (fun i0 i j => i = i0 ∧ Entry a i0 j) _ ?_).congr ?_
  · intro i0 hi0 s hsl
    rw [List.mem_range] at hi0
    have h1 : i0 < s.length := by omega
    have h2 : i0 < a.length := by omega
    have g1 := List.getElem?_eq_getElem h1
    have g2 := List.getElem?_eq_getElem h2
    have key : ∀ (new : List Nat), (s[i0].Pairwise (· < ·) → new.Pairwise (· < ·)) →
        (∀ k, k ∈ new ↔ k ∈ s[i0] ∨ k ∈ a[i0]) →
        (Sorted s → Sorted (s.set i0 new)) ∧
        ∀ i j, Entry (s.set i0 new) i j ↔ Entry s i j ∨ (i = i0 ∧ Entry a i0 j) := by
      intro new hso hmem
      refine ⟨?_, ?_⟩
      · intro hss row hr
        rcases List.mem_or_eq_of_mem_set hr with hr | hr
        · exact hss row hr
        · subst hr; exact hso (hss _ (List.getElem_mem h1))
      · intro i j
        rw [entry_of_get g2]
        by_cases hii : i0 = i
        · subst hii
          rw [entry_of_get g1, entry_of_get (p := s.set i0 new) (row := new) (by simp [h1]), hmem]
          simp
        · have : (s.set i0 new)[i]? = s[i]? := by rw [List.getElem?_set, if_neg hii]
          unfold Entry
          rw [this]
          constructor
          · exact Or.inl
          · rintro (h | ⟨h, _⟩)
            · exact h
            · exact absurd h.symm hii
    simp only [g1, g2, Option.bind_eq_bind, Option.bind_some]
    cases he : s[i0].isEmpty with
    | true =>
      rw [List.isEmpty_iff] at he
      obtain ⟨k1, k2⟩ := key a[i0] (fun _ => hs _ (List.getElem_mem h2)) (by rw [he]; simp)
      exact ⟨_, rfl, by simp [hsl], k1, k2⟩
    | false =>
      obtain ⟨k1, k2⟩ := key _ sorted_foldl_insert (fun k => mem_foldl_insert (l := a[i0]))
      exact ⟨_, rfl, by simp [hsl], k1, k2⟩
  · intro i j
    simp only [List.mem_range]
    constructor
    · rintro ⟨b, hb, rfl, h⟩; exact ⟨hb, h⟩
    · rintro ⟨hb, h⟩; exact ⟨i, hb, rfl, h⟩

theorem identityFrom_spec {p : Pattern} : ∀ (k i : Nat), i + k ≤ p.length →
    ∃ b, isIdentityFrom p i k = some b ∧
      (b = true → ∀ r, i ≤ r → r < i + k → p[r]? = some [r]) := by
  intro k
  induction k with
  | zero => intro i _; exact ⟨true, rfl, fun _ r h1 h2 => by omega⟩
  | succ k ih =>
    intro i h
    have hg : p[i]? = some p[i] := List.getElem?_eq_getElem (by omega)
    by_cases hr : p[i].length ≠ 1 ∨ p[i].head? ≠ some i
    · exact ⟨false, by simp only [isIdentityFrom, hg, Option.bind_eq_bind, Option.bind_some, if_pos hr],
        fun h => by cases h⟩
    · obtain ⟨b, h1, h2⟩ := ih (i + 1) (by omega)
      refine ⟨b, by simp only [isIdentityFrom, hg, Option.bind_eq_bind, Option.bind_some, if_neg hr]; exact h1, ?_⟩
      intro hb r hr1 hr2
      by_cases hri : r = i
      · subst hri
        rw [hg]
        simp only [ne_eq, not_or, Decidable.not_not] at hr
        obtain ⟨l1, l2⟩ := hr
        match hp : p[r], l1, l2 with
        | [c], _, l2 => simp at l2; rw [l2]
      · exact h2 hb r (by omega) (by omega)

theorem identity_spec {p : Pattern} {m : Nat} (h : m ≤ p.length) :
    ∃ b, isIdentityPattern p m = some b ∧
      (b = true → ∀ i j, i < m → (Entry p i j ↔ j = i)) := by
  obtain ⟨b, h1, h2⟩ := identityFrom_spec (p := p) m 0 (by omega)
  refine ⟨b, h1, ?_⟩
  intro hb i j hi
  rw [entry_of_get (h2 hb i (by omega) (by omega))]
  simp

theorem emptyFrom_spec {p : Pattern} : ∀ (k i : Nat), i + k ≤ p.length →
    ∃ b, isEmptyFrom p i k = some b ∧ (b = true → ∀ r j, i ≤ r → r < i + k → ¬ Entry p r j) := by
  intro k
  induction k with
  | zero => intro i _; exact ⟨true, rfl, fun _ r j h1 h2 => by omega⟩
  | succ k ih =>
    intro i h
    have hg : p[i]? = some p[i] := List.getElem?_eq_getElem (by omega)
    by_cases hr : p[i].length > 0
    · exact ⟨false, by simp only [isEmptyFrom, hg, Option.bind_eq_bind, Option.bind_some, if_pos hr],
        fun h => by cases h⟩
    · obtain ⟨b, h1, h2⟩ := ih (i + 1) (by omega)
      refine ⟨b, by simp only [isEmptyFrom, hg, Option.bind_eq_bind, Option.bind_some, if_neg hr]; exact h1, ?_⟩
      intro hb r j hr1 hr2
      by_cases hri : r = i
      · subst hri
        rw [entry_of_get hg]
        have : p[r] = [] := List.length_eq_zero_iff.1 (by omega)
        rw [this]; simp
      · exact h2 hb r j (by omega) (by omega)

theorem meets_iff {xs ys : List Nat} : meets xs ys = true ↔ ∃ k, k ∈ xs ∧ k ∈ ys := by
  simp [meets]

end Verif.Sparsity
