import Verif.Sparsity.Lemmas
namespace Verif.Sparsity

theorem entry_lt {p : Pattern} {i j : Nat} (h : Entry p i j) : i < p.length := by
  obtain ⟨row, h, _⟩ := h
  exact (List.getElem?_eq_some_iff.1 h).1

theorem get_of_lt {p : Pattern} {i : Nat} (h : i < p.length) : ∃ row, p[i]? = some row :=
  ⟨_, List.getElem?_eq_getElem h⟩

theorem ident_opt {p : Pattern} {m k : Nat} (h : m ≤ p.length) :
    ∃ b, squareIdentity m k p = some b ∧
      (b = true → m = k ∧ ∀ i j, i < m → (Entry p i j ↔ j = i)) := by
  unfold squareIdentity
  split
  · rename_i hk
    obtain ⟨b, h1, h2⟩ := identity_spec h
    exact ⟨b, h1, fun hb => ⟨hk, h2 hb⟩⟩
  · exact ⟨false, rfl, fun h => by cases h⟩

theorem adds_mult {a b : Pattern} {m n q L : Nat} (ha : Dims a m n) (hb : Dims b n q) (hL : m ≤ L)
    (hsa : Sorted a) :
    Adds L (fun r => mult a b r m n q) (fun i j => i < m ∧ Prod (Entry a) (Entry b) n i j) := by
  obtain ⟨ident, h1, h2⟩ := ident_opt (k := q) hb.1
  unfold mult
  simp only [h1, Option.bind_eq_bind, Option.bind_some]
  cases ident with
  | true =>
    simp only [if_true]
    obtain ⟨_, h2⟩ := h2 rfl
    refine (adds_addMatrix ha.1 hL hsa).congr ?_
    intro i j
    constructor
    · rintro ⟨hi, h⟩
      exact ⟨hi, j, ha.2 i j hi h, h, (h2 j j (ha.2 i j hi h)).2 rfl⟩
    · rintro ⟨hi, k, hk, h3, h4⟩
      rw [h2 k j hk] at h4
      subst h4
      exact ⟨hi, h3⟩
  | false =>
    simp only [Bool.false_eq_true, if_false]
    obtain ⟨bt, e, hl, _, hbt⟩ := transpose_spec hb
    simp only [e, Option.bind_some]
    refine (adds_foldlM _ (fun jj i j => j = jj ∧ i < m ∧ Prod (Entry a) (Entry b) n i jj) _ ?_).congr ?_
    · intro jj hjj
      rw [List.mem_range] at hjj
      obtain ⟨colB, hc⟩ := get_of_lt (p := bt) (i := jj) (by omega)
      have hcol : ∀ k, k ∈ colB ↔ k < n ∧ Entry b k jj := fun k => by rw [← hbt, entry_of_get hc]
      simp only [hc, Option.bind_some]
      cases he : colB.isEmpty with
      | true =>
        rw [List.isEmpty_iff] at he
        simp only [if_true]
        refine (adds_pure L).congr ?_
        intro i j
        simp only [false_iff]
        rintro ⟨_, _, k, hk, _, h4⟩
        have := (hcol k).2 ⟨hk, h4⟩
        rw [he] at this; cases this
      | false =>
        simp only [Bool.false_eq_true, if_false]
        refine (adds_foldlM _ (fun i0 i j => i = i0 ∧ j = jj ∧ Prod (Entry a) (Entry b) n i0 jj) _ ?_).congr ?_
        · intro i0 hi0
          rw [List.mem_range] at hi0
          obtain ⟨rowA, hra⟩ := get_of_lt (p := a) (i := i0) (Nat.lt_of_lt_of_le hi0 ha.1)
          simp only [hra, Option.bind_some]
          refine (adds_cond (Nat.lt_of_lt_of_le hi0 hL) (meets colB rowA)).congr ?_
          intro i j
          rw [meets_iff]
          constructor
          · rintro ⟨⟨k, h3, h4⟩, h5, h6⟩
            rw [hcol] at h3
            exact ⟨h5, h6, k, h3.1, (entry_of_get hra k).2 h4, h3.2⟩
          · rintro ⟨h5, h6, k, h3, h4, h7⟩
            exact ⟨⟨k, (hcol k).2 ⟨h3, h7⟩, (entry_of_get hra k).1 h4⟩, h5, h6⟩
        · intro i j
          simp only [List.mem_range]
          constructor
          · rintro ⟨b, hb, rfl, rfl, h⟩; exact ⟨rfl, hb, h⟩
          · rintro ⟨rfl, hb, h⟩; exact ⟨i, hb, rfl, rfl, h⟩
    · intro i j
      simp only [List.mem_range]
      constructor
      · rintro ⟨jj, _, rfl, h⟩; exact h
      · rintro ⟨hi, k, hk, h3, h4⟩
        exact ⟨j, hb.2 k j hk h4, rfl, hi, k, hk, h3, h4⟩

theorem adds_multTrans {a b : Pattern} {m n q L : Nat} (ha : Dims a m n) (hb : Dims b m q) (hL : n ≤ L)
    (hsb : Sorted b) :
    Adds L (fun r => multTrans a b r m n q) (Prod (fun i k => Entry a k i) (Entry b) m) := by
  have haL : Dims a m L := ⟨ha.1, fun i j hi h => Nat.lt_of_lt_of_le (ha.2 i j hi h) hL⟩
  obtain ⟨empty, e1, e2⟩ := emptyFrom_spec (p := b) m 0 (by have := hb.1; omega)
  unfold multTrans
  simp only [e1, Option.bind_eq_bind, Option.bind_some]
  cases empty with
  | true =>
    simp only [if_true]
    refine (adds_pure L).congr ?_
    intro i j
    simp only [false_iff]
    rintro ⟨k, hk, _, h4⟩
    exact e2 rfl k j (by omega) (by omega) h4
  | false =>
    simp only [Bool.false_eq_true, if_false]
    obtain ⟨identA, h1, h2⟩ := ident_opt (k := n) ha.1
    simp only [h1, Option.bind_some]
    cases identA with
    | true =>
      simp only [if_true]
      have hmn := (h2 rfl).1
      have h2' := (h2 rfl).2
      clear h2 h1
      subst hmn
      have h2 := h2'
      refine (adds_addMatrix hb.1 hL hsb).congr ?_
      intro i j
      constructor
      · rintro ⟨hi, h⟩
        exact ⟨i, hi, (h2 i i hi).2 rfl, h⟩
      · rintro ⟨k, hk, h3, h4⟩
        have := (h2 k i hk).1 h3
        subst this
        exact ⟨hk, h4⟩
    | false =>
      simp only [Bool.false_eq_true, if_false]
      obtain ⟨identB, h3, h4⟩ := ident_opt (k := q) hb.1
      simp only [h3, Option.bind_some]
      cases identB with
      | true =>
        simp only [if_true]
        obtain ⟨_, h4⟩ := h4 rfl
        refine (adds_addTrans haL).congr ?_
        intro i j
        constructor
        · rintro ⟨hj, h⟩
          exact ⟨j, hj, h, (h4 j j hj).2 rfl⟩
        · rintro ⟨k, hk, h5, h6⟩
          have := (h4 k j hk).1 h6
          subst this
          exact ⟨hk, h5⟩
      | false =>
        simp only [Bool.false_eq_true, if_false]
        obtain ⟨at', f1, f2, _, f4⟩ := transpose_spec ha
        obtain ⟨bt, g1, g2, _, g4⟩ := transpose_spec hb
        simp only [f1, g1, Option.bind_some]
        refine (adds_foldlM _ (fun jj i j => j = jj ∧ Prod (fun i k => Entry a k i) (Entry b) m i jj) _ ?_).congr ?_
        · intro jj hjj
          rw [List.mem_range] at hjj
          obtain ⟨colB, hc⟩ := get_of_lt (p := bt) (i := jj) (by omega)
          have hcol : ∀ k, k ∈ colB ↔ k < m ∧ Entry b k jj := fun k => by rw [← g4, entry_of_get hc]
          simp only [hc, Option.bind_some]
          cases he : colB.isEmpty with
          | true =>
            rw [List.isEmpty_iff] at he
            simp only [if_true]
            refine (adds_pure L).congr ?_
            intro i j
            simp only [false_iff]
            rintro ⟨_, k, hk, _, h4⟩
            have := (hcol k).2 ⟨hk, h4⟩
            rw [he] at this; cases this
          | false =>
            simp only [Bool.false_eq_true, if_false]
            refine (adds_foldlM _ (fun i0 i j => i = i0 ∧ j = jj ∧
              Prod (fun i k => Entry a k i) (Entry b) m i0 jj) _ ?_).congr ?_
            · intro i0 hi0
              rw [List.mem_range] at hi0
              obtain ⟨rowA, hra⟩ := get_of_lt (p := at') (i := i0) (by omega)
              have hrow : ∀ k, k ∈ rowA ↔ k < m ∧ Entry a k i0 := fun k => by
                rw [← f4, entry_of_get hra]
              simp only [hra, Option.bind_some]
              have hm : meets colB rowA = true ↔ Prod (fun i k => Entry a k i) (Entry b) m i0 jj := by
                rw [meets_iff]
                constructor
                · rintro ⟨k, h5, h6⟩
                  rw [hcol] at h5
                  rw [hrow] at h6
                  exact ⟨k, h5.1, h6.2, h5.2⟩
                · rintro ⟨k, h5, h6, h7⟩
                  exact ⟨k, (hcol k).2 ⟨h5, h7⟩, (hrow k).2 ⟨h5, h6⟩⟩
              cases hre : rowA.isEmpty with
              | true =>
                rw [List.isEmpty_iff] at hre
                simp only [if_true]
                refine (adds_pure L).congr ?_
                intro i j
                simp only [false_iff]
                rintro ⟨_, _, k, hk, h5, _⟩
                have := (hrow k).2 ⟨hk, h5⟩
                rw [hre] at this; cases this
              | false =>
                simp only [Bool.false_eq_true, if_false]
                refine (adds_cond (Nat.lt_of_lt_of_le hi0 hL) (meets colB rowA)).congr ?_
                intro i j
                rw [hm]
                constructor
                · rintro ⟨h5, h6, h7⟩; exact ⟨h6, h7, h5⟩
                · rintro ⟨h6, h7, h5⟩; exact ⟨h5, h6, h7⟩
            · intro i j
              simp only [List.mem_range]
              constructor
              · rintro ⟨b, hb, rfl, rfl, h⟩; exact ⟨rfl, h⟩
              · rintro ⟨rfl, h⟩
                obtain ⟨k, hk, h5, h6⟩ := h
                exact ⟨i, ha.2 k i hk h5, rfl, rfl, k, hk, h5, h6⟩
        · intro i j
          simp only [List.mem_range]
          constructor
          · rintro ⟨jj, _, rfl, h⟩; exact h
          · rintro ⟨k, hk, h3, h4⟩
            exact ⟨j, hb.2 k j hk h4, rfl, k, hk, h3, h4⟩

theorem adds_multT {aT b : Pattern} {m n q L : Nat} (ha : Dims aT m q) (hb : Dims b m n) (hL : n ≤ L) :
    Adds L (fun r => multT aT b r m n q)
      (fun j i => Prod (fun i k => Entry aT k i) (Entry b) m i j) := by
  have hbL : Dims b m L := ⟨hb.1, fun i j hi h => Nat.lt_of_lt_of_le (hb.2 i j hi h) hL⟩
  obtain ⟨empty, e1, e2⟩ := emptyFrom_spec (p := b) m 0 (by have := hb.1; omega)
  unfold multT
  simp only [e1, Option.bind_eq_bind, Option.bind_some]
  cases empty with
  | true =>
    simp only [if_true]
    refine (adds_pure L).congr ?_
    intro i j
    simp only [false_iff]
    rintro ⟨k, hk, _, h4⟩
    exact e2 rfl k i (by omega) (by omega) h4
  | false =>
    simp only [Bool.false_eq_true, if_false]
    obtain ⟨identA, h1, h2⟩ := ident_opt (k := q) ha.1
    simp only [h1, Option.bind_some]
    cases identA with
    | true =>
      simp only [if_true]
      obtain ⟨_, h2⟩ := h2 rfl
      refine (adds_addTrans hbL).congr ?_
      intro j i
      constructor
      · rintro ⟨hi, h⟩
        exact ⟨i, hi, (h2 i i hi).2 rfl, h⟩
      · rintro ⟨k, hk, h3, h4⟩
        have := (h2 k i hk).1 h3
        subst this
        exact ⟨hk, h4⟩
    | false =>
      simp only [Bool.false_eq_true, if_false]
      obtain ⟨a, f1, f2, _, f4⟩ := transpose_spec ha
      obtain ⟨bt, g1, g2, _, g4⟩ := transpose_spec hb
      simp only [f1, g1, Option.bind_some]
      refine (adds_foldlM _ (fun jj j i => j = jj ∧ Prod (fun i k => Entry aT k i) (Entry b) m i jj) _ ?_).congr ?_
      · intro jj hjj
        rw [List.mem_range] at hjj
        obtain ⟨col, hc⟩ := get_of_lt (p := bt) (i := jj) (by omega)
        have hcol : ∀ k, k ∈ col ↔ k < m ∧ Entry b k jj := fun k => by rw [← g4, entry_of_get hc]
        simp only [hc, Option.bind_some]
        refine (adds_foldlM _ (fun i0 j i => i = i0 ∧ j = jj ∧
              Prod (fun i k => Entry aT k i) (Entry b) m i0 jj) _ ?_).congr ?_
        · intro i0 hi0
          rw [List.mem_range] at hi0
          obtain ⟨rowA, hra⟩ := get_of_lt (p := a) (i := i0) (by omega)
          have hrow : ∀ k, k ∈ rowA ↔ k < m ∧ Entry aT k i0 := fun k => by
            rw [← f4, entry_of_get hra]
          simp only [hra, Option.bind_some]
          refine (adds_cond (Nat.lt_of_lt_of_le hjj hL) (meets rowA col)).congr ?_
          intro j i
          rw [meets_iff]
          constructor
          · rintro ⟨⟨k, h6, h5⟩, h7, h8⟩
            rw [hcol] at h5
            rw [hrow] at h6
            exact ⟨h8, h7, k, h5.1, h6.2, h5.2⟩
          · rintro ⟨h8, h9, k, h5, h6, h7⟩
            exact ⟨⟨k, (hrow k).2 ⟨h5, h6⟩, (hcol k).2 ⟨h5, h7⟩⟩, h9, h8⟩
        · intro j i
          simp only [List.mem_range]
          constructor
          · rintro ⟨b, hb, rfl, rfl, h⟩; exact ⟨rfl, h⟩
          · rintro ⟨rfl, h⟩
            obtain ⟨k, hk, h5, h6⟩ := h
            exact ⟨i, ha.2 k i hk h5, rfl, rfl, k, hk, h5, h6⟩
      · intro j i
        simp only [List.mem_range]
        constructor
        · rintro ⟨jj, _, rfl, h⟩; exact h
        · rintro ⟨k, hk, h3, h4⟩
          exact ⟨j, hb.2 k j hk h4, rfl, k, hk, h3, h4⟩

/-! ### intersects -/

theorem le_getLast {a : Nat} {as : List Nat} (h : (a :: as).Pairwise (· < ·)) :
    ∀ k ∈ a :: as, k ≤ (a :: as).getLast! := by
  induction as generalizing a with
  | nil => intro k hk; simp at hk; simp [hk]
  | cons b bs ih =>
    intro k hk
    have h' := List.pairwise_cons.1 h
    have he : (a :: b :: bs).getLast! = (b :: bs).getLast! := by simp
    rw [he]
    rcases List.mem_cons.1 hk with rfl | hk
    · have := h'.1 b (by simp)
      have := ih h'.2 b (by simp)
      omega
    · exact ih h'.2 k hk

theorem intersects_spec {a b : List Nat} (ha : a.Pairwise (· < ·)) (hb : b.Pairwise (· < ·)) :
    intersects a b = true ↔ ∃ k, k ∈ a ∧ k ∈ b := by
  cases a with
  | nil => simp [intersects]
  | cons a0 as =>
    cases b with
    | nil => simp [intersects]
    | cons b0 bs =>
      unfold intersects
      simp only
      have hlb : ∀ {c : Nat} {cs : List Nat}, (c :: cs).Pairwise (· < ·) → ∀ k ∈ c :: cs, c ≤ k := by
        intro c cs h k hk
        rcases List.mem_cons.1 hk with rfl | hk
        · exact Nat.le_refl _
        · exact Nat.le_of_lt ((List.pairwise_cons.1 h).1 k hk)
      split
      · rename_i h
        simp only [Bool.false_eq_true, false_iff]
        rintro ⟨k, h1, h2⟩
        have := le_getLast ha k h1
        have := le_getLast hb k h2
        have := hlb ha k h1
        have := hlb hb k h2
        omega
      · split
        · simp only [List.any_eq_true, List.contains_iff_mem]
        · simp only [List.any_eq_true, List.contains_iff_mem]
          constructor
          · rintro ⟨k, h1, h2⟩; exact ⟨k, h2, h1⟩
          · rintro ⟨k, h1, h2⟩; exact ⟨k, h2, h1⟩

/-! ### index lists -/

abbrev Lex (u v : Nat × Nat) : Prop := u.1 < v.1 ∨ (u.1 = v.1 ∧ u.2 < v.2)

theorem indexesFrom_len (i : Nat) (p : Pattern) :
    (indexesFrom i p).1.length = nnz p ∧ (indexesFrom i p).2.length = nnz p := by
  induction p generalizing i with
  | nil => simp [indexesFrom, nnz]
  | cons row p ih =>
    obtain ⟨h1, h2⟩ := ih (i + 1)
    simp only [indexesFrom, List.length_append, List.length_replicate, h1, h2]
    simp [nnz]

/-- the pairs listed -/
def pairs (i : Nat) (p : Pattern) : List (Nat × Nat) := (indexesFrom i p).1.zip (indexesFrom i p).2

theorem zip_replicate (i : Nat) (row : List Nat) :
    (List.replicate row.length i).zip row = row.map fun j => (i, j) := by
  induction row with
  | nil => rfl
  | cons a row ih => simp [List.replicate_succ, ih]

theorem pairs_cons (i : Nat) (row : List Nat) (p : Pattern) :
    pairs i (row :: p) = (row.map fun j => (i, j)) ++ pairs (i + 1) p := by
  unfold pairs
  simp only [indexesFrom]
  rw [List.zip_append (by simp), zip_replicate]

theorem mem_pairs {i : Nat} {p : Pattern} {r j : Nat} :
    (r, j) ∈ pairs i p ↔ i ≤ r ∧ Entry p (r - i) j := by
  induction p generalizing i with
  | nil => simp [pairs, indexesFrom, Entry]
  | cons row p ih =>
    rw [pairs_cons, List.mem_append, ih]
    simp only [List.mem_map, Prod.mk.injEq]
    constructor
    · rintro (⟨k, hk, rfl, rfl⟩ | ⟨h1, h2⟩)
      · exact ⟨Nat.le_refl _, by simp [Entry, hk]⟩
      · refine ⟨by omega, ?_⟩
        rw [show r - i = (r - (i + 1)) + 1 by omega]
        simpa [Entry] using h2
    · rintro ⟨h1, h2⟩
      by_cases hr : r = i
      · subst hr
        left
        simp [Entry] at h2
        exact ⟨j, h2, rfl, rfl⟩
      · right
        refine ⟨by omega, ?_⟩
        rw [show r - i = (r - (i + 1)) + 1 by omega] at h2
        simpa [Entry] using h2

theorem sorted_pairs {i : Nat} {p : Pattern} (hs : Sorted p) : (pairs i p).Pairwise Lex := by
  induction p generalizing i with
  | nil => simp [pairs, indexesFrom]
  | cons row p ih =>
    rw [pairs_cons, List.pairwise_append]
    refine ⟨?_, ih (fun r hr => hs r (List.mem_cons_of_mem _ hr)), ?_⟩
    · rw [List.pairwise_map]
      exact (hs row (by simp)).imp fun h => Or.inr ⟨rfl, h⟩
    · rintro u hu ⟨r, j⟩ hv
      rw [List.mem_map] at hu
      obtain ⟨k, _, rfl⟩ := hu
      rw [mem_pairs] at hv
      left
      show i < r
      omega

theorem indexes_correct {p : Pattern} (hs : Sorted p) :
    (indexes p).1.length = nnz p ∧ (indexes p).2.length = nnz p ∧
    ((indexes p).1.zip (indexes p).2).Pairwise Lex ∧
    ∀ i j, (i, j) ∈ (indexes p).1.zip (indexes p).2 ↔ Entry p i j := by
  refine ⟨(indexesFrom_len 0 p).1, (indexesFrom_len 0 p).2, sorted_pairs (i := 0) hs, ?_⟩
  intro i j
  exact (mem_pairs (i := 0)).trans (by simp)

theorem adds_generateSet {row col : List Nat} {L : Nat} (hl : row.length = col.length)
    (hr : ∀ i ∈ row, i < L) :
    Adds L (fun r => generateSet row col r) (fun i j => (i, j) ∈ row.zip col) := by
  unfold generateSet
  refine (adds_foldlM _ (fun e i j => row[e]? = some i ∧ col[e]? = some j) _ ?_).congr ?_
  · intro e he
    rw [List.mem_range] at he
    have h1 : row[e]? = some row[e] := List.getElem?_eq_getElem he
    have h2 : col[e]? = some (col[e]'(by omega)) := List.getElem?_eq_getElem (by omega)
    simp only [h1, h2, Option.bind_eq_bind, Option.bind_some]
    refine (adds_insertAt (hr _ (List.getElem_mem he))).congr ?_
    intro i j
    simp only [Option.some.injEq]
    constructor
    · rintro ⟨rfl, rfl⟩; exact ⟨rfl, rfl⟩
    · rintro ⟨rfl, rfl⟩; exact ⟨rfl, rfl⟩
  · intro i j
    simp only [List.mem_range]
    constructor
    · rintro ⟨e, he, h1, h2⟩
      exact List.mem_of_getElem? (i := e) (by rw [List.getElem?_zip_eq_some]; exact ⟨h1, h2⟩)
    · intro h
      obtain ⟨e, he⟩ := List.getElem?_of_mem h
      rw [List.getElem?_zip_eq_some] at he
      exact ⟨e, (List.getElem?_eq_some_iff.1 he.1).1, he.1, he.2⟩

theorem pattern_ext {p q : Pattern} (hl : p.length = q.length) (hp : Sorted p) (hq : Sorted q)
    (h : ∀ i j, Entry p i j ↔ Entry q i j) : p = q := by
  apply List.ext_getElem hl
  intro i h1 h2
  refine sorted_ext (hp _ (List.getElem_mem h1)) (hq _ (List.getElem_mem h2)) ?_
  intro k
  have := h i k
  rwa [entry_of_get (List.getElem?_eq_getElem h1), entry_of_get (List.getElem?_eq_getElem h2)] at this

theorem sorted_replicate (n : Nat) : Sorted (List.replicate n []) := by
  intro row hr
  rw [List.mem_replicate] at hr
  rw [hr.2]; exact List.Pairwise.nil

theorem roundtrip {p : Pattern} (hs : Sorted p) :
    generateSet (indexes p).1 (indexes p).2 (List.replicate p.length []) = some p := by
  obtain ⟨l1, l2, _, hmem⟩ := indexes_correct hs
  have hr : ∀ i ∈ (indexes p).1, i < p.length := by
    intro i hi
    obtain ⟨e, he⟩ := List.getElem?_of_mem hi
    have hlt := (List.getElem?_eq_some_iff.1 he).1
    have h2 : (indexes p).2[e]? = some ((indexes p).2[e]'(by omega)) := List.getElem?_eq_getElem (by omega)
    have : (i, (indexes p).2[e]'(by omega)) ∈ (indexes p).1.zip (indexes p).2 :=
      List.mem_of_getElem? (i := e) (by rw [List.getElem?_zip_eq_some]; exact ⟨he, h2⟩)
    exact entry_lt ((hmem _ _).1 this)
  obtain ⟨q, h1, h2, h3, h4⟩ := adds_generateSet (l1.trans l2.symm) hr (List.replicate p.length []) (by simp)
  simp only at h1
  rw [h1]
  congr 1
  refine pattern_ext h2 (h3 (sorted_replicate _)) hs ?_
  intro i j
  rw [h4]
  simp only [hmem, entry_replicate, false_or]

/-- two lists of pairs in strict lexicographic order with the same elements are equal -/
theorem lex_ext {l l' : List (Nat × Nat)} (h : l.Pairwise Lex) (h' : l'.Pairwise Lex)
    (he : ∀ u, u ∈ l ↔ u ∈ l') : l = l' := by
  have irr : ∀ u v : Nat × Nat, Lex u v → Lex v u → False := by
    rintro ⟨a, b⟩ ⟨c, d⟩ h1 h2
    simp only [Lex] at h1 h2
    omega
  induction l generalizing l' with
  | nil =>
    cases l' with
    | nil => rfl
    | cons b l' => exact absurd ((he b).2 (by simp)) (by simp)
  | cons a l ih =>
    cases l' with
    | nil => exact absurd ((he a).1 (by simp)) (by simp)
    | cons b l' =>
      rw [List.pairwise_cons] at h h'
      have hab : a = b := by
        rcases List.mem_cons.1 ((he a).1 (by simp)) with h1 | h1
        · exact h1
        · rcases List.mem_cons.1 ((he b).2 (by simp)) with h2 | h2
          · exact h2.symm
          · exact (irr _ _ (h'.1 a h1) (h.1 b h2)).elim
      subst hab
      congr 1
      refine ih h.2 h'.2 ?_
      intro k
      constructor
      · intro hk
        rcases List.mem_cons.1 ((he k).1 (List.mem_cons_of_mem _ hk)) with h1 | h1
        · subst h1; exact (irr _ _ (h.1 k hk) (h.1 k hk)).elim
        · exact h1
      · intro hk
        rcases List.mem_cons.1 ((he k).2 (List.mem_cons_of_mem _ hk)) with h1 | h1
        · subst h1; exact (irr _ _ (h'.1 k hk) (h'.1 k hk)).elim
        · exact h1

theorem roundtrip' {row col : List Nat} {m : Nat} (hl : row.length = col.length)
    (hr : ∀ i ∈ row, i < m) :
    ∃ p, generateSet row col (List.replicate m []) = some p ∧ p.length = m ∧ Sorted p ∧
      (∀ i j, Entry p i j ↔ (i, j) ∈ row.zip col) ∧
      ((row.zip col).Pairwise Lex → indexes p = (row, col)) := by
  obtain ⟨p, h1, h2, h3, h4⟩ := adds_generateSet hl hr (List.replicate m []) (by simp)
  have h4' : ∀ i j, Entry p i j ↔ (i, j) ∈ row.zip col := by
    intro i j; rw [h4]; simp [entry_replicate]
  have hs := h3 (sorted_replicate _)
  refine ⟨p, h1, h2, hs, h4', ?_⟩
  intro hlex
  obtain ⟨l1, l2, k1, k2⟩ := indexes_correct hs
  have hz : (indexes p).1.zip (indexes p).2 = row.zip col :=
    lex_ext k1 hlex (by rintro ⟨i, j⟩; rw [k2, h4'])
  have e1 : (indexes p).1 = row := by
    have := congrArg (List.map Prod.fst) hz
    rwa [List.map_fst_zip (by omega), List.map_fst_zip (by omega)] at this
  have e2 : (indexes p).2 = col := by
    have := congrArg (List.map Prod.snd) hz
    rwa [List.map_snd_zip (by omega), List.map_snd_zip (by omega)] at this
  rw [← e1, ← e2]

/-! ### flags -/

theorem foldlM_range {S : Type} (f : S → Nat → Option S) (Inv : Nat → S → Prop) (n : Nat)
    (hstep : ∀ k, k < n → ∀ s, Inv k s → ∃ s', f s k = some s' ∧ Inv (k + 1) s') :
    ∀ s, Inv 0 s → ∃ s', (List.range n).foldlM f s = some s' ∧ Inv n s' := by
  induction n with
  | zero => intro s h; exact ⟨s, rfl, h⟩
  | succ n ih =>
    intro s h
    obtain ⟨s1, h1, h2⟩ := ih (fun k hk => hstep k (by omega)) s h
    obtain ⟨s2, h3, h4⟩ := hstep n (by omega) s1 h2
    refine ⟨s2, ?_, h4⟩
    rw [List.range_succ, List.foldlM_append, h1]
    simp [h3]

theorem count_take_succ (s : List Bool) (t : Nat) :
    (s.take (t + 1)).count true = (s.take t).count true + (if s[t]? = some true then 1 else 0) := by
  rw [List.take_succ]
  cases h : s[t]? with
  | none => simp
  | some b => cases b <;> simp

theorem count_take_le (s : List Bool) (t : Nat) : (s.take t).count true ≤ s.count true :=
  (List.take_sublist t s).count_le true

/-- state after looking at the first `t` flags -/
structure FlagInv (s : List Bool) (n t : Nat) (acc : List Nat × List Nat) : Prop where
  l1 : acc.1.length = (s.take t).count true
  l2 : acc.2.length = (s.take t).count true
  lex : (acc.1.zip acc.2).Pairwise Lex
  mem : ∀ i j, (i, j) ∈ acc.1.zip acc.2 ↔ j < n ∧ i * n + j < t ∧ s[i * n + j]? = some true

theorem rowcol_inj {n i j i' j' : Nat} (hj : j < n) (hj' : j' < n) :
    (i' * n + j' < i * n + j ↔ i' < i ∨ (i' = i ∧ j' < j)) ∧ (i' * n + j' = i * n + j ↔ i' = i ∧ j' = j) := by
  rcases Nat.lt_trichotomy i' i with h | h | h
  · have := Nat.mul_le_mul_right n (show i' + 1 ≤ i from h)
    rw [Nat.add_mul] at this
    constructor <;> constructor <;> omega
  · subst h
    constructor <;> constructor <;> omega
  · have := Nat.mul_le_mul_right n (show i + 1 ≤ i' from h)
    rw [Nat.add_mul] at this
    constructor <;> constructor <;> omega

theorem flag_step {s : List Bool} {n i j : Nat} (hj : j < n) (ht : i * n + j < s.length)
    {acc : List Nat × List Nat} (h : FlagInv s n (i * n + j) acc) :
    ∃ acc', (do
        let f ← s[i * n + j]?
        if f then
          if acc.1.length < s.count true then pure (acc.1 ++ [i], acc.2 ++ [j]) else none
        else pure acc : Option (List Nat × List Nat)) = some acc' ∧ FlagInv s n (i * n + j + 1) acc' := by
  have hg : s[i * n + j]? = some s[i * n + j] := List.getElem?_eq_getElem ht
  simp only [hg, Option.bind_eq_bind, Option.bind_some]
  have hc := count_take_succ s (i * n + j)
  cases hb : s[i * n + j] with
  | false =>
    rw [hb] at hg
    rw [hg] at hc
    simp at hc
    refine ⟨acc, rfl, ?_, ?_, h.lex, ?_⟩
    · rw [h.l1, hc]
    · rw [h.l2, hc]
    · intro i' j'
      rw [h.mem]
      constructor
      · rintro ⟨h1, h2, h3⟩; exact ⟨h1, by omega, h3⟩
      · rintro ⟨h1, h2, h3⟩
        refine ⟨h1, ?_, h3⟩
        by_cases he : i' * n + j' = i * n + j
        · rw [he, hg] at h3; cases h3
        · omega
  | true =>
    rw [hb] at hg
    rw [hg] at hc
    simp at hc
    have hlt : acc.1.length < s.count true := by
      have := count_take_le s (i * n + j + 1)
      rw [h.l1]; omega
    simp only [if_true, if_pos hlt]
    have hz : (acc.1 ++ [i]).zip (acc.2 ++ [j]) = acc.1.zip acc.2 ++ [(i, j)] := by
      rw [List.zip_append (by rw [h.l1, h.l2])]; rfl
    refine ⟨_, rfl, ?_, ?_, ?_, ?_⟩
    · simp [h.l1, hc]
    · simp [h.l2, hc]
    · simp only [hz]
      rw [List.pairwise_append]
      refine ⟨h.lex, List.pairwise_singleton _ _, ?_⟩
      rintro ⟨i', j'⟩ hu v hv
      rw [List.mem_singleton] at hv
      subst hv
      rw [h.mem] at hu
      exact (rowcol_inj hj hu.1).1.1 hu.2.1
    · intro i' j'
      simp only [hz]
      rw [List.mem_append, h.mem, List.mem_singleton, Prod.mk.injEq]
      constructor
      · rintro (⟨h1, h2, h3⟩ | ⟨rfl, rfl⟩)
        · exact ⟨h1, by omega, h3⟩
        · exact ⟨hj, by omega, hg⟩
      · rintro ⟨h1, h2, h3⟩
        by_cases he : i' * n + j' = i * n + j
        · exact Or.inr ((rowcol_inj hj h1).2.1 he)
        · exact Or.inl ⟨h1, by omega, h3⟩

theorem indexesBool_correct {s : List Bool} {m n : Nat} (h : s.length = m * n) :
    ∃ row col, indexesBool s m n = some (row, col) ∧ row.length = s.count true ∧ col.length = s.count true ∧
      (row.zip col).Pairwise Lex ∧
      ∀ i j, (i, j) ∈ row.zip col ↔ i < m ∧ j < n ∧ s[i * n + j]? = some true := by
  have houter := foldlM_range (S := List Nat × List Nat) (fun acc i =>
    (List.range n).foldlM (fun (acc : List Nat × List Nat) j => do
      let f ← s[i * n + j]?
      if f then
        if acc.1.length < s.count true then pure (acc.1 ++ [i], acc.2 ++ [j]) else none
      else pure acc) acc) (fun i acc => FlagInv s n (i * n) acc) m (by
    intro i hi acc hacc
    have hle := Nat.mul_le_mul_right n (show i + 1 ≤ m from hi)
    rw [Nat.add_mul, Nat.one_mul] at hle
    have := foldlM_range (S := List Nat × List Nat) (fun acc j => do
      let f ← s[i * n + j]?
      if f then
        if acc.1.length < s.count true then pure (acc.1 ++ [i], acc.2 ++ [j]) else none
      else pure acc) (fun j acc => FlagInv s n (i * n + j) acc) n (by
        intro j hj acc hacc
        exact flag_step hj (by omega) hacc) acc hacc
    rw [Nat.add_mul, Nat.one_mul]
    exact this) ([], []) (by
      refine ⟨by simp, by simp, by simp, ?_⟩
      intro i j
      simp)
  obtain ⟨⟨row, col⟩, h1, h2⟩ := houter
  have htake : s.take (m * n) = s := by rw [← h, List.take_length]
  refine ⟨row, col, ?_, ?_, ?_, h2.lex, ?_⟩
  · unfold indexesBool
    simp only [Option.bind_eq_bind] at h1 ⊢
    rw [h1]
  · have := h2.l1; rw [htake] at this; exact this
  · have := h2.l2; rw [htake] at this; exact this
  · intro i j
    rw [h2.mem]
    constructor
    · rintro ⟨hj, hlt, hs⟩
      refine ⟨?_, hj, hs⟩
      apply Classical.byContradiction
      intro hi
      have := Nat.mul_le_mul_right n (show m ≤ i by omega)
      omega
    · rintro ⟨hi, hj, hs⟩
      have := Nat.mul_le_mul_right n (show i + 1 ≤ m from hi)
      rw [Nat.add_mul] at this
      exact ⟨hj, by omega, hs⟩

end Verif.Sparsity
