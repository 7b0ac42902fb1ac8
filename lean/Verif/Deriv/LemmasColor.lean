import Verif.Deriv.ModelColor
import Verif.Sparsity.LemmasMult
/-
Lemmas for C48: the invariant of the coloring and of the retrieval.
-/
namespace Verif.Deriv
open Verif.Sparsity (Pattern setInsert insertAt intersects indexes Entry mem_setInsert mem_foldl_insert sorted_foldl_insert
  intersects_spec)

theorem mapAt_put (k v : Nat) (m : List (Nat × Nat)) (j : Nat) :
    mapAt (mapPut k v m) j = if j = k then .ok v else mapAt m j := by
  unfold mapAt mapPut
  by_cases h : j = k
  · subst h; simp
  · rw [if_neg h, List.find?_cons_of_neg (by simpa using fun e => h e.symm)]
    have : (m.filter (·.1 != k)).find? (·.1 == j) = m.find? (·.1 == j) := by
      induction m with
      | nil => rfl
      | cons p m ih =>
        by_cases hp : p.1 = k
        · rw [List.filter_cons_of_neg (by simpa using hp), ih, List.find?_cons_of_neg (by simpa [hp] using fun e => h e.symm)]
        · rw [List.filter_cons_of_pos (by simpa using hp)]
          by_cases hj : p.1 = j
          · rw [List.find?_cons_of_pos (by simpa using hj), List.find?_cons_of_pos (by simpa using hj)]
          · rw [List.find?_cons_of_neg (by simpa using hj), List.find?_cons_of_neg (by simpa using hj), ih]
    rw [this]

theorem mapAt_puts (i : Nat) (red : List Nat) (m : List (Nat × Nat)) (j : Nat) :
    mapAt (red.foldl (fun m j => mapPut j i m) m) j = if j ∈ red then .ok i else mapAt m j := by
  induction red generalizing m with
  | nil => simp
  | cons a red ih =>
    rw [List.foldl_cons, ih, mapAt_put]
    by_cases h1 : j ∈ red
    · simp [h1]
    · by_cases h2 : j = a
      · simp [h2]
      · simp [h1, h2]

/-- what is known about a color; `redOf r` are the columns considered of row `r` -/
structure GoodC (redOf : Nat → List Nat) (c : Color) : Prop where
  sorted : c.forbidden.Pairwise (· < ·)
  forb : ∀ j, j ∈ c.forbidden ↔ ∃ r ∈ c.rows, j ∈ redOf r
  look : ∀ j r, mapAt c.column2Row j = .ok r ↔ r ∈ c.rows ∧ j ∈ redOf r

theorem GoodC.unique {redOf : Nat → List Nat} {c : Color} (h : GoodC redOf c) {r r' j : Nat} (hr : r ∈ c.rows)
    (hr' : r' ∈ c.rows) (hj : j ∈ redOf r) (hj' : j ∈ redOf r') : r = r' := by
  have h1 := (h.look j r).2 ⟨hr, hj⟩
  have h2 := (h.look j r').2 ⟨hr', hj'⟩
  rw [h1] at h2
  exact Except.ok.inj h2

theorem add_good {redOf : Nat → List Nat} {c : Color} (h : GoodC redOf c) {i : Nat} (hi : i ∉ c.rows)
    (hd : ∀ j ∈ redOf i, j ∉ c.forbidden) :
    GoodC redOf (({ c with forbidden := (redOf i).foldl (fun s j => setInsert j s) c.forbidden }).add i (redOf i)) where
  sorted := sorted_foldl_insert h.sorted
  forb := by
    intro j
    show j ∈ (redOf i).foldl (fun s j => setInsert j s) c.forbidden ↔ ∃ r ∈ setInsert i c.rows, j ∈ redOf r
    rw [mem_foldl_insert, h.forb]
    constructor
    · rintro (⟨r, hr, hj⟩ | hj)
      · exact ⟨r, mem_setInsert.2 (.inr hr), hj⟩
      · exact ⟨i, mem_setInsert.2 (.inl rfl), hj⟩
    · rintro ⟨r, hr, hj⟩
      rcases mem_setInsert.1 hr with rfl | hr
      · exact .inr hj
      · exact .inl ⟨r, hr, hj⟩
  look := by
    intro j r
    show mapAt ((redOf i).foldl (fun m j => mapPut j i m) c.column2Row) j = .ok r ↔ r ∈ setInsert i c.rows ∧ j ∈ redOf r
    rw [mapAt_puts, mem_setInsert]
    by_cases hj : j ∈ redOf i
    · rw [if_pos hj, Except.ok.injEq]
      constructor
      · rintro rfl; exact ⟨.inl rfl, hj⟩
      · rintro ⟨rfl | hr, hj'⟩
        · rfl
        · exact absurd ((h.forb j).2 ⟨r, hr, hj'⟩) (hd j hj)
    · rw [if_neg hj, h.look]
      constructor
      · rintro ⟨hr, hj'⟩; exact ⟨.inr hr, hj'⟩
      · rintro ⟨rfl | hr, hj'⟩
        · exact absurd hj' hj
        · exact ⟨hr, hj'⟩

theorem new_good {redOf : Nat → List Nat} {i : Nat} (hs : (redOf i).Pairwise (· < ·)) :
    GoodC redOf (Color.add ⟨[], [], redOf i⟩ i (redOf i)) where
  sorted := hs
  forb := by
    intro j
    show j ∈ redOf i ↔ ∃ r ∈ [i], j ∈ redOf r
    simp
  look := by
    intro j r
    show mapAt ((redOf i).foldl (fun m j => mapPut j i m) []) j = .ok r ↔ r ∈ [i] ∧ j ∈ redOf r
    rw [mapAt_puts, List.mem_singleton]
    by_cases hj : j ∈ redOf i
    · rw [if_pos hj, Except.ok.injEq]
      constructor
      · rintro rfl; exact ⟨rfl, hj⟩
      · rintro ⟨rfl, _⟩; rfl
    · rw [if_neg hj]
      constructor
      · intro h; cases h
      · rintro ⟨rfl, h⟩; exact absurd h hj

/-- no row has two colors -/
abbrev Apart (cs : List Color) : Prop := cs.Pairwise fun c d => ∀ r ∈ c.rows, r ∉ d.rows

theorem place_ok {redOf : Nat → List Nat} {i : Nat} (hs : (redOf i).Pairwise (· < ·)) :
    ∀ (cs : List Color), (∀ c ∈ cs, GoodC redOf c) → (∀ c ∈ cs, i ∉ c.rows) → Apart cs →
      (∀ c ∈ place i (redOf i) cs, GoodC redOf c) ∧
      (∀ r, (∃ c ∈ place i (redOf i) cs, r ∈ c.rows) ↔ r = i ∨ ∃ c ∈ cs, r ∈ c.rows) ∧ Apart (place i (redOf i) cs)
  | [], _, _, _ => by
    refine ⟨fun c hc => ?_, fun r => ?_, List.pairwise_singleton _ _⟩
    · rw [place, List.mem_singleton] at hc
      rw [hc]; exact new_good hs
    · rw [place]
      simp only [List.mem_singleton, exists_eq_left, List.not_mem_nil, false_and, exists_false, or_false]
      show r ∈ [i] ↔ r = i
      simp
  | c :: cs, hg, hi, ha => by
    rw [place]
    obtain ⟨ha1, ha2⟩ := List.pairwise_cons.1 ha
    by_cases hc : intersects c.forbidden (redOf i) = true
    · rw [if_pos hc]
      obtain ⟨h1, h2, h3⟩ := place_ok hs cs (fun d hd => hg d (List.mem_cons_of_mem _ hd))
        (fun d hd => hi d (List.mem_cons_of_mem _ hd)) ha2
      refine ⟨fun d hd => ?_, fun r => ?_, List.pairwise_cons.2 ⟨fun d hd r hr hr' => ?_, h3⟩⟩
      · rcases List.mem_cons.1 hd with rfl | hd
        · exact hg _ List.mem_cons_self
        · exact h1 d hd
      · constructor
        · rintro ⟨d, hd, hr⟩
          rcases List.mem_cons.1 hd with rfl | hd
          · exact .inr ⟨_, List.mem_cons_self, hr⟩
          · rcases (h2 r).1 ⟨d, hd, hr⟩ with rfl | ⟨d', hd', hr'⟩
            · exact .inl rfl
            · exact .inr ⟨d', List.mem_cons_of_mem _ hd', hr'⟩
        · rintro (rfl | ⟨d, hd, hr⟩)
          · obtain ⟨d, hd, hr⟩ := (h2 r).2 (.inl rfl)
            exact ⟨d, List.mem_cons_of_mem _ hd, hr⟩
          · rcases List.mem_cons.1 hd with rfl | hd
            · exact ⟨_, List.mem_cons_self, hr⟩
            · obtain ⟨d', hd', hr'⟩ := (h2 r).2 (.inr ⟨d, hd, hr⟩)
              exact ⟨d', List.mem_cons_of_mem _ hd', hr'⟩
      · rcases (h2 r).1 ⟨d, hd, hr'⟩ with rfl | ⟨d', hd', hr''⟩
        · exact hi c List.mem_cons_self hr
        · exact ha1 d' hd' r hr hr''
    · rw [if_neg hc]
      have hd : ∀ j ∈ redOf i, j ∉ c.forbidden := fun j hj hj' =>
        hc ((intersects_spec (hg c List.mem_cons_self).sorted hs).2 ⟨j, hj', hj⟩)
      have hrows : ∀ r, r ∈ (({ c with forbidden := (redOf i).foldl (fun s j => setInsert j s) c.forbidden } : Color).add i
          (redOf i)).rows ↔ r = i ∨ r ∈ c.rows := fun r => mem_setInsert
      refine ⟨fun d hdm => ?_, fun r => ?_, List.pairwise_cons.2 ⟨fun d hdm r hr hr' => ?_, ha2⟩⟩
      · rcases List.mem_cons.1 hdm with rfl | hdm
        · exact add_good (hg c List.mem_cons_self) (hi c List.mem_cons_self) hd
        · exact hg d (List.mem_cons_of_mem _ hdm)
      · constructor
        · rintro ⟨d, hdm, hr⟩
          rcases List.mem_cons.1 hdm with rfl | hdm
          · rcases (hrows r).1 hr with rfl | hr
            · exact .inl rfl
            · exact .inr ⟨c, List.mem_cons_self, hr⟩
          · exact .inr ⟨d, List.mem_cons_of_mem _ hdm, hr⟩
        · rintro (rfl | ⟨d, hdm, hr⟩)
          · exact ⟨_, List.mem_cons_self, (hrows r).2 (.inl rfl)⟩
          · rcases List.mem_cons.1 hdm with rfl | hdm
            · exact ⟨_, List.mem_cons_self, (hrows r).2 (.inr hr)⟩
            · exact ⟨d, List.mem_cons_of_mem _ hdm, hr⟩
      · rcases (hrows r).1 hr with rfl | hr
        · exact hi d (List.mem_cons_of_mem _ hdm) hr'
        · exact ha1 d hdm r hr hr'

theorem reduceRow_sorted {columns : Option (List Nat)} {row : List Nat} (h : row.Pairwise (· < ·)) :
    (reduceRow columns row).Pairwise (· < ·) := by
  cases columns with
  | none => exact h
  | some cs => exact h.filter _

theorem colorLoop_ok {columns : Option (List Nat)} {redOf : Nat → List Nat} :
    ∀ (rows : Pattern) (i : Nat) (cs : List Color), Verif.Sparsity.Sorted rows →
      (∀ k row, rows[k]? = some row → redOf (i + k) = reduceRow columns row) →
      (∀ c ∈ cs, GoodC redOf c) → (∀ c ∈ cs, ∀ r ∈ c.rows, r < i) → Apart cs →
      (∀ c ∈ colorLoop columns i rows cs, GoodC redOf c) ∧ Apart (colorLoop columns i rows cs) ∧
      ∀ r, (∃ c ∈ colorLoop columns i rows cs, r ∈ c.rows) ↔
        (∃ c ∈ cs, r ∈ c.rows) ∨ ∃ k row, r = i + k ∧ rows[k]? = some row ∧ row ≠ []
  | [], i, cs, _, _, hg, _, ha => by
    refine ⟨hg, ha, fun r => ?_⟩
    show (∃ c ∈ cs, r ∈ c.rows) ↔ _
    simp
  | row :: rows, i, cs, hs, hr, hg, hi, ha => by
    rw [colorLoop]
    have hs' : Verif.Sparsity.Sorted rows := fun x hx => hs x (List.mem_cons_of_mem _ hx)
    have hr' : ∀ k row, rows[k]? = some row → redOf (i + 1 + k) = reduceRow columns row := fun k x hx => by
      have := hr (k + 1) x (by simpa using hx)
      rwa [show i + (k + 1) = i + 1 + k from by omega] at this
    have hshift : ∀ r, (∃ k x, r = i + 1 + k ∧ rows[k]? = some x ∧ x ≠ []) ∨ (r = i ∧ row ≠ []) ↔
        ∃ k x, r = i + k ∧ (row :: rows)[k]? = some x ∧ x ≠ [] := by
      intro r
      constructor
      · rintro (⟨k, x, rfl, hx, hne⟩ | ⟨rfl, hne⟩)
        · exact ⟨k + 1, x, by omega, by simpa using hx, hne⟩
        · exact ⟨0, row, rfl, rfl, hne⟩
      · rintro ⟨k, x, rfl, hx, hne⟩
        cases k with
        | zero =>
          simp only [List.getElem?_cons_zero, Option.some.injEq] at hx
          subst hx
          exact .inr ⟨rfl, hne⟩
        | succ k => exact .inl ⟨k, x, by omega, by simpa using hx, hne⟩
    by_cases he : row.length = 0
    · rw [if_pos he]
      obtain ⟨h1, h2, h3⟩ := colorLoop_ok rows (i + 1) cs hs' hr' hg
        (fun c hc r hrr => Nat.lt_succ_of_lt (hi c hc r hrr)) ha
      refine ⟨h1, h2, fun r => (h3 r).trans ?_⟩
      rw [← hshift]
      have : row = [] := List.length_eq_zero_iff.1 he
      simp [this]
    · rw [if_neg he]
      have hred : redOf i = reduceRow columns row := hr 0 row rfl
      rw [← hred]
      obtain ⟨p1, p2, p3⟩ := place_ok (redOf := redOf) (i := i)
        (by rw [hred]; exact reduceRow_sorted (hs row List.mem_cons_self)) cs hg
        (fun c hc h => Nat.lt_irrefl _ (hi c hc i h)) ha
      obtain ⟨h1, h2, h3⟩ := colorLoop_ok rows (i + 1) (place i (redOf i) cs) hs' hr' p1
        (fun c hc r hrr => by
          rcases (p2 r).1 ⟨c, hc, hrr⟩ with rfl | ⟨c', hc', hr''⟩
          · exact Nat.lt_succ_self _
          · exact Nat.lt_succ_of_lt (hi c' hc' r hr'')) p3
      refine ⟨h1, h2, fun r => (h3 r).trans ?_⟩
      rw [← hshift, p2]
      have : row ≠ [] := fun h => he (by rw [h]; rfl)
      simp only [this, ne_eq, not_false_eq_true, and_true]
      constructor
      · rintro ((h | h) | h)
        · exact .inr (.inr h)
        · exact .inl h
        · exact .inr (.inl h)
      · rintro (h | h | h)
        · exact .inl (.inr h)
        · exact .inr h
        · exact .inl (.inl h)

/-! ### retrieval -/

/-- the patterns of all equations: `m` patterns with `n` rows, whose elements are those of `P` -/
structure Pats (m n : Nat) (sps : List Pattern) (P : Nat → Nat → Nat → Prop) : Prop where
  len : sps.length = m
  rows : ∀ p ∈ sps, p.length = n
  sorted : ∀ p ∈ sps, Verif.Sparsity.Sorted p
  mem : ∀ i p, sps[i]? = some p → ∀ j k, Entry p j k ↔ P i j k

theorem Pats.congr {m n : Nat} {sps : List Pattern} {P Q : Nat → Nat → Nat → Prop} (h : Pats m n sps P)
    (hpq : ∀ i < m, ∀ j k, P i j k ↔ Q i j k) : Pats m n sps Q :=
  ⟨h.len, h.rows, h.sorted, fun i p hp j k => (h.mem i p hp j k).trans
    (hpq i (by rw [← h.len]; exact (List.getElem?_eq_some_iff.1 hp).1) j k)⟩

theorem insertRow_ok {m n : Nat} {sps : List Pattern} {P : Nat → Nat → Nat → Prop} (h : Pats m n sps P) {i j : Nat}
    (hi : i < m) (hj : j < n) (row : List Nat) :
    ∃ sps', insertRow sps i j row = .ok sps' ∧ Pats m n sps' fun i' j' k => P i' j' k ∨ (i' = i ∧ j' = j ∧ k ∈ row) := by
  have hi' : i < sps.length := by rw [h.len]; exact hi
  have hp : sps[i]? = some sps[i] := List.getElem?_eq_getElem hi'
  have hpl : sps[i].length = n := h.rows _ (List.getElem_mem hi')
  have hj' : j < sps[i].length := by rw [hpl]; exact hj
  have hr : sps[i][j]? = some sps[i][j] := List.getElem?_eq_getElem hj'
  have hps := h.sorted _ (List.getElem_mem hi')
  refine ⟨sps.set i (sps[i].set j (row.foldl (fun s k => setInsert k s) sps[i][j])), ?_, ?_, ?_, ?_, ?_⟩
  · rw [insertRow, hp]; simp only [hr]
  · rw [List.length_set, h.len]
  · intro p hpm
    rcases List.mem_or_eq_of_mem_set hpm with hpm | rfl
    · exact h.rows p hpm
    · rw [List.length_set, hpl]
  · intro p hpm
    rcases List.mem_or_eq_of_mem_set hpm with hpm | rfl
    · exact h.sorted p hpm
    · intro r hrm
      rcases List.mem_or_eq_of_mem_set hrm with hrm | rfl
      · exact hps r hrm
      · exact sorted_foldl_insert (hps _ (List.getElem_mem hj'))
  · intro i' p hp' j' k
    by_cases hii : i' = i
    · subst hii
      rw [List.getElem?_set_self hi', Option.some.injEq] at hp'
      subst hp'
      by_cases hjj : j' = j
      · subst hjj
        have := h.mem i' _ hp j' k
        constructor
        · rintro ⟨r, hr', hk⟩
          rw [List.getElem?_set_self hj', Option.some.injEq] at hr'
          subst hr'
          rcases mem_foldl_insert.1 hk with hk | hk
          · exact .inl (this.1 ⟨_, hr, hk⟩)
          · exact .inr ⟨rfl, rfl, hk⟩
        · rintro (hP | ⟨_, _, hk⟩)
          · obtain ⟨r, hr', hk⟩ := this.2 hP
            rw [hr, Option.some.injEq] at hr'
            subst hr'
            exact ⟨_, List.getElem?_set_self hj', mem_foldl_insert.2 (.inl hk)⟩
          · exact ⟨_, List.getElem?_set_self hj', mem_foldl_insert.2 (.inr hk)⟩
      · rw [Entry, List.getElem?_set_ne (Ne.symm hjj)]
        exact (h.mem i' _ hp j' k).trans ⟨.inl, fun h => h.resolve_right fun e => hjj e.2.1⟩
    · rw [List.getElem?_set_ne (Ne.symm hii)] at hp'
      exact (h.mem i' p hp' j' k).trans ⟨.inl, fun h => h.resolve_right fun e => hii e.1⟩

theorem retrieve_ok {m n : Nat} {sparsityc : Pattern} {c2r : List (Nat × Nat)} (hlen : sparsityc.length = n) :
    ∀ (js : List Nat) (sps : List Pattern) (P : Nat → Nat → Nat → Prop), Pats m n sps P →
      (∀ j ∈ js, j < n ∧ ∃ i < m, mapAt c2r j = .ok i) →
      ∃ sps', retrieve sparsityc c2r js sps = .ok sps' ∧
        Pats m n sps' fun i j k => P i j k ∨ (j ∈ js ∧ mapAt c2r j = .ok i ∧ Entry sparsityc j k)
  | [], sps, P, h, _ => ⟨sps, rfl, h.congr fun i _ j k => by simp⟩
  | j :: js, sps, P, h, hj => by
    obtain ⟨hjn, i, him, hat⟩ := hj j List.mem_cons_self
    have hjl : j < sparsityc.length := by rw [hlen]; exact hjn
    have hrow : sparsityc[j]? = some sparsityc[j] := List.getElem?_eq_getElem hjl
    rw [retrieve, hrow]
    simp only
    by_cases he : sparsityc[j].length > 0
    · rw [if_pos he, hat]
      simp only
      obtain ⟨s1, h1, h2⟩ := insertRow_ok h him hjn sparsityc[j]
      rw [h1]
      simp only
      obtain ⟨s2, h3, h4⟩ := retrieve_ok hlen js s1 _ h2 fun a ha => hj a (List.mem_cons_of_mem _ ha)
      refine ⟨s2, h3, h4.congr fun i' _ j' k => ?_⟩
      constructor
      · rintro ((hP | ⟨rfl, rfl, hk⟩) | ⟨hjs, hat', hk⟩)
        · exact .inl hP
        · exact .inr ⟨List.mem_cons_self, hat, _, hrow, hk⟩
        · exact .inr ⟨List.mem_cons_of_mem _ hjs, hat', hk⟩
      · rintro (hP | ⟨hjs, hat', hk⟩)
        · exact .inl (.inl hP)
        · rcases List.mem_cons.1 hjs with rfl | hjs
          · obtain ⟨r, hr, hk⟩ := hk
            rw [hrow, Option.some.injEq] at hr
            subst hr
            rw [hat, Except.ok.injEq] at hat'
            exact .inl (.inr ⟨hat'.symm, rfl, hk⟩)
          · exact .inr ⟨hjs, hat', hk⟩
    · rw [if_neg he]
      obtain ⟨s2, h3, h4⟩ := retrieve_ok hlen js sps P h fun a ha => hj a (List.mem_cons_of_mem _ ha)
      refine ⟨s2, h3, h4.congr fun i' _ j' k => ?_⟩
      constructor
      · rintro (hP | ⟨hjs, hat', hk⟩)
        · exact .inl hP
        · exact .inr ⟨List.mem_cons_of_mem _ hjs, hat', hk⟩
      · rintro (hP | ⟨hjs, hat', hk⟩)
        · exact .inl hP
        · rcases List.mem_cons.1 hjs with rfl | hjs
          · obtain ⟨r, hr, hk⟩ := hk
            rw [hrow, Option.some.injEq] at hr
            subst hr
            exact absurd (List.length_pos_of_mem hk) he
          · exact .inr ⟨hjs, hat', hk⟩

theorem eachColor_ok {m n : Nat} {rev : List Nat → List Nat → Pattern} {redOf : Nat → List Nat}
    (hlen : ∀ s e, (rev s e).length = n) :
    ∀ (cs : List Color) (sps : List Pattern) (P : Nat → Nat → Nat → Prop), Pats m n sps P →
      (∀ c ∈ cs, GoodC redOf c ∧ (∀ r ∈ c.rows, r < m) ∧ ∀ j ∈ c.forbidden, j < n) →
      ∃ sps', eachColor rev cs sps = .ok sps' ∧
        Pats m n sps' fun i j k => P i j k ∨ ∃ c ∈ cs, i ∈ c.rows ∧ j ∈ redOf i ∧ Entry (rev c.forbidden c.rows) j k
  | [], sps, P, h, _ => ⟨sps, rfl, h.congr fun i _ j k => by simp⟩
  | c :: cs, sps, P, h, hc => by
    obtain ⟨hg, hrm, hfn⟩ := hc c List.mem_cons_self
    obtain ⟨s1, h1, h2⟩ := retrieve_ok (hlen c.forbidden c.rows) (c2r := c.column2Row) c.forbidden sps P h fun j hj => by
      obtain ⟨r, hr, hjr⟩ := (hg.forb j).1 hj
      exact ⟨hfn j hj, r, hrm r hr, (hg.look j r).2 ⟨hr, hjr⟩⟩
    obtain ⟨s2, h3, h4⟩ := eachColor_ok hlen cs s1 _ h2 fun d hd => hc d (List.mem_cons_of_mem _ hd)
    refine ⟨s2, by rw [eachColor, h1]; exact h3, h4.congr fun i _ j k => ?_⟩
    simp only [List.mem_cons, hg.look]
    constructor
    · rintro ((hP | ⟨_, ⟨hi, hj⟩, hk⟩) | ⟨d, hd, hi, hj, hk⟩)
      · exact .inl hP
      · exact .inr ⟨c, .inl rfl, hi, hj, hk⟩
      · exact .inr ⟨d, .inr hd, hi, hj, hk⟩
    · rintro (hP | ⟨d, rfl | hd, hi, hj, hk⟩)
      · exact .inl (.inl hP)
      · exact .inl (.inr ⟨(hg.forb j).2 ⟨i, hi, hj⟩, ⟨hi, hj⟩, hk⟩)
      · exact .inr ⟨d, hd, hi, hj, hk⟩

theorem pats_empty (m n : Nat) : Pats m n (List.replicate m (List.replicate n [])) fun _ _ _ => False where
  len := List.length_replicate
  rows := by
    intro p hp
    rw [List.eq_of_mem_replicate hp, List.length_replicate]
  sorted := by
    intro p hp
    rw [List.eq_of_mem_replicate hp]
    exact Verif.Sparsity.sorted_replicate n
  mem := by
    intro i p hp j k
    rw [List.eq_of_mem_replicate (List.mem_of_getElem? hp)]
    exact ⟨Verif.Sparsity.entry_replicate, False.elim⟩

theorem mem_customVars {els : List (Nat × Nat)} {j : Nat} :
    j ∈ customVars els ↔ ∃ p ∈ els, j = p.1 ∨ j = p.2 := by
  rw [customVars, mem_foldl_insert, mem_foldl_insert]
  simp only [List.not_mem_nil, false_or, List.mem_map]
  constructor
  · rintro (⟨p, hp, rfl⟩ | ⟨p, hp, rfl⟩)
    · exact ⟨p, hp, .inl rfl⟩
    · exact ⟨p, hp, .inr rfl⟩
  · rintro ⟨p, hp, rfl | rfl⟩
    · exact .inl ⟨p, hp, rfl⟩
    · exact .inr ⟨p, hp, rfl⟩

theorem pick_ok {p : Pattern} {Q : Nat → Nat → Bool} : ∀ (els : List (Nat × Nat)),
    (∀ e ∈ els, e.1 < p.length) → (∀ e ∈ els, Entry p e.1 e.2 ↔ Q e.1 e.2 = true) →
    pick p els = .ok (els.filter fun e => Q e.1 e.2)
  | [], _, _ => rfl
  | (i1, i2) :: els, hl, hq => by
    have hi : i1 < p.length := hl _ List.mem_cons_self
    have hr : p[i1]? = some p[i1] := List.getElem?_eq_getElem hi
    have ih := pick_ok els (fun e he => hl e (List.mem_cons_of_mem _ he)) (fun e he => hq e (List.mem_cons_of_mem _ he))
    rw [pick, hr]
    simp only [ih]
    have h0 : Entry p i1 i2 ↔ Q i1 i2 = true := hq _ List.mem_cons_self
    by_cases hc : i2 ∈ p[i1]
    · rw [if_pos (List.contains_iff_mem.2 hc), List.filter_cons_of_pos (p := fun e : Nat × Nat => Q e.1 e.2) (h0.1 ⟨_, hr, hc⟩)]
    · rw [if_neg (fun h => hc (List.contains_iff_mem.1 h)), List.filter_cons_of_neg]
      intro h
      obtain ⟨r, hr', hm⟩ := h0.2 h
      rw [hr, Option.some.injEq] at hr'
      subst hr'
      exact hc hm

end Verif.Deriv
