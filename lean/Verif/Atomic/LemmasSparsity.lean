import Verif.Atomic.ModelSparsity
import Verif.Sparsity.Props
/-
Lemmas on the sparsity functions of atomic functions.
-/
namespace Verif.Atomic
open Verif.Sparsity

theorem clearRows_ok {k : Nat} {s : Pattern} (h : k ≤ s.length) :
    ∃ s', clearRows k s = some s' ∧ s'.length = s.length ∧ ∀ i c, Entry s' i c ↔ k ≤ i ∧ Entry s i c := by
  refine ⟨_, by rw [clearRows, if_pos h], by simp; omega, fun i c => ?_⟩
  by_cases hi : i < k
  · have : (List.replicate k [] ++ s.drop k)[i]? = some [] := by
      rw [List.getElem?_append_left (by simpa using hi), List.getElem?_replicate, if_pos hi]
    rw [entry_of_get this]
    simp only [List.not_mem_nil, false_iff, not_and]
    intro; omega
  · have : (List.replicate k [] ++ s.drop k)[i]? = s[i]? := by
      rw [List.getElem?_append_right (by simp; omega), List.getElem?_drop]
      simp only [List.length_replicate]
      congr 1; omega
    simp only [Entry, this]
    constructor
    · intro h; exact ⟨by omega, h⟩
    · intro h; exact h.2

theorem allSelected_ok {s : List Bool} : ∀ (k i : Nat), i + k ≤ s.length →
    ∃ b, allSelectedFrom s i k = some b ∧ (b = true ↔ ∀ l, i ≤ l → l < i + k → s[l]? = some true)
  | 0, i, _ => ⟨true, rfl, by simp; intro l h1 h2; omega⟩
  | k + 1, i, h => by
    have hi : s[i]? = some s[i] := List.getElem?_eq_getElem (by omega)
    obtain ⟨b, h1, h2⟩ := allSelected_ok (s := s) k (i + 1) (by omega)
    rw [allSelectedFrom, hi]
    cases hs : s[i] with
    | false =>
      refine ⟨false, rfl, ?_⟩
      simp only [Bool.false_eq_true, false_iff]
      intro hall
      have := hall i (by omega) (by omega)
      rw [hi, hs] at this
      cases this
    | true =>
      refine ⟨b, h1, h2.trans ⟨fun hall l h3 h4 => ?_, fun hall l h3 h4 => hall l (by omega) (by omega)⟩⟩
      by_cases hl : l = i
      · subst hl; rw [hi, hs]
      · exact hall l (by omega) (by omega)

theorem sumHess_ok {hes : Nat → Pattern} {s : List Bool} {m n : Nat} (hs : m ≤ s.length)
    (hlen : ∀ i < m, (hes i).length = n) (hsort : ∀ i < m, Sorted (hes i)) :
    ∃ h, sumHess hes s m n = some h ∧ h.length = n ∧ Sorted h ∧
      ∀ j k, Entry h j k ↔ ∃ i, i < m ∧ s[i]? = some true ∧ Entry (hes i) j k := by
  rw [sumHess]
  obtain ⟨h, h1, h2, h3, h4⟩ := foldlM_range (fun (acc : Pattern) i => do
    let b ← s[i]?
    if b then addMatrix (hes i) (hes i).length acc else pure acc)
    (fun l acc => acc.length = n ∧ Sorted acc ∧
      ∀ j k, Entry acc j k ↔ ∃ i, i < l ∧ s[i]? = some true ∧ Entry (hes i) j k) m (by
    intro i hi acc ⟨ha, hb, hc⟩
    have hget : s[i]? = some s[i] := List.getElem?_eq_getElem (by omega)
    cases hsi : s[i] with
    | false =>
      refine ⟨acc, by rw [hget, hsi]; rfl, ha, hb, fun j k => (hc j k).trans ⟨?_, ?_⟩⟩
      · rintro ⟨l, h1, h2⟩; exact ⟨l, by omega, h2⟩
      · rintro ⟨l, h1, h2, h3⟩
        have : l ≠ i := by rintro rfl; rw [hget, hsi] at h2; cases h2
        exact ⟨l, by omega, h2, h3⟩
    | true =>
      obtain ⟨r, hr1, hr2, hr3, hr4⟩ := addMatrix_spec (a := hes i) (r := acc) (m := (hes i).length) (Nat.le_refl _)
        (Nat.le_of_eq ((hlen i hi).trans ha.symm)) (hsort i hi)
      refine ⟨r, by rw [hget, hsi]; exact hr1, hr2.trans ha, hr3 hb, fun j k => ?_⟩
      rw [hr4, hc]
      constructor
      · rintro (⟨l, h1, h2⟩ | ⟨_, h⟩)
        · exact ⟨l, by omega, h2⟩
        · exact ⟨i, by omega, by rw [hget, hsi], h⟩
      · rintro ⟨l, h1, h2, h3⟩
        by_cases hl : l = i
        · subst hl; exact .inr ⟨entry_lt h3, h3⟩
        · exact .inl ⟨l, by omega, h2, h3⟩) (List.replicate n []) ⟨by simp, sorted_replicate n, fun j k => by
      constructor
      · intro h; exact absurd h entry_replicate
      · rintro ⟨_, h, _⟩; omega⟩
  exact ⟨h, h1, h2, h3, h4⟩

theorem setTrue_fold : ∀ (js : List Nat) (t : List Bool), (∀ j ∈ js, j < t.length) →
    ∃ t', js.foldlM setTrue t = some t' ∧ t'.length = t.length ∧ ∀ j : Nat, t'[j]? = some true ↔ t[j]? = some true ∨ j ∈ js
  | [], t, _ => ⟨t, rfl, rfl, by simp⟩
  | a :: js, t, h => by
    have ha := h a (by simp)
    obtain ⟨t', h1, h2, h3⟩ := setTrue_fold js (t.set a true) (fun j hj => by
      rw [List.length_set]; exact h j (List.mem_cons_of_mem _ hj))
    refine ⟨t', ?_, by rw [h2, List.length_set], fun j => ?_⟩
    · rw [List.foldlM_cons, setTrue, if_pos ha]; exact h1
    · rw [h3, List.mem_cons, List.getElem?_set]
      by_cases hj : a = j
      · subst hj
        simp [ha]
      · rw [if_neg hj]
        constructor
        · rintro (h | h)
          · exact .inl h
          · exact .inr (.inr h)
        · rintro (h | rfl | h)
          · exact .inl h
          · exact absurd rfl hj
          · exact .inr h

theorem selectFlags_ok {jac : Pattern} {s : List Bool} {m n : Nat} {t : List Bool} (hs : m ≤ s.length)
    (hj : Dims jac m n) (ht : n ≤ t.length) :
    ∃ t', selectFlags jac s m t = some t' ∧ t'.length = t.length ∧
      ∀ j : Nat, t'[j]? = some true ↔ t[j]? = some true ∨ ∃ i, i < m ∧ s[i]? = some true ∧ Entry jac i j := by
  rw [selectFlags]
  exact foldlM_range (fun (t : List Bool) i => do
    let b ← s[i]?
    if b then do
      let row ← jac[i]?
      row.foldlM setTrue t
    else pure t)
    (fun l t' => t'.length = t.length ∧
      ∀ j : Nat, t'[j]? = some true ↔ t[j]? = some true ∨ ∃ i, i < l ∧ s[i]? = some true ∧ Entry jac i j) m (by
    intro i hi acc ⟨ha, hb⟩
    have hget : s[i]? = some s[i] := List.getElem?_eq_getElem (by omega)
    cases hsi : s[i] with
    | false =>
      refine ⟨acc, by rw [hget, hsi]; rfl, ha, fun j => (hb j).trans (or_congr Iff.rfl ⟨?_, ?_⟩)⟩
      · rintro ⟨l, h1, h2⟩; exact ⟨l, by omega, h2⟩
      · rintro ⟨l, h1, h2, h3⟩
        have : l ≠ i := by rintro rfl; rw [hget, hsi] at h2; cases h2
        exact ⟨l, by omega, h2, h3⟩
    | true =>
      obtain ⟨row, hrow, hcol⟩ := hj.get hi
      obtain ⟨t', h1, h2, h3⟩ := setTrue_fold row acc (fun j hjr => by
        rw [ha]
        exact Nat.lt_of_lt_of_le (hj.2 i j hi ⟨row, hrow, hjr⟩) ht)
      refine ⟨t', by rw [hget, hsi]; simp only [Option.bind_eq_bind, Option.bind_some, if_true, hrow]; exact h1,
        h2.trans ha, fun j => ?_⟩
      rw [h3, hb, or_assoc]
      refine or_congr Iff.rfl ⟨?_, ?_⟩
      · rintro (⟨l, h4, h5⟩ | h4)
        · exact ⟨l, by omega, h5⟩
        · exact ⟨i, by omega, by rw [hget, hsi], row, hrow, h4⟩
      · rintro ⟨l, h4, h5, h6⟩
        by_cases hl : l = i
        · subst hl; exact .inr ((entry_of_get hrow j).1 h6)
        · exact .inl ⟨l, by omega, h5, h6⟩) t ⟨rfl, fun j => by simp⟩

theorem resizeRows_eq {n : Nat} {p : Pattern} (h : p.length = n) : resizeRows n p = p := by
  subst h; simp [resizeRows]

/-! ### filters -/

/-- the table has `m` rows and `n` columns -/
def Table (f : List (List Bool)) (m n : Nat) : Prop := f.length = m ∧ ∀ i < m, ∃ row, f[i]? = some row ∧ row.length = n

def Allowed (f : List (List Bool)) (i j : Nat) : Prop := ∃ row, f[i]? = some row ∧ row[j]? = some true

theorem allow_ok {f : List (List Bool)} {m n : Nat} (hf : Table f m n) {e : Nat × Nat} (h1 : e.1 < m) (h2 : e.2 < n) :
    ∃ f', allow f e = some f' ∧ Table f' m n ∧ ∀ i j, Allowed f' i j ↔ Allowed f i j ∨ (i, j) = e := by
  obtain ⟨row, hr, hl⟩ := hf.2 e.1 h1
  refine ⟨f.set e.1 (row.set e.2 true), by rw [allow, hr]; simp only; rw [if_pos (by omega)],
    ⟨by rw [List.length_set, hf.1], fun i hi => ?_⟩, fun i j => ?_⟩
  · by_cases he : e.1 = i
    · subst he
      exact ⟨_, List.getElem?_set_self (by rw [hf.1]; exact h1), by rw [List.length_set, hl]⟩
    · rw [List.getElem?_set_ne he]; exact hf.2 i hi
  · obtain ⟨a, b⟩ := e
    simp only [Allowed, Prod.mk.injEq] at *
    by_cases he : a = i
    · subst he
      rw [List.getElem?_set_self (by rw [hf.1]; exact h1), hr]
      simp only [Option.some.injEq, exists_eq_left', List.getElem?_set]
      by_cases hb : b = j
      · subst hb; simp [hl, h2]
      · rw [if_neg hb]
        simp only [true_and]
        constructor
        · exact .inl
        · rintro (h | h)
          · exact h
          · exact absurd h.symm hb
    · rw [List.getElem?_set_ne he]
      constructor
      · exact .inl
      · rintro (h | h)
        · exact h
        · exact absurd h.1.symm he

theorem allow_fold {m n : Nat} : ∀ (es : List (Nat × Nat)) (f : List (List Bool)), Table f m n →
    (∀ e ∈ es, e.1 < m ∧ e.2 < n) →
    ∃ f', es.foldlM allow f = some f' ∧ Table f' m n ∧ ∀ i j, Allowed f' i j ↔ Allowed f i j ∨ (i, j) ∈ es
  | [], f, hf, _ => ⟨f, rfl, hf, by simp⟩
  | e :: es, f, hf, h => by
    obtain ⟨f1, h1, h2, h3⟩ := allow_ok hf (h e (by simp)).1 (h e (by simp)).2
    obtain ⟨f2, h4, h5, h6⟩ := allow_fold es f1 h2 fun e he => h e (List.mem_cons_of_mem _ he)
    refine ⟨f2, by rw [List.foldlM_cons, h1]; exact h4, h5, fun i j => ?_⟩
    rw [h6, h3, List.mem_cons, or_assoc]

theorem custom_ok {m n : Nat} {rows cols : List Nat} (h : ∀ e ∈ rows.zip cols, e.1 < m ∧ e.2 < n) :
    ∃ f, Custom.mk' m n rows cols = some ⟨some f, .none⟩ ∧ Table f m n ∧ ∀ i j, Allowed f i j ↔ (i, j) ∈ rows.zip cols := by
  obtain ⟨f, h1, h2, h3⟩ := allow_fold (rows.zip cols) (List.replicate m (List.replicate n false))
    ⟨by simp, fun i hi => ⟨List.replicate n false, by simp [hi], by simp⟩⟩ h
  refine ⟨f, by rw [Custom.mk', h1], h2, fun i j => (h3 i j).trans ?_⟩
  constructor
  · rintro (⟨row, h4, h5⟩ | h4)
    · rw [List.getElem?_replicate] at h4
      split at h4
      · injection h4 with h4; subst h4
        rw [List.getElem?_replicate] at h5
        split at h5 <;> simp at h5
      · cases h4
    · exact h4
  · exact .inr

theorem filterRow_ok {f : List Bool} : ∀ {row : List Nat}, (∀ j ∈ row, j < f.length) →
    ∃ r, filterRow f row = some r ∧ (row.Pairwise (· < ·) → r.Pairwise (· < ·)) ∧
      ∀ j, j ∈ r ↔ j ∈ row ∧ f[j]? = some true
  | [], _ => ⟨[], rfl, fun h => h, by simp⟩
  | a :: row, h => by
    obtain ⟨r, h1, h2, h3⟩ := filterRow_ok (f := f) (row := row) fun j hj => h j (List.mem_cons_of_mem _ hj)
    have hlt : a < f.length := h a (by simp)
    have ha : f[a]? = some f[a] := List.getElem?_eq_getElem hlt
    rw [filterRow, ha, h1]
    refine ⟨_, rfl, fun hp => ?_, fun j => ?_⟩
    · rw [List.pairwise_cons] at hp
      cases f[a] with
      | false => exact h2 hp.2
      | true =>
        simp only [if_true, List.pairwise_cons]
        exact ⟨fun j hj => hp.1 j ((h3 j).1 hj).1, h2 hp.2⟩
    · cases hb : f[a] with
      | false =>
        simp only [Bool.false_eq_true, if_false, h3, List.mem_cons]
        constructor
        · rintro ⟨h4, h5⟩; exact ⟨.inr h4, h5⟩
        · rintro ⟨rfl | h4, h5⟩
          · rw [ha, hb] at h5; cases h5
          · exact ⟨h4, h5⟩
      | true =>
        simp only [if_true, h3, List.mem_cons]
        constructor
        · rintro (rfl | ⟨h4, h5⟩)
          · exact ⟨.inl rfl, by rw [ha, hb]⟩
          · exact ⟨.inr h4, h5⟩
        · rintro ⟨rfl | h4, h5⟩
          · exact .inl rfl
          · exact .inr ⟨h4, h5⟩

theorem filterFrom_ok {f : List (List Bool)} {m n : Nat} (hf : Table f m n) : ∀ (p : Pattern) (i : Nat), i + p.length ≤ m →
    (∀ row ∈ p, ∀ j ∈ row, j < n) →
    ∃ p', filterFrom f i p = some p' ∧ p'.length = p.length ∧ (Sorted p → Sorted p') ∧
      ∀ l j, Entry p' l j ↔ Entry p l j ∧ Allowed f (i + l) j
  | [], _, _, _ => ⟨[], rfl, rfl, fun h => h, by simp [Entry]⟩
  | row :: rows, i, hi, h => by
    simp only [List.length_cons] at hi
    obtain ⟨fr, hfr, hfl⟩ := hf.2 i (by omega)
    obtain ⟨r, h1, h2, h3⟩ := filterRow_ok (f := fr) (row := row) fun j hj => by rw [hfl]; exact h row (by simp) j hj
    obtain ⟨rs, h4, h5, h6, h7⟩ := filterFrom_ok hf rows (i + 1) (by omega) fun row hr => h row (List.mem_cons_of_mem _ hr)
    refine ⟨r :: rs, ?_, by simp [h5], fun hs => ?_, fun l j => ?_⟩
    · rw [filterFrom, List.getD_eq_getElem?_getD, hfr]
      simp only [Option.getD_some, h1, h4]
    · intro row' hr
      rcases List.mem_cons.1 hr with rfl | hr
      · exact h2 (hs row (by simp))
      · exact h6 (fun row hr => hs row (List.mem_cons_of_mem _ hr)) row' hr
    · cases l with
      | zero =>
        simp only [Entry, List.getElem?_cons_zero, Option.some.injEq, exists_eq_left', h3, Allowed, Nat.add_zero, hfr]
      | succ l =>
        have := h7 l j
        simp only [Entry, List.getElem?_cons_succ] at this ⊢
        rw [this, show i + 1 + l = i + (l + 1) by omega]

end Verif.Atomic
