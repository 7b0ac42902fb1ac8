import Verif.Orders.Model
import Mathlib.Data.Prod.Lex
namespace Verif.Orders

/-- a transitive, irreflexive, total relation -/
theorem strictWeak_of_total {α : Type} {lt : α → α → Bool} (h1 : ∀ a, lt a a = false)
    (h2 : ∀ a b c, lt a b = true → lt b c = true → lt a c = true)
    (h3 : ∀ a b, lt a b = false → lt b a = false → a = b) : StrictWeak lt ∧ KeyExact lt := by
  refine ⟨⟨h1, ?_, h2, ?_⟩, h3⟩
  · intro a b hab
    cases h : lt b a with
    | false => rfl
    | true => have := h2 a b a hab h; rw [h1] at this; cases this
  · intro a b c e1 e2 e3 e4
    have := h3 a b e1 e2; subst this
    have := h3 a c e3 e4; subst this
    exact ⟨h1 a, h1 a⟩

/-- order by a key -/
theorem strictWeak_of_key {α K : Type} [LinearOrder K] {lt : α → α → Bool} (key : α → K)
    (h : ∀ a b, lt a b = true ↔ key a < key b) : StrictWeak lt := by
  have hf : ∀ a b, lt a b = false ↔ key b ≤ key a := by
    intro a b
    rw [← Bool.not_eq_true, h, not_lt]
  refine ⟨fun a => (hf a a).2 le_rfl, ?_, ?_, ?_⟩
  · intro a b hab; rw [hf]; exact ((h a b).1 hab).le
  · intro a b c h1 h2; rw [h] at *; exact lt_trans h1 h2
  · intro a b c h1 h2 h3 h4
    rw [hf] at h1 h2 h3 h4
    exact ⟨(hf _ _).2 (h3.trans h1), (hf _ _).2 (h2.trans h4)⟩

section sets
variable {T : Type} [LinearOrder T]

theorem compareElems_self (a : List T) : compareElems a a = 0 := by
  induction a with
  | nil => rfl
  | cons x a ih => simp [compareElems, ih]

theorem compareElems_zero {a b : List T} (hl : a.length = b.length) (h : compareElems a b = 0) : a = b := by
  induction a generalizing b with
  | nil => cases b with
    | nil => rfl
    | cons y b => simp at hl
  | cons x a ih =>
    cases b with
    | nil => simp at hl
    | cons y b =>
      unfold compareElems at h
      split at h
      · cases h
      · split at h
        · cases h
        · have : x = y := le_antisymm (not_lt.1 (by assumption)) (not_lt.1 (by assumption))
          rw [this, ih (by simpa using hl) h]

theorem compareElems_swap (a b : List T) : compareElems b a = - compareElems a b := by
  induction a generalizing b with
  | nil => cases b <;> rfl
  | cons x a ih =>
    cases b with
    | nil => rfl
    | cons y b =>
      unfold compareElems
      rcases lt_trichotomy x y with h | h | h
      · simp [h, not_lt.2 h.le]
      · subst h; simp [ih]
      · simp [h, not_lt.2 h.le]

theorem compareElems_trans {a b c : List T} (hab : a.length = b.length) (hbc : b.length = c.length)
    (h1 : compareElems a b = -1) (h2 : compareElems b c = -1) : compareElems a c = -1 := by
  induction a generalizing b c with
  | nil => cases b <;> simp [compareElems] at h1
  | cons x a ih =>
    cases b with
    | nil => simp [compareElems] at h1
    | cons y b =>
      cases c with
      | nil => simp [compareElems] at h2
      | cons z c =>
        unfold compareElems at h1 h2 ⊢
        rcases lt_trichotomy x y with h | h | h
        · rcases lt_trichotomy y z with k | k | k
          · simp [h.trans k]
          · subst k; simp [h]
          · simp [k, not_lt.2 k.le] at h2
        · subst h
          simp only [lt_irrefl, if_false, gt_iff_lt] at h1
          rcases lt_trichotomy x z with k | k | k
          · simp [k]
          · subst k
            simp only [lt_irrefl, if_false, gt_iff_lt] at h2 ⊢
            exact ih (by simpa using hab) (by simpa using hbc) h1 h2
          · simp [k, not_lt.2 k.le] at h2
        · simp [h, not_lt.2 h.le] at h1

theorem compareSets_self (a : List T) : compareSets a a = 0 := by
  simp [compareSets, compareElems_self]

theorem compareSets_zero {a b : List T} (h : compareSets a b = 0) : a = b := by
  unfold compareSets at h
  split at h
  · cases h
  · split at h
    · cases h
    · exact compareElems_zero (by omega) h

theorem compareSets_swap (a b : List T) : compareSets b a = - compareSets a b := by
  unfold compareSets
  rcases Nat.lt_trichotomy a.length b.length with h | h | h
  · simp [h, Nat.lt_asymm h]
  · simp only [h, Nat.lt_irrefl, if_false, gt_iff_lt]
    exact compareElems_swap a b
  · simp [h, Nat.lt_asymm h]

theorem compareElems_range (a b : List T) :
    compareElems a b = -1 ∨ compareElems a b = 0 ∨ compareElems a b = 1 := by
  induction a generalizing b with
  | nil => cases b <;> simp [compareElems]
  | cons x a ih =>
    cases b with
    | nil => simp [compareElems]
    | cons y b =>
      unfold compareElems
      split
      · simp
      · split
        · simp
        · exact ih b

theorem compareSets_range (a b : List T) :
    compareSets a b = -1 ∨ compareSets a b = 0 ∨ compareSets a b = 1 := by
  unfold compareSets
  split
  · simp
  · split
    · simp
    · exact compareElems_range a b

theorem compareSets_trans {a b c : List T} (h1 : compareSets a b = -1) (h2 : compareSets b c = -1) :
    compareSets a c = -1 := by
  unfold compareSets at *
  rcases Nat.lt_trichotomy a.length b.length with h | h | h
  · rcases Nat.lt_trichotomy b.length c.length with k | k | k
    · simp [h.trans k]
    · simp [← k, h]
    · simp [k, Nat.lt_asymm k] at h2
  · rcases Nat.lt_trichotomy b.length c.length with k | k | k
    · simp [h, k]
    · simp [h] at h1
      simp [k] at h2
      simp [h, k]
      exact compareElems_trans h k h1 h2
    · simp [k, Nat.lt_asymm k] at h2
  · simp [h, Nat.lt_asymm h] at h1

theorem setLess_order : StrictWeak (setLess (T := T)) ∧ KeyExact (setLess (T := T)) := by
  apply strictWeak_of_total
  · intro a; simp [setLess, compareSets_self]
  · intro a b c h1 h2
    simp only [setLess, beq_iff_eq] at *
    exact compareSets_trans h1 h2
  · intro a b h1 h2
    simp only [setLess, beq_eq_false_iff_ne] at *
    rw [compareSets_swap a b] at h2
    rcases compareSets_range a b with h | h | h
    · exact absurd h h1
    · exact compareSets_zero h
    · exact absurd (by rw [h]) h2

theorem contribLess_self (a : List (List T)) : contribLess a a = false := by
  induction a with
  | nil => rfl
  | cons x a ih => simp [contribLess, compareSets_self, ih]

theorem contribLess_trans {a b c : List (List T)}
    (h1 : contribLess a b = true) (h2 : contribLess b c = true) : contribLess a c = true := by
  induction a generalizing b c with
  | nil => cases b <;> simp [contribLess] at h1
  | cons x a ih =>
    cases b with
    | nil => simp [contribLess] at h1
    | cons y b =>
      cases c with
      | nil => simp [contribLess] at h2
      | cons z c =>
        unfold contribLess at h1 h2 ⊢
        simp only at h1 h2 ⊢
        by_cases hxy : compareSets x y = 0
        · have := compareSets_zero hxy
          subst this
          rw [if_neg (by simpa using hxy)] at h1
          by_cases hxz : compareSets x z = 0
          · rw [if_neg (by simpa using hxz)] at h2 ⊢
            exact ih h1 h2
          · rw [if_pos hxz] at h2 ⊢
            exact h2
        · rw [if_pos hxy] at h1
          by_cases hyz : compareSets y z = 0
          · have := compareSets_zero hyz
            subst this
            rw [if_pos hxy]
            exact h1
          · rw [if_pos hyz] at h2
            rw [beq_iff_eq] at h1 h2
            have := compareSets_trans h1 h2
            simp [this]

theorem contribLess_total {a b : List (List T)} (hl : a.length = b.length)
    (h1 : contribLess a b = false) (h2 : contribLess b a = false) : a = b := by
  induction a generalizing b with
  | nil => cases b with
    | nil => rfl
    | cons y b => simp at hl
  | cons x a ih =>
    cases b with
    | nil => simp at hl
    | cons y b =>
      unfold contribLess at h1 h2
      simp only at h1 h2
      rw [compareSets_swap x y] at h2
      rcases compareSets_range x y with h | h | h
      · rw [h] at h1; simp at h1
      · rw [h] at h1 h2
        simp at h1 h2
        rw [compareSets_zero h, ih (by simpa using hl) h1 h2]
      · rw [h] at h2; simp at h2

end sets

theorem indexedIndepLess_self (a : List (Option Nat)) : indexedIndepLess a a = false := by
  induction a with
  | nil => rfl
  | cons x a ih => cases x <;> simp [indexedIndepLess, ih]

theorem indexedIndepLess_trans {a b c : List (Option Nat)} (hab : a.length = b.length)
    (hbc : b.length = c.length) (h1 : indexedIndepLess a b = true) (h2 : indexedIndepLess b c = true) :
    indexedIndepLess a c = true := by
  induction a generalizing b c with
  | nil => simp [indexedIndepLess] at h1
  | cons x a ih =>
    cases b with
    | nil => simp at hab
    | cons y b =>
      cases c with
      | nil => simp at hbc
      | cons z c =>
        have ih' := @ih b c (by simpa using hab) (by simpa using hbc)
        cases x <;> cases y <;> cases z <;> simp only [indexedIndepLess] at h1 h2 ⊢ <;> try cases h1
        all_goals try cases h2
        · exact ih' h1 h2
        · rename_i i j k
          rcases Nat.lt_trichotomy i j with h | h | h
          · rcases Nat.lt_trichotomy j k with h' | h' | h'
            · simp [h.trans h']
            · subst h'; simp [h]
            · simp [h', Nat.lt_asymm h'] at h2
          · subst h
            simp at h1
            rcases Nat.lt_trichotomy i k with h' | h' | h'
            · simp [h']
            · subst h'; simp at h2 ⊢; exact ih' h1 h2
            · simp [h', Nat.lt_asymm h'] at h2
          · simp [h, Nat.lt_asymm h] at h1

theorem indexedIndepLess_total {a b : List (Option Nat)} (hl : a.length = b.length)
    (h1 : indexedIndepLess a b = false) (h2 : indexedIndepLess b a = false) : a = b := by
  induction a generalizing b with
  | nil => cases b with
    | nil => rfl
    | cons y b => simp at hl
  | cons x a ih =>
    cases b with
    | nil => simp at hl
    | cons y b =>
      have ih' := @ih b (by simpa using hl)
      cases x <;> cases y <;> simp only [indexedIndepLess] at h1 h2 <;> try cases h1
      all_goals try cases h2
      · rw [ih' h1 h2]
      · rename_i i j
        rcases Nat.lt_trichotomy i j with h | h | h
        · simp [h] at h1
        · subst h; simp at h1 h2; rw [ih' h1 h2]
        · simp [h] at h2

end Verif.Orders
