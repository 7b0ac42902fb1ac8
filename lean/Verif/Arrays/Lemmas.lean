import Verif.Arrays.Spec
import Verif.Arrays.Model
import Mathlib.Tactic.ByContra
import Mathlib.Tactic.Push
namespace Verif.Arrays

/-! ### maps -/

theorem mfind_some {k v : Nat} {l : List (Nat × Nat)} (h : mfind k l = some v) : (k, v) ∈ l := by
  unfold mfind at h
  rw [Option.map_eq_some_iff] at h
  obtain ⟨⟨a, b⟩, h1, h2⟩ := h
  have := List.find?_some h1
  simp only [beq_iff_eq] at this h2
  subst this; subst h2
  exact List.mem_of_find?_eq_some h1

theorem mfind_none {k : Nat} {l : List (Nat × Nat)} (h : mfind k l = none) : ∀ v, (k, v) ∉ l := by
  unfold mfind at h
  rw [Option.map_eq_none_iff, List.find?_eq_none] at h
  intro v hv
  simpa using h _ hv

theorem mem_merase {k : Nat} {l : List (Nat × Nat)} {p : Nat × Nat} : p ∈ merase k l ↔ p ∈ l ∧ p.1 ≠ k := by
  unfold merase
  simp [List.mem_filter]

theorem mem_minsert {k v : Nat} {l : List (Nat × Nat)} {p : Nat × Nat} :
    p ∈ minsert k v l ↔ p = (k, v) ∨ p ∈ l ∧ p.1 ≠ k := by
  unfold minsert
  simp only [List.mem_append, List.mem_filter, List.mem_cons, decide_eq_true_eq]
  constructor
  · rintro (⟨h1, h2⟩ | h | ⟨h1, h2⟩)
    · exact .inr ⟨h1, by omega⟩
    · exact .inl h
    · exact .inr ⟨h1, by omega⟩
  · rintro (h | ⟨h1, h2⟩)
    · exact .inr (.inl h)
    · rcases Nat.lt_or_gt_of_ne h2 with h | h
      · exact .inl ⟨h1, h⟩
      · exact .inr (.inr ⟨h1, h⟩)

/-! ### free space -/

variable {V : Type}

/-- the free spaces: both maps agree, the spaces are below the count and not adjacent -/
structure Free (s : Comp V) : Prop where
  pos : 0 < s.count
  agree : ∀ a b, (a, b) ∈ s.starts ↔ (b, a) ∈ s.ends
  le : ∀ a b, (a, b) ∈ s.starts → a ≤ b ∧ b + 1 < s.count
  apart : ∀ a b a' b', (a, b) ∈ s.starts → (a', b') ∈ s.starts → (a, b) = (a', b') ∨ b + 1 < a' ∨ b' + 1 < a

/-- a cell of a free space -/
def FreeCell (s : Comp V) (c : Nat) : Prop := ∃ a b, (a, b) ∈ s.starts ∧ a ≤ c ∧ c ≤ b

theorem Free.init (size : Nat) : Free (Comp.init V size) :=
  ⟨Nat.one_pos, fun _ _ => by simp [Comp.init], fun _ _ h => by simp [Comp.init] at h, fun _ _ _ _ h => by simp [Comp.init] at h⟩

theorem addFree_count (s : Comp V) (st n : Nat) : (s.addFree st n).count = s.count := by
  unfold Comp.addFree
  split <;> rfl

theorem addFree_tmp (s : Comp V) (st n : Nat) : (s.addFree st n).tmp = s.tmp := by
  unfold Comp.addFree
  split <;> rfl

/-- a range whose cells are not free becomes free -/
theorem Free.addFree {s : Comp V} (h : Free s) {st n : Nat} (hn : 0 < n) (hb : st + n < s.count)
    (hno : ∀ c, InRange st n c → ¬ FreeCell s c) :
    Free (s.addFree st n) ∧ ∀ c, FreeCell (s.addFree st n) c ↔ FreeCell s c ∨ InRange st n c := by
  have hsep : ∀ a b, (a, b) ∈ s.starts → b < st ∨ st + n ≤ a := by
    intro a b hab
    by_contra hc
    push Not at hc
    have := (h.le a b hab).1
    rcases Nat.le_total a st with h1 | h1
    · exact hno st ⟨Nat.le_refl _, by omega⟩ ⟨a, b, hab, h1, by omega⟩
    · exact hno a ⟨h1, by omega⟩ ⟨a, b, hab, Nat.le_refl _, this⟩
  -- the previous and the next free space
  obtain ⟨start, hstart, hst1, hst2⟩ : ∃ start, ((if st > 0 then mfind (st - 1) s.ends else none).getD st = start) ∧
      (((if st > 0 then mfind (st - 1) s.ends else none).isSome = true ∧ 0 < st ∧ (start, st - 1) ∈ s.starts) ∨
       ((if st > 0 then mfind (st - 1) s.ends else none).isSome = false ∧ start = st ∧ ∀ a b, (a, b) ∈ s.starts → b + 1 ≠ st)) ∧
      start ≤ st := by
    by_cases hp : st > 0
    · rw [if_pos hp]
      cases hf : mfind (st - 1) s.ends with
      | some a =>
        have := (h.agree a (st - 1)).mpr (mfind_some hf)
        have hle := (h.le _ _ this).1
        exact ⟨a, rfl, .inl ⟨rfl, hp, this⟩, by omega⟩
      | none =>
        refine ⟨st, rfl, .inr ⟨rfl, rfl, fun a b hab he => ?_⟩, Nat.le_refl _⟩
        have : b = st - 1 := by omega
        subst this
        exact mfind_none hf a ((h.agree a _).mp hab)
    · rw [if_neg hp]
      exact ⟨st, rfl, .inr ⟨rfl, rfl, fun a b _ he => by omega⟩, Nat.le_refl _⟩
  unfold Comp.addFree
  rw [if_neg (by omega : ¬ n = 0)]
  simp only [hstart]
  generalize hpv : (if st > 0 then mfind (st - 1) s.ends else none) = prev at *
  -- the maps after the first merge
  obtain ⟨starts1, hs1, hm1⟩ : ∃ l, (if prev.isSome = true then merase start s.starts else s.starts) = l ∧
      ∀ a b, (a, b) ∈ l ↔ (a, b) ∈ s.starts ∧ b + 1 ≠ st := by
    refine ⟨_, rfl, fun a b => ?_⟩
    rcases hst1 with ⟨e, hp, hmem⟩ | ⟨e, _, hnone⟩
    · rw [if_pos e, mem_merase]
      refine ⟨fun ⟨h1, h2⟩ => ⟨h1, fun he => ?_⟩, fun ⟨h1, h2⟩ => ⟨h1, fun he => ?_⟩⟩
      · rcases h.apart a b _ _ h1 hmem with h3 | h3 | h3
        · cases h3; exact h2 rfl
        · have := h.le _ _ hmem; have := h.le _ _ h1; omega
        · have := h.le _ _ hmem; have := h.le _ _ h1; omega
      · simp only at he
        subst he
        rcases h.apart a b _ _ h1 hmem with h3 | h3 | h3
        · cases h3; exact h2 (by omega)
        · have := h.le _ _ h1; omega
        · have := h.le _ _ hmem; omega
    · rw [if_neg (by rw [e]; decide)]
      exact ⟨fun h1 => ⟨h1, hnone a b h1⟩, fun h1 => h1.1⟩
  obtain ⟨ends1, he1, hm2⟩ : ∃ l, (if prev.isSome = true then merase (st - 1) s.ends else s.ends) = l ∧
      ∀ a b, (b, a) ∈ l ↔ (a, b) ∈ s.starts ∧ b + 1 ≠ st := by
    refine ⟨_, rfl, fun a b => ?_⟩
    rcases hst1 with ⟨e, hp, hmem⟩ | ⟨e, _, hnone⟩
    · rw [if_pos e, mem_merase, ← h.agree]
      simp only
      constructor
      · rintro ⟨h1, h2⟩; exact ⟨h1, by omega⟩
      · rintro ⟨h1, h2⟩; exact ⟨h1, by omega⟩
    · rw [if_neg (by rw [e]; decide), ← h.agree]
      exact ⟨fun h1 => ⟨h1, hnone a b h1⟩, fun h1 => h1.1⟩
  rw [hs1, he1]
  have hend : st + n - 1 + 1 = st + n := by omega
  rw [hend]
  obtain ⟨last, hlast, hl1, hl2⟩ : ∃ last, (mfind (st + n) starts1).getD (st + n - 1) = last ∧
      (((mfind (st + n) starts1).isSome = true ∧ (st + n, last) ∈ s.starts) ∨
       ((mfind (st + n) starts1).isSome = false ∧ last = st + n - 1 ∧ ∀ a b, (a, b) ∈ s.starts → a ≠ st + n)) ∧
      st + n - 1 ≤ last ∧ last + 1 < s.count := by
    cases hf : mfind (st + n) starts1 with
    | some b =>
      have h1 := (hm1 _ _).mp (mfind_some hf)
      have := h.le _ _ h1.1
      exact ⟨b, rfl, .inl ⟨rfl, h1.1⟩, by omega, this.2⟩
    | none =>
      refine ⟨st + n - 1, rfl, .inr ⟨rfl, rfl, fun a b hab he => ?_⟩, Nat.le_refl _, by omega⟩
      subst he
      exact mfind_none hf b ((hm1 _ _).mpr ⟨hab, by have := h.le _ _ hab; omega⟩)
  rw [hlast]
  generalize hnx : mfind (st + n) starts1 = next at *
  obtain ⟨starts2, hs2, hm3⟩ : ∃ l, (if next.isSome = true then merase (st + n) starts1 else starts1) = l ∧
      ∀ a b, (a, b) ∈ l ↔ (a, b) ∈ s.starts ∧ b + 1 ≠ st ∧ a ≠ st + n := by
    refine ⟨_, rfl, fun a b => ?_⟩
    rcases hl1 with ⟨e, hmem⟩ | ⟨e, _, hnone⟩
    · rw [if_pos e, mem_merase, hm1]
      simp only
      constructor
      · rintro ⟨⟨h1, h2⟩, h3⟩; exact ⟨h1, h2, h3⟩
      · rintro ⟨h1, h2, h3⟩; exact ⟨⟨h1, h2⟩, h3⟩
    · rw [if_neg (by rw [e]; decide), hm1]
      exact ⟨fun h1 => ⟨h1.1, h1.2, hnone a b h1.1⟩, fun h1 => ⟨h1.1, h1.2.1⟩⟩
  obtain ⟨ends2, he2, hm4⟩ : ∃ l, (if next.isSome = true then merase last ends1 else ends1) = l ∧
      ∀ a b, (b, a) ∈ l ↔ (a, b) ∈ s.starts ∧ b + 1 ≠ st ∧ a ≠ st + n := by
    refine ⟨_, rfl, fun a b => ?_⟩
    rcases hl1 with ⟨e, hmem⟩ | ⟨e, _, hnone⟩
    · rw [if_pos e, mem_merase, hm2]
      simp only
      constructor
      · rintro ⟨⟨h1, h2⟩, h3⟩
        refine ⟨h1, h2, fun he => h3 ?_⟩
        subst he
        rcases h.apart _ _ _ _ h1 hmem with h4 | h4 | h4
        · cases h4; rfl
        · have := h.le _ _ h1; omega
        · have := h.le _ _ hmem; omega
      · rintro ⟨h1, h2, h3⟩
        refine ⟨⟨h1, h2⟩, fun he => h3 ?_⟩
        subst he
        rcases h.apart _ _ _ _ h1 hmem with h4 | h4 | h4
        · cases h4; rfl
        · have := h.le _ _ hmem; omega
        · have := h.le _ _ h1; omega
    · rw [if_neg (by rw [e]; decide), hm2]
      exact ⟨fun h1 => ⟨h1.1, h1.2, hnone a b h1.1⟩, fun h1 => ⟨h1.1, h1.2.1⟩⟩
  rw [hs2, he2]
  -- the new spaces
  have hfar : ∀ a b, (a, b) ∈ starts2 → b + 1 < start ∨ last + 1 < a := by
    intro a b hab
    obtain ⟨h1, h2, h3⟩ := (hm3 a b).mp hab
    have h4 := (h.le a b h1).1
    rcases hsep a b h1 with h5 | h5
    · left
      rcases hst1 with ⟨_, hp, hmem⟩ | ⟨_, e, _⟩
      · rcases h.apart a b _ _ h1 hmem with h6 | h6 | h6
        · cases h6; omega
        · exact h6
        · omega
      · omega
    · right
      rcases hl1 with ⟨_, hmem⟩ | ⟨_, e, _⟩
      · rcases h.apart a b _ _ h1 hmem with h6 | h6 | h6
        · cases h6; omega
        · omega
        · exact h6
      · omega
  have hmemS : ∀ a b, (a, b) ∈ minsert start last starts2 ↔ (a, b) = (start, last) ∨ (a, b) ∈ starts2 := by
    intro a b
    rw [mem_minsert]
    refine or_congr Iff.rfl ⟨fun h1 => h1.1, fun h1 => ⟨h1, fun he => ?_⟩⟩
    simp only at he
    subst he
    have := (h.le a b ((hm3 _ _).mp h1).1).1
    rcases hfar _ _ h1 with h2 | h2 <;> omega
  have hmemE : ∀ a b, (b, a) ∈ minsert last start ends2 ↔ (a, b) = (start, last) ∨ (a, b) ∈ starts2 := by
    intro a b
    rw [mem_minsert, hm4, ← hm3]
    refine or_congr ⟨fun h1 => by cases h1; rfl, fun h1 => by cases h1; rfl⟩ ⟨fun h1 => h1.1, fun h1 => ⟨h1, fun he => ?_⟩⟩
    simp only at he
    subst he
    have := (h.le a b ((hm3 _ _).mp h1).1).1
    rcases hfar _ _ h1 with h2 | h2 <;> omega
  refine ⟨⟨h.pos, fun a b => (hmemS a b).trans (hmemE a b).symm, fun a b hab => ?_, fun a b a' b' h1 h2 => ?_⟩, fun c => ?_⟩
  · rcases (hmemS a b).mp hab with h1 | h1
    · cases h1; exact ⟨by omega, hl2.2⟩
    · exact h.le a b ((hm3 a b).mp h1).1
  · rcases (hmemS a b).mp h1 with e1 | e1 <;> rcases (hmemS a' b').mp h2 with e2 | e2
    · exact .inl (e1.trans e2.symm)
    · cases e1
      rcases hfar _ _ e2 with h3 | h3
      · exact .inr (.inr h3)
      · exact .inr (.inl h3)
    · cases e2
      rcases hfar _ _ e1 with h3 | h3
      · exact .inr (.inl h3)
      · exact .inr (.inr h3)
    · exact h.apart a b a' b' ((hm3 a b).mp e1).1 ((hm3 a' b').mp e2).1
  · constructor
    · rintro ⟨a, b, hab, h1, h2⟩
      rcases (hmemS a b).mp hab with e | e
      · cases e
        by_cases hc1 : c < st
        · left
          rcases hst1 with ⟨_, hp, hmem⟩ | ⟨_, e, _⟩
          · exact ⟨_, _, hmem, h1, by omega⟩
          · omega
        · by_cases hc2 : c < st + n
          · exact .inr ⟨by omega, hc2⟩
          · left
            rcases hl1 with ⟨_, hmem⟩ | ⟨_, e, _⟩
            · exact ⟨_, _, hmem, by omega, h2⟩
            · omega
      · exact .inl ⟨a, b, ((hm3 a b).mp e).1, h1, h2⟩
    · rintro (⟨a, b, hab, h1, h2⟩ | ⟨h1, h2⟩)
      · by_cases hb1 : b + 1 = st
        · refine ⟨start, last, (hmemS _ _).mpr (.inl rfl), ?_, by omega⟩
          rcases hst1 with ⟨_, hp, hmem⟩ | ⟨_, _, hnone⟩
          · rcases h.apart a b _ _ hab hmem with h6 | h6 | h6
            · cases h6; exact h1
            · have := h.le _ _ hmem; omega
            · have := h.le _ _ hab; omega
          · exact absurd hb1 (hnone a b hab)
        · by_cases ha1 : a = st + n
          · refine ⟨start, last, (hmemS _ _).mpr (.inl rfl), by omega, ?_⟩
            rcases hl1 with ⟨_, hmem⟩ | ⟨_, _, hnone⟩
            · rcases h.apart a b _ _ hab hmem with h6 | h6 | h6
              · cases h6; exact h2
              · have := h.le _ _ hab; omega
              · have := h.le _ _ hmem; omega
            · exact absurd ha1 (hnone a b hab)
          · exact ⟨a, b, (hmemS a b).mpr (.inr ((hm3 a b).mpr ⟨hab, hb1, ha1⟩)), h1, h2⟩
      · exact ⟨start, last, (hmemS _ _).mpr (.inl rfl), by omega, by omega⟩

/-! ### reservations -/

/-- the space found is free, large enough, and without forbidden cells -/
theorem scan_some [DecidableEq V] {tmp : List (Option (Arg V))} {args : List (Arg V)} {black : List Nat} :
    ∀ (l : List (Nat × Nat)) (best : Option (Nat × Nat)) (bc : Nat) (r : Nat × Nat), scan tmp args black l best bc = some r →
      best = some r ∨ r ∈ l ∧ args.length ≤ r.2 - r.1 + 1 ∧ ∀ b ∈ black, ¬ (r.1 ≤ b ∧ b ≤ r.2) := by
  intro l
  induction l with
  | nil => intro best bc r h; exact .inl h
  | cons p l ih =>
    intro best bc r h
    obtain ⟨st, en⟩ := p
    have hrec : ∀ best' bc', scan tmp args black l best' bc' = some r → best' = best →
        best = some r ∨ r ∈ (st, en) :: l ∧ args.length ≤ r.2 - r.1 + 1 ∧ ∀ b ∈ black, ¬ (r.1 ≤ b ∧ b ≤ r.2) := by
      intro best' bc' h' e
      subst e
      rcases ih best' bc' r h' with h1 | ⟨h1, h2⟩
      · exact .inl h1
      · exact .inr ⟨List.mem_cons_of_mem _ h1, h2⟩
    rw [scan.eq_def] at h
    simp only at h
    split at h
    · exact hrec _ _ h rfl
    · rename_i hsp
      split at h
      · exact hrec _ _ h rfl
      · rename_i hbl
        have hthis : (st, en) = r → best = some r ∨ r ∈ (st, en) :: l ∧ args.length ≤ r.2 - r.1 + 1 ∧ ∀ b ∈ black, ¬ (r.1 ≤ b ∧ b ≤ r.2) := by
          rintro rfl
          refine .inr ⟨by simp, by simp only; omega, fun b hb hc => hbl ?_⟩
          rw [List.any_eq_true]
          exact ⟨b, hb, by simp [hc.1, hc.2]⟩
        have hnew : ∀ bc', scan tmp args black l (some (st, en)) bc' = some r →
            best = some r ∨ r ∈ (st, en) :: l ∧ args.length ≤ r.2 - r.1 + 1 ∧ ∀ b ∈ black, ¬ (r.1 ≤ b ∧ b ≤ r.2) := by
          intro bc' h'
          rcases ih _ bc' r h' with h1 | ⟨h1, h2⟩
          · exact hthis (Option.some.inj h1)
          · exact .inr ⟨List.mem_cons_of_mem _ h1, h2⟩
        cases best with
        | none => exact hnew _ h
        | some q =>
          simp only at h
          split at h
          · split at h
            · exact hthis (Option.some.inj h)
            · exact hnew _ h
          · exact hrec _ _ h rfl

theorem scan_none [DecidableEq V] {tmp : List (Option (Arg V))} {args : List (Arg V)} {black : List Nat} :
    ∀ (l : List (Nat × Nat)) (best : Option (Nat × Nat)) (bc : Nat), scan tmp args black l best bc = none →
      best = none ∧ ∀ r ∈ l, args.length ≤ r.2 - r.1 + 1 → ∃ b ∈ black, r.1 ≤ b ∧ b ≤ r.2 := by
  intro l
  induction l with
  | nil => intro best bc h; exact ⟨h, fun r hr => absurd hr (by simp)⟩
  | cons p l ih =>
    intro best bc h
    obtain ⟨st, en⟩ := p
    rw [scan.eq_def] at h
    simp only at h
    split at h
    · rename_i hsp
      obtain ⟨h1, h2⟩ := ih _ _ h
      refine ⟨h1, fun r hr hl => ?_⟩
      rcases List.mem_cons.mp hr with rfl | hr
      · simp only at hl; omega
      · exact h2 r hr hl
    · rename_i hsp
      split at h
      · rename_i hbl
        obtain ⟨h1, h2⟩ := ih _ _ h
        refine ⟨h1, fun r hr hl => ?_⟩
        rcases List.mem_cons.mp hr with rfl | hr
        · rw [List.any_eq_true] at hbl
          obtain ⟨b, hb, hb'⟩ := hbl
          simp only [Bool.and_eq_true, decide_eq_true_eq] at hb'
          exact ⟨b, hb, hb'⟩
        · exact h2 r hr hl
      · exfalso
        cases best with
        | none =>
          obtain ⟨h1, _⟩ := ih _ _ h
          cases h1
        | some q =>
          simp only at h
          split at h
          · split at h
            · cases h
            · obtain ⟨h1, _⟩ := ih _ _ h
              cases h1
          · obtain ⟨h1, _⟩ := ih _ _ h
            cases h1

/-- what a reservation of `n` cells at `st` does -/
structure Reserved (s : Comp V) (n : Nat) (black : List Nat) (st : Nat) (s' : Comp V) : Prop where
  free : Free s'
  count : s.count ≤ s'.count ∧ s'.count ≤ s.count + n
  below : st + n < s'.count
  /-- cells of the range were free or new -/
  was : ∀ c, InRange st n c → FreeCell s c ∨ s.count ≤ c + 1
  /-- free afterwards: free before and not in the range -/
  cells : ∀ c, FreeCell s' c ↔ FreeCell s c ∧ ¬ InRange st n c
  /-- every new cell is in the range -/
  new : ∀ c, s.count ≤ c + 1 → c + 1 < s'.count → InRange st n c
  avoid : ∀ b ∈ black, b + 1 < s.count → ¬ InRange st n b
  tmp : s'.tmp = s.tmp

theorem useFree_ok {s : Comp V} (h : Free s) {best : Nat × Nat} (hm : best ∈ s.starts) {n : Nat} (hn : 0 < n)
    (hsp : n ≤ best.2 - best.1 + 1) {black : List Nat} (hb : ∀ b ∈ black, ¬ (best.1 ≤ b ∧ b ≤ best.2)) :
    ∃ s', s.useFree best n = .ok (best.1, s') ∧ Reserved s n black best.1 s' ∧ s'.count = s.count := by
  obtain ⟨st, en⟩ := best
  obtain ⟨hle, hlt⟩ := h.le st en hm
  simp only at hsp hb
  have huniq : ∀ a b, (a, b) ∈ s.starts → (a = st ↔ b = en) := by
    intro a b hab
    have := h.le a b hab
    rcases h.apart a b st en hab hm with h1 | h1 | h1
    · cases h1; simp
    · omega
    · omega
  have hmem1 : ∀ a b, (a, b) ∈ merase st s.starts ↔ (a, b) ∈ s.starts ∧ (a, b) ≠ (st, en) := by
    intro a b
    rw [mem_merase]
    refine ⟨fun h1 => ⟨h1.1, fun e => ?_⟩, fun h1 => ⟨h1.1, fun e => ?_⟩⟩
    · cases e; exact h1.2 rfl
    · simp only at e
      have := (huniq a b h1.1).mp e
      exact h1.2 (by rw [e, this])
  unfold Comp.useFree
  simp only
  split
  · rename_i heq
    refine ⟨_, rfl, ⟨⟨h.pos, fun a b => ?_, fun a b hab => ?_, fun a b a' b' h1 h2 => ?_⟩, ⟨Nat.le_refl _, Nat.le_add_right _ _⟩,
      by simp only; omega, fun c hc => ?_, fun c => ?_, fun c h1 h2 => ?_, fun b h1 _ h2 => hb b h1 ?_, rfl⟩, rfl⟩
    · simp only [hmem1]
      rw [mem_merase, ← h.agree]
      refine and_congr_right fun h1 => ⟨fun h2 e => h2 ?_, fun h2 e => ?_⟩
      · simp only at e
        rw [(huniq a b h1).mpr e, e]
      · cases e; exact h2 rfl
    · exact h.le a b ((hmem1 a b).mp hab).1
    · exact h.apart a b a' b' ((hmem1 a b).mp h1).1 ((hmem1 a' b').mp h2).1
    · exact .inl ⟨st, en, hm, hc.1, by have := hc.2; omega⟩
    · constructor
      · rintro ⟨a, b, hab, h1, h2⟩
        obtain ⟨h3, h4⟩ := (hmem1 a b).mp hab
        refine ⟨⟨a, b, h3, h1, h2⟩, fun hc => ?_⟩
        have := hc.1
        have := hc.2
        rcases h.apart a b st en h3 hm with h5 | h5 | h5
        · exact h4 h5
        · omega
        · omega
      · rintro ⟨⟨a, b, hab, h1, h2⟩, hc⟩
        refine ⟨a, b, (hmem1 a b).mpr ⟨hab, fun e => hc ?_⟩, h1, h2⟩
        cases e
        exact ⟨h1, by omega⟩
    · simp only at h2; omega
    · exact ⟨h2.1, by have := h2.2; omega⟩
  · rename_i hneq
    have hsome : (mfind en s.ends).isSome = true := by
      cases hf : mfind en s.ends with
      | some _ => rfl
      | none => exact absurd ((h.agree st en).mp hm) (mfind_none hf st)
    rw [if_pos hsome]
    have hmemS : ∀ a b, (a, b) ∈ minsert (st + n) en (merase st s.starts) ↔
        (a, b) = (st + n, en) ∨ (a, b) ∈ s.starts ∧ (a, b) ≠ (st, en) := by
      intro a b
      rw [mem_minsert, hmem1]
      refine or_congr Iff.rfl ⟨fun h1 => h1.1, fun h1 => ⟨h1, fun e => ?_⟩⟩
      simp only at e
      have := h.le a b h1.1
      rcases h.apart a b st en h1.1 hm with h2 | h2 | h2
      · exact h1.2 h2
      · omega
      · omega
    have hmemE : ∀ a b, (b, a) ∈ minsert en (st + n) s.ends ↔
        (a, b) = (st + n, en) ∨ (a, b) ∈ s.starts ∧ (a, b) ≠ (st, en) := by
      intro a b
      rw [mem_minsert, ← h.agree]
      refine or_congr ⟨fun h1 => by cases h1; rfl, fun h1 => by cases h1; rfl⟩ (and_congr_right fun h1 => ⟨fun h2 e => h2 ?_, fun h2 e => h2 ?_⟩)
      · cases e; rfl
      · simp only at e
        rw [(huniq a b h1).mpr e, e]
    refine ⟨_, rfl, ⟨⟨h.pos, fun a b => (hmemS a b).trans (hmemE a b).symm, fun a b hab => ?_, fun a b a' b' h1 h2 => ?_⟩,
      ⟨Nat.le_refl _, Nat.le_add_right _ _⟩, by simp only; omega, fun c hc => ?_, fun c => ?_, fun c h1 h2 => ?_,
      fun b h1 _ h2 => hb b h1 ?_, rfl⟩, rfl⟩
    · rcases (hmemS a b).mp hab with e | e
      · cases e; exact ⟨by omega, hlt⟩
      · exact h.le a b e.1
    · rcases (hmemS a b).mp h1 with e1 | e1 <;> rcases (hmemS a' b').mp h2 with e2 | e2
      · exact .inl (e1.trans e2.symm)
      · cases e1
        have := h.le _ _ e2.1
        rcases h.apart _ _ st en e2.1 hm with h3 | h3 | h3
        · exact absurd h3 e2.2
        · exact .inr (.inr (by omega))
        · exact .inr (.inl h3)
      · cases e2
        have := h.le _ _ e1.1
        rcases h.apart _ _ st en e1.1 hm with h3 | h3 | h3
        · exact absurd h3 e1.2
        · exact .inr (.inl (by omega))
        · exact .inr (.inr h3)
      · exact h.apart a b a' b' e1.1 e2.1
    · exact .inl ⟨st, en, hm, hc.1, by have := hc.2; omega⟩
    · constructor
      · rintro ⟨a, b, hab, h1, h2⟩
        rcases (hmemS a b).mp hab with e | e
        · cases e
          exact ⟨⟨st, en, hm, by omega, h2⟩, fun hc => by have := hc.2; omega⟩
        · refine ⟨⟨a, b, e.1, h1, h2⟩, fun hc => ?_⟩
          have := hc.1
          have := hc.2
          rcases h.apart a b st en e.1 hm with h5 | h5 | h5
          · exact e.2 h5
          · omega
          · omega
      · rintro ⟨⟨a, b, hab, h1, h2⟩, hc⟩
        by_cases e : (a, b) = (st, en)
        · cases e
          refine ⟨st + n, en, (hmemS _ _).mpr (.inl rfl), ?_, h2⟩
          by_contra hlt'
          exact hc ⟨h1, by omega⟩
        · exact ⟨a, b, (hmemS a b).mpr (.inr ⟨hab, e⟩), h1, h2⟩
    · simp only at h2; omega
    · exact ⟨h2.1, by have := h2.2; omega⟩

theorem useEnd_ok {s : Comp V} (h : Free s) {n : Nat} {black : List Nat}
    (hnone : ∀ r ∈ s.starts, n ≤ r.2 - r.1 + 1 → ∃ b ∈ black, r.1 ≤ b ∧ b ≤ r.2) :
    Reserved s n black (s.useEnd black n).1 (s.useEnd black n).2 := by
  have hpos := h.pos
  have hnew : Reserved s n black (s.count - 1) { s with count := s.count + n } := by
    refine ⟨⟨by simp only; omega, h.agree, fun a b hab => ?_, h.apart⟩, ⟨by simp only; omega, Nat.le_refl _⟩, by simp only; omega,
      fun c hc => .inr (by have := hc.1; omega), fun c => ⟨?_, fun hc => hc.1⟩, fun c h1 h2 => ⟨by omega, by simp only at h2; omega⟩,
      fun b _ h1 h2 => by have := h2.1; omega, rfl⟩
    · have := h.le a b hab; exact ⟨this.1, by simp only; omega⟩
    · rintro ⟨a, b, hab, h1, h2⟩
      have := h.le a b hab
      exact ⟨⟨a, b, hab, h1, h2⟩, fun hc => by have := hc.1; omega⟩
  unfold Comp.useEnd
  simp only
  by_cases hc : s.count < 2
  · rw [if_pos hc]; exact hnew
  · rw [if_neg hc]
    cases hf : mfind (s.count - 2) s.ends with
    | none => exact hnew
    | some st =>
      simp only
      split
      · exact hnew
      · rename_i hbl
        have hbl' : ∀ b ∈ black, b < st := by
          intro b hb
          by_contra hlt
          apply hbl
          rw [List.any_eq_true]
          exact ⟨b, hb, by simp; omega⟩
        have hm := (h.agree st (s.count - 2)).mpr (mfind_some hf)
        have hle := h.le _ _ hm
        have hsmall : s.count - 2 - st + 1 < n := by
          by_contra hge
          obtain ⟨b, hb, h1, _⟩ := hnone _ hm (by simp only; omega)
          have := hbl' b hb
          simp only at h1
          omega
        have hmem1 : ∀ a b, (a, b) ∈ merase st s.starts ↔ (a, b) ∈ s.starts ∧ (a, b) ≠ (st, s.count - 2) := by
          intro a b
          rw [mem_merase]
          refine and_congr_right fun h1 => ⟨fun h2 e => h2 ?_, fun h2 e => h2 ?_⟩
          · cases e; rfl
          · simp only at e
            subst e
            have := h.le _ _ h1
            rcases h.apart _ _ _ _ h1 hm with h3 | h3 | h3
            · exact h3
            · omega
            · omega
        refine ⟨⟨by simp only; omega, fun a b => ?_, fun a b hab => ?_, fun a b a' b' h1 h2 => ?_⟩, ⟨by simp only; omega, by simp only; omega⟩,
          by simp only; omega, fun c hc => ?_, fun c => ?_, fun c h1 h2 => ⟨by omega, by simp only at h2; omega⟩,
          fun b h1 _ h2 => by have := hbl' b h1; have := h2.1; omega, rfl⟩
        · simp only [hmem1]
          rw [mem_merase, ← h.agree]
          refine and_congr_right fun h1 => ⟨fun h2 e => h2 ?_, fun h2 e => h2 ?_⟩
          · simp only at e
            subst e
            have := h.le _ _ h1
            rcases h.apart _ _ _ _ h1 hm with h3 | h3 | h3
            · exact h3
            · omega
            · omega
          · cases e; rfl
        · have := h.le a b ((hmem1 a b).mp hab).1
          exact ⟨this.1, by simp only; omega⟩
        · exact h.apart a b a' b' ((hmem1 a b).mp h1).1 ((hmem1 a' b').mp h2).1
        · by_cases hcc : c ≤ s.count - 2
          · exact .inl ⟨st, _, hm, hc.1, hcc⟩
          · exact .inr (by omega)
        · constructor
          · rintro ⟨a, b, hab, h1, h2⟩
            obtain ⟨h3, h4⟩ := (hmem1 a b).mp hab
            have := h.le a b h3
            refine ⟨⟨a, b, h3, h1, h2⟩, fun hc => ?_⟩
            have := hc.1
            rcases h.apart a b _ _ h3 hm with h5 | h5 | h5
            · exact h4 h5
            · omega
            · omega
          · rintro ⟨⟨a, b, hab, h1, h2⟩, hc⟩
            refine ⟨a, b, (hmem1 a b).mpr ⟨hab, fun e => hc ?_⟩, h1, h2⟩
            cases e
            exact ⟨h1, by omega⟩

theorem reserve_ok [DecidableEq V] {s : Comp V} (h : Free s) {args : List (Arg V)} (hn : args ≠ []) {black : List Nat}
    (ht : s.count + args.length ≤ s.tmp.length + 1) :
    ∃ st s', s.reserve args black = .ok (st, s') ∧
      (∃ s1, Reserved s args.length black st s1 ∧ s' = { s1 with tmp := s.tmp.take st ++ args.map some ++ s.tmp.drop (st + args.length) }) ∧
      ((∃ a b, (a, b) ∈ s.starts ∧ args.length ≤ b - a + 1 ∧ ∀ c ∈ black, ¬ (a ≤ c ∧ c ≤ b)) → s'.count = s.count) := by
  have hlen : 0 < args.length := List.length_pos_iff.mpr hn
  unfold Comp.reserve
  rw [if_neg (by omega : ¬ args.length = 0)]
  simp only
  have hfin : ∀ st s1, Reserved s args.length black st s1 →
      setTmp s1.tmp st args = .ok (s.tmp.take st ++ args.map some ++ s.tmp.drop (st + args.length)) := by
    intro st s1 hR
    unfold setTmp
    rw [hR.tmp]
    rw [if_pos (by have := hR.below; have := hR.count.2; omega)]
  cases hs : scan s.tmp args black s.starts.reverse none 0 with
  | some best =>
    rcases scan_some _ _ _ _ hs with h1 | ⟨h1, h2, h3⟩
    · cases h1
    obtain ⟨s1, e, hR, hcnt⟩ := useFree_ok h (List.mem_reverse.mp h1) hlen h2 h3
    simp only [e, hfin _ _ hR]
    exact ⟨_, _, rfl, ⟨s1, hR, rfl⟩, fun _ => hcnt⟩
  | none =>
    obtain ⟨_, h2⟩ := scan_none _ _ _ hs
    have hR := useEnd_ok (n := args.length) h (fun r hr => h2 r (List.mem_reverse.mpr hr))
    generalize s.useEnd black args.length = q at hR
    obtain ⟨st, s1⟩ := q
    simp only [hfin _ _ hR]
    refine ⟨_, _, rfl, ⟨s1, hR, rfl⟩, ?_⟩
    rintro ⟨a, b, hab, h3, h4⟩
    obtain ⟨c, hc, hc'⟩ := h2 (a, b) (List.mem_reverse.mpr hab) h3
    exact absurd hc' (h4 c hc)

end Verif.Arrays
