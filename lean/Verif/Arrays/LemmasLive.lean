import Verif.Arrays.Lemmas
namespace Verif.Arrays

variable {V : Type}

/-! ### arrays in use -/

/-- the state of the storage with the arrays `L` in use -/
structure LInv (s : Comp V) (L : List Nat) (rng : Nat → Nat × Nat) : Prop where
  free : Free s
  nodup : L.Nodup
  below : ∀ a ∈ L, (rng a).1 + (rng a).2 < s.count
  used : ∀ a ∈ L, ∀ c, InRange (rng a).1 (rng a).2 c → ¬ FreeCell s c
  apart : ∀ a ∈ L, ∀ b ∈ L, a ≠ b → Apart (rng a).1 (rng a).2 (rng b).1 (rng b).2
  cover : ∀ c, c + 1 < s.count → FreeCell s c ∨ ∃ a ∈ L, InRange (rng a).1 (rng a).2 c

theorem LInv.init (size : Nat) (rng : Nat → Nat × Nat) : LInv (Comp.init V size) [] rng :=
  ⟨Free.init size, List.nodup_nil, fun _ h => by simp at h, fun _ h => by simp at h, fun _ h => by simp at h,
    fun c h => by simp [Comp.init] at h⟩

theorem LInv.congr {s : Comp V} {L : List Nat} {rng rng' : Nat → Nat × Nat} (h : LInv s L rng) (he : ∀ a ∈ L, rng' a = rng a) :
    LInv s L rng' := by
  refine ⟨h.free, h.nodup, fun a ha => ?_, fun a ha => ?_, fun a ha b hb => ?_, fun c hc => ?_⟩
  · rw [he a ha]; exact h.below a ha
  · rw [he a ha]; exact h.used a ha
  · rw [he a ha, he b hb]; exact h.apart a ha b hb
  · rcases h.cover c hc with h1 | ⟨a, ha, h1⟩
    · exact .inl h1
    · exact .inr ⟨a, ha, by rw [he a ha]; exact h1⟩

theorem LInv.release {s : Comp V} {L : List Nat} {rng : Nat → Nat × Nat} (h : LInv s L rng) {a : Nat} (ha : a ∈ L) :
    LInv (s.addFree (rng a).1 (rng a).2) (L.erase a) rng ∧ (s.addFree (rng a).1 (rng a).2).count = s.count ∧
      (s.addFree (rng a).1 (rng a).2).tmp = s.tmp := by
  refine ⟨?_, addFree_count _ _ _, addFree_tmp _ _ _⟩
  have hmem : ∀ b, b ∈ L.erase a ↔ b ∈ L ∧ b ≠ a := fun b => by
    rw [h.nodup.mem_erase_iff]; exact and_comm
  by_cases h0 : (rng a).2 = 0
  · have e : s.addFree (rng a).1 (rng a).2 = s := by unfold Comp.addFree; rw [if_pos h0]
    rw [e]
    refine ⟨h.free, h.nodup.erase _, fun b hb => h.below b ((hmem b).mp hb).1, fun b hb => h.used b ((hmem b).mp hb).1,
      fun b hb c hc => h.apart b ((hmem b).mp hb).1 c ((hmem c).mp hc).1, fun c hc => ?_⟩
    rcases h.cover c hc with h1 | ⟨b, hb, h1⟩
    · exact .inl h1
    · refine .inr ⟨b, (hmem b).mpr ⟨hb, ?_⟩, h1⟩
      rintro rfl
      have := h1.1; have := h1.2; omega
  · obtain ⟨hf, hcell⟩ := h.free.addFree (st := (rng a).1) (n := (rng a).2) (by omega) (h.below a ha) (fun c hc => h.used a ha c hc)
    refine ⟨hf, h.nodup.erase _, fun b hb => ?_, fun b hb c hc => ?_, fun b hb c hc => h.apart b ((hmem b).mp hb).1 c ((hmem c).mp hc).1,
      fun c hc => ?_⟩
    · rw [addFree_count]; exact h.below b ((hmem b).mp hb).1
    · obtain ⟨h1, h2⟩ := (hmem b).mp hb
      rw [hcell]
      rintro (h3 | h3)
      · exact h.used b h1 c hc h3
      · exact h.apart b h1 a ha h2 c hc h3
    · rw [addFree_count] at hc
      rcases h.cover c hc with h1 | ⟨b, hb, h1⟩
      · exact .inl ((hcell c).mpr (.inl h1))
      · by_cases e : b = a
        · subst e; exact .inl ((hcell c).mpr (.inr h1))
        · exact .inr ⟨b, (hmem b).mpr ⟨hb, e⟩, h1⟩

theorem reserve_zero [DecidableEq V] (s : Comp V) (black : List Nat) : s.reserve [] black = .ok (0, s) := rfl

/-- a reservation -/
theorem LInv.reserve [DecidableEq V] {s : Comp V} {L : List Nat} {rng : Nat → Nat × Nat} (h : LInv s L rng) {a : Nat} (ha : a ∉ L)
    {args : List (Arg V)} {black : List Nat} (ht : s.count + args.length ≤ s.tmp.length + 1) :
    ∃ st s', s.reserve args black = .ok (st, s') ∧
      LInv s' (a :: L) (fun b => if b = a then (st, args.length) else rng b) ∧
      s'.tmp.length = s.tmp.length ∧ s.count ≤ s'.count ∧ s'.count ≤ s.count + args.length ∧
      (∀ b ∈ black, b + 1 < s.count → ¬ InRange st args.length b) ∧
      ((∃ a b, (a, b) ∈ s.starts ∧ args.length ≤ b - a + 1 ∧ ∀ c ∈ black, ¬ (a ≤ c ∧ c ≤ b)) → s'.count = s.count) := by
  have hrng : ∀ (st : Nat), ∀ b ∈ L, (if b = a then (st, args.length) else rng b) = rng b := by
    intro st b hb
    rw [if_neg (fun e : b = a => ha (e ▸ hb))]
  by_cases h0 : args = []
  · subst h0
    refine ⟨0, s, rfl, ?_, rfl, Nat.le_refl _, Nat.le_refl _, fun b _ _ hc => by have := hc.2; simp at this, fun _ => rfl⟩
    have h' := h.congr (hrng 0)
    refine ⟨h'.free, List.nodup_cons.mpr ⟨ha, h.nodup⟩, ?_, ?_, ?_, ?_⟩
    · intro b hb
      rcases List.mem_cons.mp hb with rfl | hb
      · simpa using h.free.pos
      · exact h'.below b hb
    · intro b hb c hc
      rcases List.mem_cons.mp hb with rfl | hb
      · have h1 := hc.1; have h2 := hc.2
        simp at h1 h2
      · exact h'.used b hb c hc
    · intro b hb c hc hbc d hd hd'
      rcases List.mem_cons.mp hb with rfl | hb
      · have h2 := hd.2
        simp at h2
      · rcases List.mem_cons.mp hc with rfl | hc
        · have h2 := hd'.2
          simp at h2
        · exact h'.apart b hb c hc hbc d hd hd'
    · intro c hc
      rcases h'.cover c hc with h1 | ⟨b, hb, h1⟩
      · exact .inl h1
      · exact .inr ⟨b, List.mem_cons_of_mem _ hb, h1⟩
  · obtain ⟨st, s', e, ⟨s1, hR, e'⟩, hcnt⟩ := reserve_ok h.free h0 (black := black) ht
    subst e'
    have hfc : ∀ c, FreeCell { s1 with tmp := s.tmp.take st ++ args.map some ++ s.tmp.drop (st + args.length) } c ↔ FreeCell s1 c := fun c => Iff.rfl
    refine ⟨st, _, e, ?_, ?_, hR.count.1, hR.count.2, hR.avoid, hcnt⟩
    · have hnew : ∀ b ∈ L, ∀ c, InRange (rng b).1 (rng b).2 c → ¬ InRange st args.length c := by
        intro b hb c hc hc'
        rcases hR.was c hc' with h1 | h1
        · exact h.used b hb c hc h1
        · have := h.below b hb
          have := hc.2
          omega
      refine ⟨⟨hR.free.pos, hR.free.agree, hR.free.le, hR.free.apart⟩, List.nodup_cons.mpr ⟨ha, h.nodup⟩, ?_, ?_, ?_, ?_⟩
      · intro b hb
        rcases List.mem_cons.mp hb with rfl | hb
        · simpa using hR.below
        · simp only [hrng st b hb]
          exact Nat.lt_of_lt_of_le (h.below b hb) hR.count.1
      · intro b hb c hc
        rw [hfc, hR.cells]
        rcases List.mem_cons.mp hb with rfl | hb
        · simp only [if_true] at hc
          exact fun h1 => h1.2 hc
        · simp only [hrng st b hb] at hc
          exact fun h1 => h.used b hb c hc h1.1
      · intro b hb c hc hbc d hd hd'
        rcases List.mem_cons.mp hb with e1 | hb1 <;> rcases List.mem_cons.mp hc with e2 | hc1
        · exact hbc (e1.trans e2.symm)
        · subst e1
          simp only [if_true] at hd
          simp only [hrng st c hc1] at hd'
          exact hnew c hc1 d hd' hd
        · subst e2
          simp only [if_true] at hd'
          simp only [hrng st b hb1] at hd
          exact hnew b hb1 d hd hd'
        · simp only [hrng st b hb1] at hd
          simp only [hrng st c hc1] at hd'
          exact h.apart b hb1 c hc1 hbc d hd hd'
      · intro c hc
        by_cases hin : InRange st args.length c
        · exact .inr ⟨a, by simp, by simpa using hin⟩
        · by_cases hlt : c + 1 < s.count
          · rcases h.cover c hlt with h1 | ⟨b, hb, h1⟩
            · exact .inl ((hR.cells c).mpr ⟨h1, hin⟩)
            · exact .inr ⟨b, List.mem_cons_of_mem _ hb, by simp only [hrng st b hb]; exact h1⟩
          · exact absurd (hR.new c (by omega) hc) hin
    · have h1 := hR.below
      have h2 := hR.count.2
      simp only [List.length_append, List.length_take, List.length_map, List.length_drop]
      omega

/-- free cells next to each other are in the same free space -/
theorem Free.run {s : Comp V} (h : Free s) {st : Nat} : ∀ {n : Nat}, 0 < n → (∀ c, InRange st n c → FreeCell s c) →
    ∃ a b, (a, b) ∈ s.starts ∧ a ≤ st ∧ st + n ≤ b + 1 := by
  intro n
  induction n with
  | zero => intro h0; omega
  | succ n ih =>
    intro _ hc
    obtain ⟨a, b, hab, h1, h2⟩ := hc (st + n) ⟨by omega, by omega⟩
    by_cases hn : n = 0
    · subst hn
      exact ⟨a, b, hab, by omega, by omega⟩
    · obtain ⟨a', b', hab', h3, h4⟩ := ih (by omega) (fun c hc' => hc c ⟨hc'.1, by have := hc'.2; omega⟩)
      have := h.le _ _ hab
      have := h.le _ _ hab'
      rcases h.apart _ _ _ _ hab hab' with e | e | e
      · cases e
        exact ⟨a, b, hab, h3, by omega⟩
      · omega
      · omega

end Verif.Arrays
