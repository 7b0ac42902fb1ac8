import Verif.Arrays.LemmasLive
import Verif.Arrays.Print
namespace Verif.Arrays

variable {V : Type}

/-! ### sizes of arrays -/

theorem creates_some {st : Step V} {a : Nat} {args : List (Arg V)} : st.creates = some (a, args) ↔ st = .create a args := by
  cases st <;> simp [Step.creates]

theorem mem_arraysOf {prog : List (Step V)} {a : Nat} : a ∈ arraysOf prog ↔ ∃ q, CreatedAt prog a q := by
  unfold arraysOf CreatedAt
  simp only [List.mem_map, List.mem_filterMap]
  constructor
  · rintro ⟨⟨b, args⟩, ⟨st, hst, h1⟩, rfl⟩
    rw [creates_some] at h1
    subst h1
    obtain ⟨q, hq⟩ := List.mem_iff_getElem?.mp hst
    exact ⟨q, args, hq⟩
  · rintro ⟨q, args, hq⟩
    exact ⟨(a, args), ⟨_, List.mem_of_getElem? hq, rfl⟩, rfl⟩

theorem find_nodup : ∀ (l : List (Nat × List (Arg V))), (l.map (·.1)).Nodup → ∀ a args, (a, args) ∈ l →
    l.find? (fun c => c.1 == a) = some (a, args) := by
  intro l
  induction l with
  | nil => intro _ a args h; simp at h
  | cons p l ih =>
    intro hnd a args h
    rw [List.map_cons, List.nodup_cons] at hnd
    rw [List.find?_cons]
    rcases List.mem_cons.mp h with rfl | h
    · simp
    · have hne : (p.1 == a) = false := by
        rw [beq_eq_false_iff_ne]
        intro e
        exact hnd.1 (List.mem_map.mpr ⟨(a, args), h, e.symm⟩)
      rw [hne]
      exact ih hnd.2 a args h

theorem argsOf_eq {prog : List (Step V)} (hn : (arraysOf prog).Nodup) {a q : Nat} {args : List (Arg V)}
    (h : prog[q]? = some (.create a args)) : argsOf prog a = args := by
  unfold argsOf
  rw [find_nodup _ hn a args (List.mem_filterMap.mpr ⟨_, List.mem_of_getElem? h, rfl⟩)]

/-- an array is created by one step only -/
theorem created_unique : ∀ {prog : List (Step V)}, (arraysOf prog).Nodup → ∀ {a q q' : Nat}, CreatedAt prog a q → CreatedAt prog a q' → q = q' := by
  intro prog
  induction prog with
  | nil => intro _ a q q' ⟨_, h⟩; simp at h
  | cons st prog ih =>
    intro hn a q q' h h'
    have hn' : (arraysOf prog).Nodup := by
      unfold arraysOf at hn ⊢
      rw [List.filterMap_cons] at hn
      split at hn
      · exact hn
      · exact (List.nodup_cons.mp hn).2
    have hhead : ∀ args, st = .create a args → ∀ k, ¬ CreatedAt prog a k := by
      rintro args rfl k hk
      unfold arraysOf at hn
      rw [List.filterMap_cons] at hn
      simp only [Step.creates, List.map_cons, List.nodup_cons] at hn
      exact hn.1 (mem_arraysOf.mpr ⟨k, hk⟩)
    obtain ⟨args, e⟩ := h
    obtain ⟨args', e'⟩ := h'
    cases q with
    | zero =>
      cases q' with
      | zero => rfl
      | succ k =>
        simp only [List.getElem?_cons_zero, Option.some.injEq] at e
        exact absurd ⟨args', by simpa using e'⟩ (hhead _ e k)
    | succ j =>
      cases q' with
      | zero =>
        simp only [List.getElem?_cons_zero, Option.some.injEq] at e'
        exact absurd ⟨args, by simpa using e⟩ (hhead _ e' j)
      | succ k =>
        have : j = k := ih hn' ⟨args, by simpa using e⟩ ⟨args', by simpa using e'⟩
        rw [this]

/-! ### the allocation -/

theorem releaseAll_ok {prog : List (Step V)} {id : Nat → Nat} :
    ∀ (l : List Nat) (s : Comp V) (L : List Nat), l.Nodup → (∀ a ∈ l, a ∈ L) → LInv s L (fun a => (id a - 1, sizeOf' prog a)) →
      ∃ L', LInv (releaseAll prog id s l) L' (fun a => (id a - 1, sizeOf' prog a)) ∧ (∀ a, a ∈ L' ↔ a ∈ L ∧ a ∉ l) ∧
        (releaseAll prog id s l).count = s.count ∧ (releaseAll prog id s l).tmp = s.tmp := by
  intro l
  induction l with
  | nil => intro s L _ _ h; exact ⟨L, h, fun a => by simp, rfl, rfl⟩
  | cons a l ih =>
    intro s L hn hm h
    rw [List.nodup_cons] at hn
    obtain ⟨h1, h2, h3⟩ := h.release (hm a (by simp))
    have hmem : ∀ b, b ∈ L.erase a ↔ b ∈ L ∧ b ≠ a := fun b => by
      rw [h.nodup.mem_erase_iff]; exact and_comm
    obtain ⟨L', h4, h5, h6, h7⟩ := ih _ (L.erase a) hn.2 (fun b hb => (hmem b).mpr ⟨hm b (by simp [hb]), fun e => hn.1 (e ▸ hb)⟩) h1
    refine ⟨L', h4, fun b => ?_, h6.trans h2, h7.trans h3⟩
    rw [h5, hmem]
    simp only [List.mem_cons, not_or, and_assoc]

/-- what the variable ids mean after all steps from `p` on -/
structure Placed (node : Nat → Ex V) (prog : List (Step V)) (last : Nat → Nat) (p : Nat) (s : Comp V) (id : Nat → Nat) : Prop where
  pos : ∀ a q, p ≤ q → CreatedAt prog a q → 1 ≤ id a ∧ id a - 1 + sizeOf' prog a < s.count
  apart : ∀ a b q q', q < q' → p ≤ q' → CreatedAt prog a q → CreatedAt prog b q' → q' + 1 < last a →
    Apart (id a - 1) (sizeOf' prog a) (id b - 1) (sizeOf' prog b)
  direct : ∀ b q args, p ≤ q → prog[q]? = some (.create b args) → ∀ x ∈ args, ∀ a i, x.ex node = .elem a i →
    ¬ InRange (id b - 1) (sizeOf' prog b) (id a - 1 + i)

theorem allocate_ok [DecidableEq V] {node : Nat → Ex V} {prog : List (Step V)} {last : Nat → Nat} (hl : Lifetimes node prog last) :
    ∀ (rest : List (Step V)) (p : Nat) (s : Comp V) (id : Nat → Nat) (L : List Nat), rest = prog.drop p →
      LInv s L (fun a => (id a - 1, sizeOf' prog a)) →
      (∀ a, a ∈ L ↔ (∃ q, q < p ∧ CreatedAt prog a q) ∧ p < last a) →
      (∀ a q, q < p → CreatedAt prog a q → 1 ≤ id a ∧ id a - 1 + sizeOf' prog a < s.count) →
      s.count + cells rest ≤ s.tmp.length + 1 →
      ∃ s' id', allocate node prog last p rest s id = .ok (s', id') ∧ Placed node prog last p s' id' ∧
        (∀ a q, q < p → CreatedAt prog a q → id' a = id a) ∧ s.count ≤ s'.count ∧ s'.count ≤ s.count + cells rest := by
  have hone : (arraysOf prog).Nodup := hl.once
  intro rest
  induction rest with
  | nil =>
    intro p s id L hrest _ _ _ _
    have hlen : prog.length ≤ p := by simpa using hrest.symm
    have hno : ∀ {a q : Nat}, p ≤ q → ¬ CreatedAt prog a q := by
      rintro a q hq ⟨args, h⟩
      have := (List.getElem?_eq_some_iff.mp h).1
      omega
    exact ⟨s, id, rfl, ⟨fun a q hq h => absurd h (hno hq), fun a b q q' _ hq _ h => absurd h (hno hq),
      fun b q args hq h => absurd ⟨args, h⟩ (hno hq)⟩, fun _ _ _ _ => rfl, Nat.le_refl _, by simp [cells]⟩
  | cons st rest ih =>
    intro p s id L hrest hI hL hpos hcnt
    have hst : prog[p]? = some st := by
      have : (prog.drop p)[0]? = some st := by rw [← hrest]; rfl
      simpa using this
    have hrest' : rest = prog.drop (p + 1) := by
      have : (st :: rest).tail = (prog.drop p).tail := by rw [hrest]
      simpa using this
    -- releases
    have hrel : ∀ a, a ∈ released prog last p ↔ (∃ q, CreatedAt prog a q) ∧ last a = p + 1 := by
      intro a
      unfold released
      rw [List.mem_filter, mem_arraysOf]
      simp only [decide_eq_true_eq]
      refine and_congr_right fun ⟨q, hq⟩ => ?_
      have := (hl.needed a q hq).1
      omega
    obtain ⟨L1, hI1, hL1, hc1, ht1⟩ := releaseAll_ok (released prog last p) s L (hone.filter _)
      (fun a ha => by
        obtain ⟨⟨q, hq⟩, h2⟩ := (hrel a).mp ha
        have := (hl.needed a q hq).1
        exact (hL a).mpr ⟨⟨q, by omega, hq⟩, by omega⟩) hI
    have hL1' : ∀ a, a ∈ L1 ↔ (∃ q, q < p ∧ CreatedAt prog a q) ∧ p + 1 < last a := by
      intro a
      rw [hL1, hL, hrel]
      constructor
      · rintro ⟨⟨⟨q, hq, h1⟩, h2⟩, h3⟩
        exact ⟨⟨q, hq, h1⟩, by
          have : ¬ last a = p + 1 := fun e => h3 ⟨⟨q, h1⟩, e⟩
          omega⟩
      · rintro ⟨⟨q, hq, h1⟩, h2⟩
        exact ⟨⟨⟨q, hq, h1⟩, by omega⟩, fun h3 => by have := h3.2; omega⟩
    rw [allocate]
    cases hcr : st.creates with
    | none =>
      simp only
      have hno : ∀ a, ¬ CreatedAt prog a p := by
        rintro a ⟨args, h⟩
        rw [hst] at h
        cases h
        simp [Step.creates] at hcr
      have hcells : cells (st :: rest) = cells rest := by unfold cells; rw [List.filterMap_cons, hcr]
      obtain ⟨s', id', e, hP, hk, hcl, hcu⟩ := ih (p + 1) (releaseAll prog id s (released prog last p)) id L1 hrest' hI1
        (fun a => by
          rw [hL1' a]
          refine and_congr_left fun _ => ⟨fun ⟨q, hq, h⟩ => ⟨q, by omega, h⟩, fun ⟨q, hq, h⟩ => ⟨q, ?_, h⟩⟩
          have : q ≠ p := fun e => hno a (e ▸ h)
          omega)
        (fun a q hq h => by
          have : q ≠ p := fun e => hno a (e ▸ h)
          rw [hc1]
          exact hpos a q (by omega) h)
        (by rw [hc1, ht1, ← hcells]; exact hcnt)
      rw [hc1] at hcl hcu
      have hge : ∀ {a q : Nat}, p ≤ q → CreatedAt prog a q → p + 1 ≤ q := by
        intro a q hq h
        have : q ≠ p := fun e => hno a (e ▸ h)
        omega
      exact ⟨s', id', e, ⟨fun a q hq h => hP.pos a q (hge hq h) h, fun a b q q' h0 hq h1 h2 h3 => hP.apart a b q q' h0 (hge hq h2) h1 h2 h3,
        fun b q args hq h => hP.direct b q args (hge hq ⟨args, h⟩) h⟩, fun a q hq h => hk a q (by omega) h, hcl, by rw [hcells]; exact hcu⟩
    | some c =>
      obtain ⟨b, args⟩ := c
      simp only
      rw [creates_some] at hcr
      subst hcr
      have hb : CreatedAt prog b p := ⟨args, hst⟩
      have hsz : sizeOf' prog b = args.length := by unfold sizeOf'; rw [argsOf_eq hone hst]
      have hcells : cells (.create b args :: rest) = args.length + cells rest := by
        unfold cells
        rw [List.filterMap_cons]
        simp [Step.creates]
      have hbL : b ∉ L1 := by
        intro h
        obtain ⟨⟨q, hq, h1⟩, _⟩ := (hL1' b).mp h
        have := created_unique hone h1 hb
        omega
      obtain ⟨start, s2, e2, hI2, ht2, hc2, hc2', hblack, _⟩ := hI1.reserve hbL (args := args) (black := blackList node id args)
        (by rw [hc1, ht1]; rw [hcells] at hcnt; omega)
      simp only [e2]
      have hidb : ∀ {a q : Nat}, q < p → CreatedAt prog a q → a ≠ b := by
        rintro a q hq h rfl
        have := created_unique hone h hb
        omega
      obtain ⟨s', id', e, hP, hk, hcl, hcu⟩ := ih (p + 1) s2 (fun a => if a = b then start + 1 else id a) (b :: L1) hrest'
        (hI2.congr (fun a ha => by
          by_cases hab : a = b
          · subst hab; simp [hsz]
          · simp [hab]))
        (fun a => by
          rw [List.mem_cons, hL1' a]
          constructor
          · rintro (rfl | ⟨⟨q, hq, h1⟩, h2⟩)
            · exact ⟨⟨p, by omega, hb⟩, (hl.needed a p hb).1⟩
            · exact ⟨⟨q, by omega, h1⟩, h2⟩
          · rintro ⟨⟨q, hq, h1⟩, h2⟩
            by_cases hqp : q = p
            · subst hqp
              obtain ⟨args', h1⟩ := h1
              rw [hst] at h1
              cases h1
              exact .inl rfl
            · exact .inr ⟨⟨q, by omega, h1⟩, h2⟩)
        (fun a q hq h => by
          by_cases hab : a = b
          · subst hab
            have h3 := hI2.below a (by simp)
            simp only [if_true] at h3 ⊢
            rw [hsz]
            exact ⟨by omega, by simpa using h3⟩
          · simp only [if_neg hab]
            have hqp : q ≠ p := by
              rintro rfl
              obtain ⟨args', h⟩ := h
              rw [hst] at h
              cases h
              exact hab rfl
            obtain ⟨h3, h4⟩ := hpos a q (by omega) h
            exact ⟨h3, by omega⟩)
        (by rw [ht2, ht1]; rw [hcells] at hcnt; omega)
      have hidold : ∀ a q, q < p → CreatedAt prog a q → id' a = id a := by
        intro a q hq h
        rw [hk a q (by omega) h, if_neg (hidb hq h)]
      have hidnew : id' b = start + 1 := by rw [hk b p (by omega) hb, if_pos rfl]
      refine ⟨s', id', e, ⟨?_, ?_, ?_⟩, hidold, by omega, by rw [hcells]; omega⟩
      · intro a q hq h
        by_cases hqp : q = p
        · subst hqp
          obtain ⟨args', h⟩ := h
          rw [hst] at h
          cases h
          have h3 := hI2.below b (by simp)
          simp only [if_true] at h3
          rw [hidnew, hsz]
          exact ⟨by omega, by simp only [Nat.add_sub_cancel]; omega⟩
        · exact hP.pos a q (by omega) h
      · intro a b' q q' h0 hq h1 h2 h3
        by_cases hqp : q' = p
        · subst hqp
          obtain ⟨args', h2⟩ := h2
          rw [hst] at h2
          cases h2
          have ha : a ∈ L1 := (hL1' a).mpr ⟨⟨q, h0, h1⟩, h3⟩
          have h4 := hI2.apart a (by simp [ha]) b (by simp) (hidb h0 h1)
          simp only [if_true, if_neg (hidb h0 h1)] at h4
          rw [hidnew, hsz, hidold a q h0 h1]
          simpa using h4
        · exact hP.apart a b' q q' h0 (by omega) h1 h2 h3
      · intro b' q args' hq h x hx a i hxe
        by_cases hqp : q = p
        · subst hqp
          rw [hst] at h
          cases h
          have hread : (a, i) ∈ (Step.create b args).reads node :=
            List.mem_flatMap.mpr ⟨x, hx, by rw [hxe]; simp [Ex.reads]⟩
          obtain ⟨⟨q, hq, hca⟩, _⟩ := hl.used _ _ hst a (List.mem_map.mpr ⟨(a, i), hread, rfl⟩)
          have hin := hl.inside _ _ hst a i hread
          rw [hidnew, hsz, hidold a q hq hca, Nat.add_sub_cancel]
          refine hblack _ (List.mem_filterMap.mpr ⟨x, hx, by rw [hxe]⟩) ?_
          have := hpos a q hq hca
          rw [hc1]
          omega
        · exact hP.direct b' q args' (by omega) h x hx a i hxe

theorem reduceArrays_ok [DecidableEq V] {node : Nat → Ex V} {prog : List (Step V)} {last : Nat → Nat} (hl : Lifetimes node prog last)
    {size : Nat} (hs : cells prog ≤ size) (id : Nat → Nat) :
    ∃ s' id', reduceArrays node prog last size id = .ok (s', id') ∧ Placed node prog last 0 s' id' ∧ s'.count ≤ 1 + cells prog := by
  unfold reduceArrays
  have hno : ¬ (arraysOf prog).any (fun a => decide (last a = 0) || decide (prog.length < last a)) = true := by
    rw [List.any_eq_true]
    rintro ⟨a, ha, h⟩
    obtain ⟨q, hq⟩ := mem_arraysOf.mp ha
    have := hl.needed a q hq
    simp only [Bool.or_eq_true, decide_eq_true_eq] at h
    omega
  rw [if_neg hno]
  obtain ⟨s', id', e, hP, _, _, hc⟩ := allocate_ok hl prog 0 (Comp.init V size) id [] (by simp) (LInv.init size _)
    (fun a => by simp) (fun _ _ h => by omega) (by simp [Comp.init]; omega)
  exact ⟨s', id', e, hP, by simpa [Comp.init] using hc⟩

end Verif.Arrays
