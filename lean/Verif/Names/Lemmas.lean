/- Helper lemmas for names. -/
import Verif.Names.Model
import Std.Data.String.ToNat
namespace Verif.Names

theorem split_at {β : Type} {c : β} : ∀ {a b x y : List β}, c ∉ a → c ∉ b → a ++ c :: x = b ++ c :: y → a = b ∧ x = y := by
  intro a
  induction a with
  | nil =>
    intro b x y _ hb h
    cases b with
    | nil => simpa using h
    | cons d b =>
      simp only [List.nil_append, List.cons_append, List.cons.injEq] at h
      exact absurd h.1 (by rintro rfl; simp at hb)
  | cons d a ih =>
    intro b x y ha hb h
    cases b with
    | nil =>
      simp only [List.nil_append, List.cons_append, List.cons.injEq] at h
      exact absurd h.1 (by rintro rfl; simp at ha)
    | cons d' b =>
      simp only [List.cons_append, List.cons.injEq] at h
      obtain ⟨h1, h2⟩ := ih (by simp at ha; exact ha.2) (by simp at hb; exact hb.2) h.2
      exact ⟨by rw [h.1, h1], h2⟩

theorem digits_inj {k l : Nat} (h : digits k = digits l) : k = l :=
  Nat.repr_injective (String.toList_inj.mp h)

theorem digits_isDigit {k : Nat} {c : Char} (h : c ∈ digits k) : c.isDigit = true := by
  have := Nat.isDigit_of_mem_toDigits (b := 10) (by decide) (by decide) (n := k) (c := c)
    (by simpa [digits, Nat.repr] using h)
  exact this

theorem digits_one {k : Nat} : (digits k).length = 1 ↔ k < 10 := by
  have h1 := @Nat.length_repr_le_iff k 1 (by omega)
  have h2 := @Nat.length_repr_pos k
  have h3 : (digits k).length = k.repr.length := by simp only [digits]; rfl
  rw [h3]
  omega

theorem withIndex_eq (s : Style) (a : Txt) (k : Nat) : withIndex s a k = element s a k := by
  cases s with
  | c => simp [withIndex, element]
  | latex =>
    simp only [withIndex, element]
    by_cases h : k < 10
    · rw [if_pos h, if_pos (digits_one.mpr h)]; simp
    · rw [if_neg h, if_neg (fun h' => h (digits_one.mp h'))]; simp

theorem element_inj (s : Style) {a b : Txt} {k l : Nat} (ha : s.sep ∉ a) (hb : s.sep ∉ b)
    (h : element s a k = element s b l) : a = b ∧ k = l := by
  cases s with
  | c =>
    obtain ⟨h1, h2⟩ := split_at ha hb h
    exact ⟨h1, digits_inj (by simpa using h2)⟩
  | latex =>
    obtain ⟨h1, h2⟩ := split_at ha hb h
    refine ⟨h1, ?_⟩
    have no : ∀ (j : Nat) (t : Txt), digits j ≠ '{' :: t := by
      intro j t hj
      have := digits_isDigit (k := j) (c := '{') (by rw [hj]; simp)
      exact absurd this (by decide)
    split at h2 <;> split at h2
    · exact digits_inj h2
    · exact absurd h2 (no _ _)
    · exact absurd h2.symm (no _ _)
    · exact digits_inj (by simpa using h2)

theorem sep_mem_element (s : Style) (a : Txt) (k : Nat) : s.sep ∈ element s a k := by
  cases s <;> simp [element, Style.sep]

theorem ownName_some {names : List Txt} {i : Nat} {t : Txt} : ownName names i = some t ↔ Chosen names i t := by
  unfold ownName Chosen
  cases h : names[i]? with
  | none => simp
  | some u =>
    cases u with
    | nil => simp
    | cons c u =>
      simp only [Option.some.injEq]
      constructor
      · intro h; subst h; simp
      · exact fun h => h.1

theorem chosen_take {l : List Txt} {n i : Nat} {t : Txt} : Chosen (l.take n) i t ↔ i < n ∧ Chosen l i t := by
  unfold Chosen
  rw [List.getElem?_take]
  by_cases h : i < n
  · simp [h]
  · simp [h]

theorem At.append_last {L : List (Txt × Nat)} {q : Txt × Nat} {id : Nat} {a : Txt} {k : Nat} (h : At L id a k) (hq : id < q.2) :
    At (L ++ [q]) id a k := by
  obtain ⟨pre, suf, s, e, h1, h2, h3⟩ := h
  refine ⟨pre, suf ++ [q], s, by simp [e], h1, h2, ?_⟩
  intro r hr
  rcases List.mem_append.mp hr with hr | hr
  · exact h3 r hr
  · simp at hr; subst hr; exact hq

theorem at_last {L : List (Txt × Nat)} {a : Txt} {s id : Nat} (h : s ≤ id) : At (L ++ [(a, s)]) id a (id - s) :=
  ⟨L, [], s, rfl, h, rfl, by simp⟩

theorem indep_at (g : Gen) : ∀ id, 1 ≤ id → At g.layout id (g.arrayName id) (g.arrayIndex id) := by
  induction g with
  | plain b => intro id h; exact ⟨[], [], 1, rfl, h, rfl, by simp⟩
  | custom b ds xs => intro id h; exact ⟨[], [], 1, rfl, h, rfl, by simp⟩
  | hess g n mult ih =>
    intro id h
    simp only [Gen.layout, Gen.arrayName, Gen.arrayIndex]
    by_cases hid : id < n + 1
    · rw [if_pos hid, if_pos hid]; exact (ih id h).append_last hid
    · rw [if_neg hid, if_neg hid]; exact at_last (by omega)
  | rev2 g n n1 a b ih =>
    intro id h
    have e : g.layout ++ [(a, n + 1), (b, n + 1 + n1)] = g.layout ++ [(a, n + 1)] ++ [(b, n + 1 + n1)] := by simp
    simp only [Gen.layout, Gen.arrayName, Gen.arrayIndex, e]
    by_cases hid : id < n + 1
    · rw [if_pos hid, if_pos hid]
      exact ((ih id h).append_last hid).append_last (by show id < n + 1 + n1; omega)
    · rw [if_neg hid, if_neg hid]
      by_cases h2 : id < n + 1 + n1
      · rw [if_pos h2, if_pos h2]; exact At.append_last (at_last (by omega)) h2
      · rw [if_neg h2, if_neg h2]; exact at_last (by omega)

theorem indep_text (g : Gen) (hu : g.Uniform) : ∀ id, 1 ≤ id →
    (∀ t, Chosen g.indepNames (id - 1) t → g.indepName id = t) ∧
    ((∀ t, ¬ Chosen g.indepNames (id - 1) t) → g.indepName id = element g.base.style (g.arrayName id) (g.arrayIndex id)) := by
  induction g with
  | plain b =>
    intro id h
    refine ⟨fun t ht => ?_, fun _ => withIndex_eq _ _ _⟩
    simp [Gen.indepNames, Chosen] at ht
  | custom b ds xs =>
    intro id h
    simp only [Gen.indepNames, Gen.indepName]
    refine ⟨fun t ht => ?_, fun hn => ?_⟩
    · rw [ownName_some.mpr ht]
    · cases ho : ownName xs (id - 1) with
      | none => exact withIndex_eq _ _ _
      | some t => exact absurd (ownName_some.mp ho) (hn t)
  | hess g n mult ih =>
    intro id h
    obtain ⟨i1, i2⟩ := ih hu.2 id h
    simp only [Gen.indepNames, Gen.indepName, Gen.arrayName, Gen.arrayIndex, Gen.base, hu.1]
    refine ⟨fun t ht => ?_, fun hn => ?_⟩
    · rw [chosen_take] at ht
      rw [if_pos (by omega)]
      exact i1 t ht.2
    · by_cases hid : id < n + 1
      · rw [if_pos hid, if_pos hid, if_pos hid]
        rw [hu.1] at i2
        exact i2 fun t ht => hn t (chosen_take.mpr ⟨by omega, ht⟩)
      · rw [if_neg hid, if_neg hid, if_neg hid]; exact withIndex_eq _ _ _
  | rev2 g n n1 a b ih =>
    intro id h
    obtain ⟨i1, i2⟩ := ih hu.2 id h
    simp only [Gen.indepNames, Gen.indepName, Gen.arrayName, Gen.arrayIndex, Gen.base, hu.1]
    refine ⟨fun t ht => ?_, fun hn => ?_⟩
    · rw [chosen_take] at ht
      rw [if_pos (by omega)]
      exact i1 t ht.2
    · by_cases hid : id < n + 1
      · rw [if_pos hid, if_pos hid, if_pos hid]
        rw [hu.1] at i2
        exact i2 fun t ht => hn t (chosen_take.mpr ⟨by omega, ht⟩)
      · rw [if_neg hid, if_neg hid, if_neg hid]
        by_cases h2 : id < n + 1 + n1
        · rw [if_pos h2, if_pos h2, if_pos h2]; exact withIndex_eq _ _ _
        · rw [if_neg h2, if_neg h2, if_neg h2]; exact withIndex_eq _ _ _

theorem dep_text (g : Gen) (i : Nat) :
    (∀ t, Chosen g.depNames i t → g.depName i = t) ∧
    ((∀ t, ¬ Chosen g.depNames i t) → g.depName i = element g.base.style g.base.dep i) := by
  induction g with
  | plain b =>
    refine ⟨fun t ht => ?_, fun _ => withIndex_eq _ _ _⟩
    simp [Gen.depNames, Chosen] at ht
  | custom b ds xs =>
    simp only [Gen.depNames, Gen.depName]
    refine ⟨fun t ht => ?_, fun hn => ?_⟩
    · rw [ownName_some.mpr ht]
    · cases ho : ownName ds i with
      | none => exact withIndex_eq _ _ _
      | some t => exact absurd (ownName_some.mp ho) (hn t)
  | hess g n mult ih => exact ih
  | rev2 g n n1 a b ih => exact ih

/-- the place of a variable is determined by its array and the position there, if names of arrays are different -/
theorem At.inj {L : List (Txt × Nat)} (hL : (L.map (·.1)).Nodup) {i j : Nat} {a : Txt} {k : Nat}
    (hi : At L i a k) (hj : At L j a k) : i = j := by
  obtain ⟨p, s, x, e, h1, h2, h3⟩ := hi
  obtain ⟨p', s', x', e', h1', h2', h3'⟩ := hj
  have hx : x = x' := by
    have m1 : (a, x) ∈ L := by rw [e]; simp
    have m2 : (a, x') ∈ L := by rw [e']; simp
    have : ∀ (l : List (Txt × Nat)), (l.map (·.1)).Nodup → (a, x) ∈ l → (a, x') ∈ l → x = x' := by
      intro l
      induction l with
      | nil => simp
      | cons q l ih =>
        intro hn
        simp only [List.map_cons, List.nodup_cons] at hn
        intro m1 m2
        rcases List.mem_cons.mp m1 with m1 | m1 <;> rcases List.mem_cons.mp m2 with m2 | m2
        · rw [← m2] at m1; exact congrArg Prod.snd m1
        · exact absurd (List.mem_map.mpr ⟨_, m2, by rw [← m1]⟩) hn.1
        · exact absurd (List.mem_map.mpr ⟨_, m1, by rw [← m2]⟩) hn.1
        · exact ih hn.2 m1 m2
    exact this L hL m1 m2
  omega

theorem At.mem {L : List (Txt × Nat)} {i : Nat} {a : Txt} {k : Nat} (h : At L i a k) : a ∈ L.map (·.1) := by
  obtain ⟨p, s, x, e, _⟩ := h
  rw [e]; simp

theorem split_nodup {L p s p' s' : List (Txt × Nat)} {a : Txt} {x x' : Nat} (hL : (L.map (·.1)).Nodup)
    (e : L = p ++ (a, x) :: s) (e' : L = p' ++ (a, x') :: s') : p' = p ∧ s' = s ∧ x' = x := by
  have key : ∀ (p p' : List (Txt × Nat)), ((p ++ (a, x) :: s).map (·.1)).Nodup → p ++ (a, x) :: s = p' ++ (a, x') :: s' →
      p' = p ∧ s' = s ∧ x' = x := by
    intro p
    induction p with
    | nil =>
      intro p' hn h
      cases p' with
      | nil => simp at h; exact ⟨rfl, h.2.symm, h.1.symm⟩
      | cons q p' =>
        simp only [List.nil_append, List.cons_append, List.cons.injEq] at h
        simp only [List.nil_append, List.map_cons, List.nodup_cons] at hn
        exact absurd (by rw [h.2]; simp) hn.1
    | cons r p ih =>
      intro p' hn h
      simp only [List.cons_append, List.map_cons, List.nodup_cons] at hn
      cases p' with
      | nil =>
        simp only [List.nil_append, List.cons_append, List.cons.injEq] at h
        exact absurd (by rw [h.1]; simp) hn.1
      | cons q p' =>
        simp only [List.cons_append, List.cons.injEq] at h
        obtain ⟨h1, h2, h3⟩ := ih p' hn.2 h.2
        exact ⟨by rw [h.1, h1], h2, h3⟩
  exact key p p' (e ▸ hL) (e ▸ e')

theorem unnamed_true {names : List Txt} {id : Nat} (h1 : 1 ≤ id) (h : unnamed names id = some true) :
    ∀ t, ¬ Chosen names (id - 1) t := by
  intro t ⟨ht, hne⟩
  unfold unnamed at h
  split at h
  · next hc =>
    rcases hc with hc | hc
    · omega
    · rw [List.getElem?_eq_none (by omega)] at ht; exact absurd ht (by simp)
  · rw [ht] at h
    cases t with
    | nil => exact hne rfl
    | cons c t => simp at h

theorem unnamed_false {names : List Txt} {id : Nat} (h : unnamed names id = some false) :
    ∃ t, Chosen names (id - 1) t := by
  unfold unnamed at h
  split at h
  · exact absurd h (by simp)
  · cases hn : names[id - 1]? with
    | none => rw [hn] at h; exact absurd h (by simp)
    | some t =>
      rw [hn] at h
      refine ⟨t, hn, ?_⟩
      rintro rfl
      simp at h

theorem unnamed_isSome {names : List Txt} {id : Nat} (h : id ≠ names.length + 1) : (unnamed names id).isSome := by
  unfold unnamed
  split
  · rfl
  · next hc =>
    have : id - 1 < names.length := by omega
    rw [List.getElem?_eq_getElem this]
    rfl

theorem both_true {a b : Option Bool} : both a b = some true ↔ a = some true ∧ b = some true := by
  unfold both
  rcases a with _ | _ | _ <;> simp

theorem both_false {a b : Option Bool} (h : both a b = some false) : a = some false ∨ b = some false := by
  unfold both at h
  rcases a with _ | _ | _ <;> simp_all

theorem consecutive_true (g : Gen) : ∀ i j, 1 ≤ i → 1 ≤ j → g.consecutive i j = some true →
    j = i + 1 ∧ g.arrayName j = g.arrayName i ∧ g.arrayIndex j = g.arrayIndex i + 1 ∧
    (∀ t, ¬ Chosen g.indepNames (i - 1) t) ∧ ∀ t, ¬ Chosen g.indepNames (j - 1) t := by
  induction g with
  | plain b =>
    intro i j hi hj h
    simp only [Gen.consecutive, Option.some.injEq, beq_iff_eq] at h
    refine ⟨h.symm, rfl, ?_, ?_, ?_⟩
    · simp only [Gen.arrayIndex]; omega
    · intro t ht; simp [Gen.indepNames, Chosen] at ht
    · intro t ht; simp [Gen.indepNames, Chosen] at ht
  | custom b ds xs =>
    intro i j hi hj h
    simp only [Gen.consecutive] at h
    cases hb : both (unnamed xs i) (unnamed xs j) with
    | none => rw [hb] at h; exact absurd h (by simp)
    | some v =>
      cases v with
      | false => rw [hb] at h; exact absurd h (by simp)
      | true =>
        rw [hb] at h
        obtain ⟨b1, b2⟩ := both_true.mp hb
        simp only [Option.some.injEq, beq_iff_eq] at h
        refine ⟨by omega, rfl, ?_, unnamed_true hi b1, unnamed_true hj b2⟩
        simp only [Gen.arrayIndex]; omega
  | hess g n mult ih =>
    intro i j hi hj h
    simp only [Gen.consecutive] at h
    split at h
    · exact absurd h (by simp)
    · next hd =>
      simp only [ne_eq, decide_eq_decide, Decidable.not_not] at hd
      split at h
      · next hc =>
        obtain ⟨h1, h2, h3, h4, h5⟩ := ih i j hi hj h
        simp only [Gen.arrayName, Gen.arrayIndex, if_pos hc.1, if_pos hc.2, Gen.indepNames]
        exact ⟨h1, h2, h3, fun t ht => h4 t (chosen_take.mp ht).2, fun t ht => h5 t (chosen_take.mp ht).2⟩
      · next hc =>
        have c1 : ¬ i < n + 1 := fun h' => hc ⟨h', hd.mp h'⟩
        have c2 : ¬ j < n + 1 := fun h' => hc ⟨hd.mpr h', h'⟩
        simp only [Option.some.injEq, beq_iff_eq] at h
        simp only [Gen.arrayName, Gen.arrayIndex, if_neg c1, if_neg c2, Gen.indepNames]
        refine ⟨h.symm, trivial, by omega, fun t ht => ?_, fun t ht => ?_⟩
        · have := (chosen_take.mp ht).1; omega
        · have := (chosen_take.mp ht).1; omega
  | rev2 g n n1 a b ih =>
    intro i j hi hj h
    simp only [Gen.consecutive] at h
    split at h
    · exact absurd h (by simp)
    · next hd =>
      simp only [ne_eq, decide_eq_decide, Decidable.not_not] at hd
      split at h
      · next hc =>
        obtain ⟨h1, h2, h3, h4, h5⟩ := ih i j hi hj h
        simp only [Gen.arrayName, Gen.arrayIndex, if_pos hc.1, if_pos hc.2, Gen.indepNames]
        exact ⟨h1, h2, h3, fun t ht => h4 t (chosen_take.mp ht).2, fun t ht => h5 t (chosen_take.mp ht).2⟩
      · next hc =>
        have c1 : ¬ i < n + 1 := fun h' => hc ⟨h', hd.mp h'⟩
        have c2 : ¬ j < n + 1 := fun h' => hc ⟨hd.mpr h', h'⟩
        split at h
        · exact absurd h (by simp)
        · next hd2 =>
          simp only [ne_eq, decide_eq_decide, Decidable.not_not] at hd2
          simp only [Option.some.injEq, beq_iff_eq] at h
          simp only [Gen.arrayName, Gen.arrayIndex, if_neg c1, if_neg c2, Gen.indepNames]
          have k1 : ∀ t, ¬ Chosen (g.indepNames.take n) (i - 1) t := fun t ht => by
            have := (chosen_take.mp ht).1; omega
          have k2 : ∀ t, ¬ Chosen (g.indepNames.take n) (j - 1) t := fun t ht => by
            have := (chosen_take.mp ht).1; omega
          by_cases h3 : i < n + 1 + n1
          · rw [if_pos h3, if_pos (hd2.mp h3), if_pos h3, if_pos (hd2.mp h3)]
            exact ⟨h.symm, rfl, by omega, k1, k2⟩
          · rw [if_neg h3, if_neg (fun h' => h3 (hd2.mpr h')), if_neg h3, if_neg (fun h' => h3 (hd2.mpr h'))]
            exact ⟨h.symm, rfl, by omega, k1, k2⟩

/-- identifiers in decreasing layers: the wrapped generator is asked for its own variables only -/
theorem consecutive_false (g : Gen) : ∀ i j, 1 ≤ i → 1 ≤ j → g.consecutive i j = some false →
    (∀ t, ¬ Chosen g.indepNames (i - 1) t) → (∀ t, ¬ Chosen g.indepNames (j - 1) t) → 
    ∀ (p s : List (Txt × Nat)) (a : Txt) (x : Nat), g.layout = p ++ (a, x) :: s → x ≤ i → x ≤ j →
      (∀ q ∈ s, i < q.2) → (∀ q ∈ s, j < q.2) → j ≠ i + 1 := by
  induction g with
  | plain b =>
    intro i j hi hj h _ _ p s a x _ _ _ _ _
    simp only [Gen.consecutive, Option.some.injEq, beq_eq_false_iff_ne] at h
    omega
  | custom b ds xs =>
    intro i j hi hj h n1 n2 p s a x _ _ _ _ _
    simp only [Gen.consecutive] at h
    cases hb : both (unnamed xs i) (unnamed xs j) with
    | none => rw [hb] at h; exact absurd h (by simp)
    | some v =>
      cases v with
      | false =>
        rcases both_false hb with hb | hb
        · obtain ⟨t, ht⟩ := unnamed_false hb; exact absurd ht (n1 t)
        · obtain ⟨t, ht⟩ := unnamed_false hb; exact absurd ht (n2 t)
      | true =>
        rw [hb] at h
        simp only [Option.some.injEq, beq_eq_false_iff_ne] at h
        omega
  | hess g n mult ih =>
    intro i j hi hj h n1 n2 p s a x e x1 x2 s1 s2
    simp only [Gen.consecutive] at h
    simp only [Gen.layout] at e
    simp only [Gen.indepNames] at n1 n2
    have last : (s = [] ∧ x = n + 1) ∨ ∃ s0, s = s0 ++ [(mult, n + 1)] ∧ g.layout = p ++ (a, x) :: s0 := by
      rcases List.eq_nil_or_concat s with rfl | ⟨s0, q, rfl⟩
      · left
        have e' := (List.append_inj' e rfl).2
        simp at e'
        exact ⟨rfl, e'.2.symm⟩
      · right
        have e2 : g.layout ++ [(mult, n + 1)] = (p ++ (a, x) :: s0) ++ [q] := by rw [e]; simp
        have e' := List.append_inj' e2 rfl
        simp at e'
        exact ⟨s0, by rw [← e'.2]; simp, e'.1⟩
    split at h
    · next hd =>
      rcases last with ⟨_, hx⟩ | ⟨s0, hs, _⟩
      · exact absurd (by simp; omega) hd
      · have q1 := s1 (mult, n + 1) (by rw [hs]; simp)
        have q2 := s2 (mult, n + 1) (by rw [hs]; simp)
        exact absurd (by simp at q1 q2 ⊢; omega) hd
    · next hd =>
      split at h
      · next hc =>
        rcases last with ⟨_, hx⟩ | ⟨s0, hs, e'⟩
        · omega
        · exact ih i j hi hj h (fun t ht => n1 t (chosen_take.mpr ⟨by omega, ht⟩))
            (fun t ht => n2 t (chosen_take.mpr ⟨by omega, ht⟩)) p s0 a x e' x1 x2
            (fun q hq => s1 q (by rw [hs]; simp [hq])) (fun q hq => s2 q (by rw [hs]; simp [hq]))
      · simp only [Option.some.injEq, beq_eq_false_iff_ne] at h; omega
  | rev2 g n m1 na nb ih =>
    intro i j hi hj h n1 n2 p s a x e x1 x2 s1 s2
    simp only [Gen.consecutive] at h
    simp only [Gen.layout] at e
    simp only [Gen.indepNames] at n1 n2
    have last : (s = [] ∧ x = n + 1 + m1) ∨ (s = [(nb, n + 1 + m1)] ∧ x = n + 1) ∨
        ∃ s0, s = s0 ++ [(na, n + 1), (nb, n + 1 + m1)] ∧ g.layout = p ++ (a, x) :: s0 := by
      rcases List.eq_nil_or_concat s with rfl | ⟨s0, q, rfl⟩
      · left
        have e2 : (g.layout ++ [(na, n + 1)]) ++ [(nb, n + 1 + m1)] = p ++ [(a, x)] := by rw [← e]; simp
        have e' := (List.append_inj' e2 rfl).2
        simp at e'
        exact ⟨rfl, e'.2.symm⟩
      · right
        have e2 : (g.layout ++ [(na, n + 1)]) ++ [(nb, n + 1 + m1)] = (p ++ (a, x) :: s0) ++ [q] := by
          have : (p ++ (a, x) :: s0) ++ [q] = p ++ (a, x) :: s0.concat q := by simp
          rw [this, ← e]; simp
        have e' := List.append_inj' e2 rfl
        have hq : q = (nb, n + 1 + m1) := by have := e'.2; simp at this; exact this.symm
        rcases List.eq_nil_or_concat s0 with rfl | ⟨s9, r, rfl⟩
        · left
          have e3 := (List.append_inj' e'.1 rfl).2
          simp at e3
          exact ⟨by rw [hq]; simp, e3.2.symm⟩
        · right
          have e4 : g.layout ++ [(na, n + 1)] = (p ++ (a, x) :: s9) ++ [r] := by
            have : (p ++ (a, x) :: s9) ++ [r] = p ++ (a, x) :: s9.concat r := by simp
            rw [this, ← e'.1]
          have e3 := List.append_inj' e4 rfl
          have hr : r = (na, n + 1) := by have := e3.2; simp at this; exact this.symm
          exact ⟨s9, by rw [hq, hr]; simp, e3.1⟩
    split at h
    · next hd =>
      rcases last with ⟨_, hx⟩ | ⟨_, hx⟩ | ⟨s0, hs, _⟩
      · exact absurd (by simp; omega) hd
      · exact absurd (by simp; omega) hd
      · have q1 := s1 (na, n + 1) (by rw [hs]; simp)
        have q2 := s2 (na, n + 1) (by rw [hs]; simp)
        exact absurd (by simp at q1 q2 ⊢; omega) hd
    · next hd =>
      split at h
      · next hc =>
        rcases last with ⟨_, hx⟩ | ⟨_, hx⟩ | ⟨s0, hs, e'⟩
        · omega
        · omega
        · exact ih i j hi hj h (fun t ht => n1 t (chosen_take.mpr ⟨by omega, ht⟩))
            (fun t ht => n2 t (chosen_take.mpr ⟨by omega, ht⟩)) p s0 a x e' x1 x2
            (fun q hq => s1 q (by rw [hs]; simp [hq])) (fun q hq => s2 q (by rw [hs]; simp [hq]))
      · next hc =>
        split at h
        · next hd2 =>
          rcases last with ⟨_, hx⟩ | ⟨hs, hx⟩ | ⟨s0, hs, _⟩
          · exact absurd (by simp; omega) hd2
          · have q1 := s1 (nb, n + 1 + m1) (by rw [hs]; simp)
            have q2 := s2 (nb, n + 1 + m1) (by rw [hs]; simp)
            exact absurd (by simp at q1 q2 ⊢; omega) hd2
          · have q1 := s1 (nb, n + 1 + m1) (by rw [hs]; simp)
            have q2 := s2 (nb, n + 1 + m1) (by rw [hs]; simp)
            exact absurd (by simp at q1 q2 ⊢; omega) hd2
        · simp only [Option.some.injEq, beq_eq_false_iff_ne] at h; omega

/-- the number of names given by the user is not the position of the variable -/
theorem consecutive_isSome (g : Gen) : ∀ i j, (∀ b ds xs, g.inner = .custom b ds xs → i ≠ xs.length + 1 ∧ j ≠ xs.length + 1) →
    (g.consecutive i j).isSome := by
  induction g with
  | plain b => intro i j _; rfl
  | custom b ds xs =>
    intro i j h
    obtain ⟨h1, h2⟩ := h b ds xs rfl
    obtain ⟨u, hu⟩ := Option.isSome_iff_exists.mp (unnamed_isSome h1)
    obtain ⟨v, hv⟩ := Option.isSome_iff_exists.mp (unnamed_isSome h2)
    simp only [Gen.consecutive, hu, hv, both]
    cases u <;> cases v <;> rfl
  | hess g n mult ih =>
    intro i j h
    simp only [Gen.consecutive]
    split
    · rfl
    · split
      · exact ih i j h
      · rfl
  | rev2 g n n1 a b ih =>
    intro i j h
    simp only [Gen.consecutive]
    split
    · rfl
    · split
      · exact ih i j h
      · split
        · rfl
        · rfl

/-! ### texts of different variables -/

theorem sep_not_digits (s : Style) (k : Nat) : s.sep ∉ digits k := by
  intro h
  have := digits_isDigit h
  cases s <;> exact absurd this (by decide)

theorem amp_not_digits (k : Nat) : '&' ∉ digits k := fun h => absurd (digits_isDigit h) (by decide)

theorem amp_not_element (s : Style) {a : Txt} (k : Nat) (ha : '&' ∉ a) : '&' ∉ element s a k := by
  have := amp_not_digits k
  cases s with
  | c => simp [element, ha, this]
  | latex =>
    simp only [element]
    split <;> simp [ha, this]

/-- forms of names -/
inductive Key
  | own (t : Txt)
  | el (a : Txt) (k : Nat)
  | sc (id : Nat)
  | amp (a : Txt) (k : Nat)

def Key.text (b : Names) : Key → Txt
  | .own t => t
  | .el a k => element b.style a k
  | .sc id =>
    match b.style with
    | .c => b.tmp ++ digits id
    | .latex => element .latex (b.tmp ++ digits id) id
  | .amp a k =>
    match b.style with
    | .c => '&' :: element .c a k
    | .latex => '\\' :: '&' :: element .latex a k

/-- the names in a key are among the given ones -/
def Key.Ok (b : Names) (arrays : List Txt) (own : Txt → Prop) : Key → Prop
  | .own t => own t
  | .el a _ => a ∈ arrays
  | .sc _ => b.tmpArray = false
  | .amp a _ => a ∈ arrays

theorem Key.inj {b : Names} {arrays : List Txt} {own : Txt → Prop} (htmp : b.tmp ∈ arrays)
    (hsep : ∀ a ∈ arrays, b.style.sep ∉ a ∧ '&' ∉ a) (hown : ∀ t, own t → b.style.sep ∉ t ∧ '&' ∉ t)
    (hsc : b.tmpArray = false → ∀ k, b.tmp ++ digits k ∉ arrays ∧ ¬ own (b.tmp ++ digits k))
    {x y : Key} (hx : x.Ok b arrays own) (hy : y.Ok b arrays own) (h : x.text b = y.text b) : x = y := by
  have st : ∀ k, b.style.sep ∉ b.tmp ++ digits k := fun k hm => by
    rcases List.mem_append.mp hm with hm | hm
    · exact (hsep _ htmp).1 hm
    · exact sep_not_digits _ _ hm
  have stamp : ∀ k, '&' ∉ b.tmp ++ digits k := fun k hm => by
    rcases List.mem_append.mp hm with hm | hm
    · exact (hsep _ htmp).2 hm
    · exact amp_not_digits _ hm
  have noamp : ∀ z : Key, z.Ok b arrays own → (∀ a k, z ≠ .amp a k) → '&' ∉ z.text b := by
    intro z hz hne
    cases z with
    | own t => exact (hown t hz).2
    | el a k => exact amp_not_element _ _ (hsep a hz).2
    | sc id =>
      simp only [Key.text]
      split
      · exact stamp id
      · exact amp_not_element _ _ (stamp id)
    | amp a k => exact absurd rfl (hne a k)
  have isamp : ∀ a k, '&' ∈ Key.text b (.amp a k) := by
    intro a k
    simp only [Key.text]
    split <;> simp
  have own_el : ∀ t a k, own t → t ≠ element b.style a k := fun t a k ht he => by
    exact (hown t ht).1 (by rw [he]; exact sep_mem_element _ _ _)
  have own_sc : ∀ t id, own t → b.tmpArray = false → t ≠ Key.text b (.sc id) := by
    intro t id ht hf he
    cases hs : b.style with
    | c =>
      simp only [Key.text, hs] at he
      exact (hsc hf id).2 (by rw [← he]; exact ht)
    | latex =>
      simp only [Key.text, hs] at he
      have := (hown t ht).1
      rw [hs, he] at this
      exact this (sep_mem_element .latex _ _)
  have el_sc : ∀ a k id, a ∈ arrays → b.tmpArray = false → element b.style a k ≠ Key.text b (.sc id) := by
    intro a k id ha hf he
    have h1 := (hsep a ha).1
    have h2 := st id
    have h3 := sep_mem_element b.style a k
    cases hs : b.style with
    | c =>
      simp only [Key.text, hs] at he h1 h2 h3
      rw [he] at h3
      exact h2 h3
    | latex =>
      simp only [Key.text, hs] at he h1 h2
      have := (element_inj .latex h1 h2 he).1
      exact (hsc hf id).1 (by rw [← this]; exact ha)
  cases x with
  | own t =>
    cases y with
    | own u => exact congrArg Key.own h
    | el a k => exact absurd h (own_el t a k hx)
    | sc id => exact absurd h (own_sc t id hx hy)
    | amp a k => exact absurd (h ▸ isamp a k) (noamp (.own t) hx (by intros; simp))
  | el a k =>
    cases y with
    | own u => exact absurd h.symm (own_el u a k hy)
    | el a' k' =>
      obtain ⟨h1, h2⟩ := element_inj b.style (hsep a hx).1 (hsep a' hy).1 h
      rw [h1, h2]
    | sc id => exact absurd h (el_sc a k id hx hy)
    | amp a' k' => exact absurd (h ▸ isamp a' k') (noamp (.el a k) hx (by intros; simp))
  | sc id =>
    cases y with
    | own u => exact absurd h.symm (own_sc u id hy hx)
    | el a' k' => exact absurd h.symm (el_sc a' k' id hy hx)
    | sc id' =>
      have h2 := st id
      have h2' := st id'
      cases hs : b.style with
      | c =>
        simp only [Key.text, hs, List.append_cancel_left_eq] at h
        rw [digits_inj h]
      | latex =>
        simp only [Key.text, hs] at h
        rw [hs] at h2 h2'
        rw [(element_inj .latex h2 h2' h).2]
    | amp a' k' => exact absurd (h ▸ isamp a' k') (noamp (.sc id) hx (by intros; simp))
  | amp a k =>
    cases y with
    | own u => exact absurd (h ▸ isamp a k) (noamp (.own u) hy (by intros; simp))
    | el a' k' => exact absurd (h ▸ isamp a k) (noamp (.el a' k') hy (by intros; simp))
    | sc id' => exact absurd (h ▸ isamp a k) (noamp (.sc id') hy (by intros; simp))
    | amp a' k' =>
      have h1 := (hsep a hx).1
      have h2 := (hsep a' hy).1
      cases hs : b.style with
      | c =>
        simp only [Key.text, hs, List.cons.injEq, true_and] at h
        rw [hs] at h1 h2
        obtain ⟨h3, h4⟩ := element_inj .c h1 h2 h
        rw [h3, h4]
      | latex =>
        simp only [Key.text, hs, List.cons.injEq, true_and] at h
        rw [hs] at h1 h2
        obtain ⟨h3, h4⟩ := element_inj .latex h1 h2 h
        rw [h3, h4]

theorem layout_names (g : Gen) : g.layout.map (·.1) = g.arguments := by
  induction g with
  | plain b => rfl
  | custom b ds xs => rfl
  | hess g n mult ih => simp [Gen.layout, Gen.arguments, ih]
  | rev2 g n n1 a b ih => simp [Gen.layout, Gen.arguments, ih]

end Verif.Names
