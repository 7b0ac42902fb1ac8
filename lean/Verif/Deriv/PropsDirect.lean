import Verif.Deriv.ModelDirect
import Verif.Deriv.Lemmas
/-
C49: the sparse Hessian generated directly.
-/
namespace Verif.Deriv

theorem locationsOf_ok : ∀ (ps done : List (Nat × Nat)) (locs : List ((Nat × Nat) × Nat)),
    (∀ p, (locs.find? (·.1 == p)).isSome = true ↔ p ∈ done) →
    (∀ (e : Nat) p, (p, e) ∈ locs ↔ done[e]? = some p) →
    (done.Nodup → (done ++ ps).Nodup → ∃ l, locationsOf done.length ps locs = .ok l ∧
      ∀ (e : Nat) p, (p, e) ∈ l ↔ (done ++ ps)[e]? = some p) ∧
    (done.Nodup → ¬ (done ++ ps).Nodup → locationsOf done.length ps locs = .error .exception)
  | [], done, locs, _, h2 => by
    refine ⟨fun _ _ => ⟨locs, rfl, by simpa using h2⟩, fun hd h => ?_⟩
    rw [List.append_nil] at h
    exact absurd hd h
  | p :: ps, done, locs, h1, h2 => by
    have happ : done ++ p :: ps = (done ++ [p]) ++ ps := by simp
    have hlen : done.length + 1 = (done ++ [p]).length := by simp
    by_cases hp : p ∈ done
    · obtain ⟨l, hl⟩ := Option.isSome_iff_exists.1 ((h1 p).2 hp)
      refine ⟨fun _ h => ?_, fun _ _ => ?_⟩
      · have := (List.nodup_append.1 h).2.2 p hp p List.mem_cons_self
        exact absurd rfl this
      · rw [locationsOf, hl]
    · have hnone : locs.find? (·.1 == p) = none := by
        cases hf : locs.find? (·.1 == p) with
        | none => rfl
        | some l => exact absurd ((h1 p).1 (by rw [hf]; rfl)) hp
      have hstep : locationsOf done.length (p :: ps) locs = locationsOf (done ++ [p]).length ps (locs ++ [(p, done.length)]) := by
        rw [locationsOf, hnone, hlen]
      obtain ⟨k1, k2⟩ := locationsOf_ok ps (done ++ [p]) (locs ++ [(p, done.length)])
        (fun q => by
          rw [List.find?_append, Option.isSome_or, Bool.or_eq_true, h1, List.mem_append, List.mem_singleton]
          simp only [List.find?_singleton]
          by_cases hq : p = q
          · simp [hq]
          · have : ((p == q) : Bool) = false := by simpa using hq
            simp only [this, Bool.false_eq_true, if_false, Option.isSome_none, or_false, Bool.false_eq_true]
            exact ⟨.inl, fun h => h.resolve_right fun e => hq e.symm⟩)
        (fun e q => by
          rw [List.mem_append, h2, List.mem_singleton, Prod.mk.injEq]
          rcases Nat.lt_trichotomy e done.length with hlt | heq | hgt
          · rw [List.getElem?_append_left hlt]
            exact ⟨fun h => h.elim id fun h => absurd h.2 (by omega), .inl⟩
          · subst heq
            rw [List.getElem?_append_right (Nat.le_refl _), Nat.sub_self]
            simp [eq_comm]
          · rw [List.getElem?_eq_none (by omega), List.getElem?_eq_none (by simp; omega)]
            simp; omega)
      have hdone : done.Nodup → (done ++ [p]).Nodup := fun hd =>
        List.nodup_append.2 ⟨hd, List.pairwise_singleton _ _, fun a ha b hb => by
          rw [List.mem_singleton] at hb
          subst hb
          rintro rfl
          exact hp ha⟩
      rw [hstep, happ]
      exact ⟨fun hd h => k1 (hdone hd) h, fun hd h => k2 (hdone hd) h⟩

/-- an element whose symmetric one is evaluated -/
def IsDup (ev : List (Nat × Nat)) (e s : Nat) : Prop := ∃ i j, i < j ∧ ev[e]? = some (i, j) ∧ ev[s]? = some (j, i)

theorem lowerOf_ok {ev : List (Nat × Nat)} (hn : ev.Nodup) {locs : List ((Nat × Nat) × Nat)}
    (hl : ∀ (e : Nat) p, (p, e) ∈ locs ↔ ev[e]? = some p) : ∀ (ps : List (Nat × Nat)) (e0 : Nat),
    (∀ k, ps[k]? = ev[e0 + k]?) →
    (∀ e p, (e, p) ∈ (lowerOf locs e0 ps).1 ↔ e0 ≤ e ∧ ev[e]? = some p ∧ ∀ s, ¬ IsDup ev e s) ∧
    (∀ e s, (e, s) ∈ (lowerOf locs e0 ps).2 ↔ e0 ≤ e ∧ IsDup ev e s)
  | [], e0, hk => by
    have hnone : ∀ e, e0 ≤ e → ev[e]? = none := fun e he => by
      have := hk (e - e0)
      rw [show e0 + (e - e0) = e from by omega] at this
      rw [← this]; rfl
    refine ⟨fun e p => ⟨(fun h => by cases h), fun h => ?_⟩, fun e s => ⟨(fun h => by cases h), fun h => ?_⟩⟩
    · rw [hnone e h.1] at h; cases h.2.1
    · obtain ⟨h0, i, j, _, h1, _⟩ := h
      rw [hnone e h0] at h1; cases h1
  | (i, j) :: ps, e0, hk => by
    obtain ⟨ih1, ih2⟩ := lowerOf_ok hn hl ps (e0 + 1) fun k => by
      have := hk (k + 1)
      rw [show e0 + 1 + k = e0 + (k + 1) from by omega, ← this]
      rfl
    have h0 : ev[e0]? = some (i, j) := by
      have := hk 0
      rw [Nat.add_zero] at this
      rw [← this]; rfl
    -- the decision for this place
    have hdup : ∀ s, IsDup ev e0 s ↔ i < j ∧ ev[s]? = some (j, i) := by
      intro s
      constructor
      · rintro ⟨i', j', hlt, h1, h2⟩
        rw [h0, Option.some.injEq, Prod.mk.injEq] at h1
        obtain ⟨rfl, rfl⟩ := h1
        exact ⟨hlt, h2⟩
      · rintro ⟨hlt, h2⟩
        exact ⟨i, j, hlt, h0, h2⟩
    have hcase : ∀ (ndup : ∀ s, ¬ IsDup ev e0 s), lowerOf locs e0 ((i, j) :: ps) =
        ((e0, (i, j)) :: (lowerOf locs (e0 + 1) ps).1, (lowerOf locs (e0 + 1) ps).2) →
        (∀ e p, (e, p) ∈ (lowerOf locs e0 ((i, j) :: ps)).1 ↔ e0 ≤ e ∧ ev[e]? = some p ∧ ∀ s, ¬ IsDup ev e s) ∧
        (∀ e s, (e, s) ∈ (lowerOf locs e0 ((i, j) :: ps)).2 ↔ e0 ≤ e ∧ IsDup ev e s) := by
      intro ndup heq
      rw [heq]
      refine ⟨fun e p => ?_, fun e s => ?_⟩
      · simp only [List.mem_cons, Prod.mk.injEq, ih1]
        constructor
        · rintro (⟨rfl, rfl⟩ | ⟨h1, h2⟩)
          · exact ⟨Nat.le_refl _, h0, ndup⟩
          · exact ⟨by omega, h2⟩
        · rintro ⟨h1, h2, h3⟩
          rcases Nat.eq_or_lt_of_le h1 with rfl | hlt
          · rw [h0, Option.some.injEq] at h2
            exact .inl ⟨rfl, h2.symm⟩
          · exact .inr ⟨hlt, h2, h3⟩
      · simp only [ih2]
        constructor
        · rintro ⟨h1, h2⟩; exact ⟨by omega, h2⟩
        · rintro ⟨h1, h2⟩
          rcases Nat.eq_or_lt_of_le h1 with rfl | hlt
          · exact absurd h2 (ndup s)
          · exact ⟨hlt, h2⟩
    by_cases hij : i < j
    · cases hf : locs.find? (·.1 == (j, i)) with
      | none =>
        refine hcase (fun s hs => ?_) (by rw [lowerOf]; simp only [if_pos hij, hf])
        have hm := (hl s (j, i)).2 ((hdup s).1 hs).2
        exact absurd (List.find?_eq_none.1 hf _ hm) (by simp)
      | some l =>
        have hlp : l.1 = (j, i) := by simpa using List.find?_some hf
        have hlm : (l.1, l.2) ∈ locs := List.mem_of_find?_eq_some hf
        rw [hlp] at hlm
        have hs := (hl l.2 (j, i)).1 hlm
        have heq : lowerOf locs e0 ((i, j) :: ps) =
            ((lowerOf locs (e0 + 1) ps).1, (e0, l.2) :: (lowerOf locs (e0 + 1) ps).2) := by
          rw [lowerOf]; simp only [if_pos hij, hf]
        rw [heq]
        refine ⟨fun e p => ?_, fun e s => ?_⟩
        · simp only [ih1]
          constructor
          · rintro ⟨h1, h2⟩; exact ⟨by omega, h2⟩
          · rintro ⟨h1, h2, h3⟩
            rcases Nat.eq_or_lt_of_le h1 with rfl | hlt
            · exact absurd ((hdup l.2).2 ⟨hij, hs⟩) (h3 _)
            · exact ⟨hlt, h2, h3⟩
        · simp only [List.mem_cons, Prod.mk.injEq, ih2]
          constructor
          · rintro (⟨rfl, rfl⟩ | ⟨h1, h2⟩)
            · exact ⟨Nat.le_refl _, (hdup _).2 ⟨hij, hs⟩⟩
            · exact ⟨by omega, h2⟩
          · rintro ⟨h1, h2⟩
            rcases Nat.eq_or_lt_of_le h1 with rfl | hlt
            · have h3 := ((hdup s).1 h2).2
              exact .inl ⟨rfl, nodup_get hn h3 hs⟩
            · exact .inr ⟨hlt, h2⟩
    · exact hcase (fun s hs => hij ((hdup s).1 hs).1) (by rw [lowerOf]; simp only [if_neg hij])

theorem putAll_ok {V : Type} {f : Nat → V} : ∀ (ws : List (Nat × V)) (a : List V), (∀ w ∈ ws, w.1 < a.length ∧ w.2 = f w.1) →
    ∃ b, putAll ws a = .ok b ∧ b.length = a.length ∧
      (∀ w ∈ ws, b[w.1]? = some (f w.1)) ∧ ∀ e, (∀ w ∈ ws, e ≠ w.1) → b[e]? = a[e]?
  | [], a, _ => ⟨a, rfl, rfl, (fun _ h => by cases h), fun _ _ => rfl⟩
  | (e, v) :: ws, a, h => by
    obtain ⟨h1, h2⟩ := h _ List.mem_cons_self
    simp only at h1 h2
    obtain ⟨b, k1, k2, k3, k4⟩ := putAll_ok ws (a.set e v) fun w hw => by
      rw [List.length_set]; exact h w (List.mem_cons_of_mem _ hw)
    refine ⟨b, by rw [putAll, if_pos h1, k1], by rw [k2, List.length_set], fun w hw => ?_, fun e' he' => ?_⟩
    · rcases List.mem_cons.1 hw with rfl | hw
      · by_cases hex : ∃ w ∈ ws, e = w.1
        · obtain ⟨w, hw', he⟩ := hex
          show b[e]? = some (f e)
          rw [he]
          exact k3 w hw'
        · rw [k4 e fun w hw he => hex ⟨w, hw, he⟩, List.getElem?_set_self h1, h2]
      · exact k3 w hw
    · rw [k4 e' fun w hw => he' w (List.mem_cons_of_mem _ hw), List.getElem?_set_ne (Ne.symm (he' _ List.mem_cons_self))]

theorem putDuplicates_ok {V : Type} {f : Nat → V} : ∀ (ws : List (Nat × Nat)) (a : List V),
    (∀ w ∈ ws, w.1 < a.length ∧ a[w.2]? = some (f w.1)) → (∀ w ∈ ws, ∀ w' ∈ ws, w.1 ≠ w'.2) →
    ∃ b, putDuplicates ws a = .ok b ∧ b.length = a.length ∧
      (∀ w ∈ ws, b[w.1]? = some (f w.1)) ∧ ∀ e, (∀ w ∈ ws, e ≠ w.1) → b[e]? = a[e]?
  | [], a, _, _ => ⟨a, rfl, rfl, (fun _ h => by cases h), fun _ _ => rfl⟩
  | (e, s) :: ws, a, h, hd => by
    obtain ⟨h1, h2⟩ := h _ List.mem_cons_self
    simp only at h1 h2
    obtain ⟨b, k1, k2, k3, k4⟩ := putDuplicates_ok (f := f) ws (a.set e (f e)) (fun w hw => by
      rw [List.length_set, List.getElem?_set_ne (hd _ List.mem_cons_self w (List.mem_cons_of_mem _ hw))]
      exact h w (List.mem_cons_of_mem _ hw)) fun w hw w' hw' => hd w (List.mem_cons_of_mem _ hw) w' (List.mem_cons_of_mem _ hw')
    refine ⟨b, by rw [putDuplicates, h2]; simp only [if_pos h1, k1], by rw [k2, List.length_set], fun w hw => ?_,
      fun e' he' => ?_⟩
    · rcases List.mem_cons.1 hw with rfl | hw
      · by_cases hex : ∃ w ∈ ws, e = w.1
        · obtain ⟨w, hw', he⟩ := hex
          show b[e]? = some (f e)
          rw [he]
          exact k3 w hw'
        · rw [k4 e fun w hw he => hex ⟨w, hw, he⟩, List.getElem?_set_self h1]
      · exact k3 w hw
    · rw [k4 e' fun w hw => he' w (List.mem_cons_of_mem _ hw), List.getElem?_set_ne (Ne.symm (he' _ List.mem_cons_self))]

/-- Every requested element is right. `H` is the Hessian, `sp` the pattern CppAD found, which may contain only one of two
symmetric elements (atomic functions which provide half of their Hessian), but no element may be missing on both sides.
CppAD is taken to give the elements of the pattern, and zero outside of it. -/
theorem direct_hessian {V : Type} [Zero V] {H oracle : Nat → Nat → V} {sp : Nat → Nat → Bool}
    (hsym : ∀ i j, H i j = H j i) (hH : ∀ i j, sp i j = false → sp j i = false → H i j = 0)
    (ho : ∀ i j, oracle i j = if sp i j then H i j else 0) {els : List (Nat × Nat)} (hn : (evalElements sp els).Nodup) :
    ∃ a, directHessian oracle sp els = .ok a ∧ a.length = els.length ∧
      ∀ (e i j : Nat), els[e]? = some (i, j) → a[e]? = some (H i j) := by
  have hlen : (evalElements sp els).length = els.length := by rw [evalElements, List.length_map]
  obtain ⟨locs, hl1, hl2⟩ := (locationsOf_ok (evalElements sp els) [] [] (by simp) (by simp)).1 List.nodup_nil hn
  simp only [List.nil_append, List.length_nil] at hl1 hl2
  obtain ⟨lo1, lo2⟩ := lowerOf_ok hn hl2 (evalElements sp els) 0 fun k => by rw [Nat.zero_add]
  simp only [Nat.zero_le, true_and] at lo1 lo2
  -- the value of an evaluated element
  have hev : ∀ (e i j : Nat), els[e]? = some (i, j) → ∃ i' j', (evalElements sp els)[e]? = some (i', j') ∧ H i' j' = H i j ∧
      (sp i' j' = false → sp j' i' = false) := by
    intro e i j he
    have hget : (evalElements sp els)[e]? = some (if !sp i j && sp j i then (j, i) else (i, j)) := by
      rw [evalElements, List.getElem?_map, he]; rfl
    by_cases hc : (!sp i j && sp j i) = true
    · rw [if_pos hc] at hget
      rw [Bool.and_eq_true] at hc
      exact ⟨j, i, hget, (hsym i j).symm, fun h => by rw [hc.2] at h; cases h⟩
    · rw [if_neg hc] at hget
      refine ⟨i, j, hget, rfl, fun h => ?_⟩
      cases h2 : sp j i with
      | false => rfl
      | true => rw [h, h2] at hc; exact absurd rfl hc
  have hex : ∀ (e : Nat) p, (evalElements sp els)[e]? = some p → ∃ i j, els[e]? = some (i, j) := by
    intro e p h
    have := (List.getElem?_eq_some_iff.1 h).1
    rw [hlen] at this
    exact ⟨els[e].1, els[e].2, List.getElem?_eq_getElem this⟩
  have horacle : ∀ (e : Nat) p, (evalElements sp els)[e]? = some p → oracle p.1 p.2 = H p.1 p.2 := by
    intro e p hp
    obtain ⟨i, j, he⟩ := hex e p hp
    obtain ⟨i', j', h1, _, h3⟩ := hev e i j he
    rw [hp, Option.some.injEq] at h1
    subst h1
    rw [ho]
    cases hs : sp i' j' with
    | true => rfl
    | false => exact (hH i' j' hs (h3 hs)).symm
  let val : Nat → V := fun e => match els[e]? with | some p => H p.1 p.2 | none => 0
  have hval : ∀ (e : Nat) p, (evalElements sp els)[e]? = some p → H p.1 p.2 = val e := by
    intro e p hp
    obtain ⟨i, j, he⟩ := hex e p hp
    obtain ⟨i', j', h1, h2, _⟩ := hev e i j he
    rw [hp, Option.some.injEq] at h1
    subst h1
    simp only [val, he]
    exact h2
  obtain ⟨a, a1, a2, a3, a4⟩ := putAll_ok (f := val)
    ((lowerOf locs 0 (evalElements sp els)).1.map fun w => (w.1, oracle w.2.1 w.2.2)) (List.replicate els.length 0)
    fun w hw => by
      obtain ⟨⟨e, p⟩, hm, rfl⟩ := List.mem_map.1 hw
      have hp := ((lo1 e p).1 hm).1
      refine ⟨?_, (horacle e p hp).trans (hval e p hp)⟩
      rw [List.length_replicate, ← hlen]
      exact (List.getElem?_eq_some_iff.1 hp).1
  rw [List.length_replicate] at a2
  obtain ⟨b, b1, b2, b3, b4⟩ := putDuplicates_ok (f := val) (lowerOf locs 0 (evalElements sp els)).2 a
    (fun w hw => by
      obtain ⟨i, j, hij, h1, h2⟩ := (lo2 w.1 w.2).1 hw
      have hlow : (w.2, (j, i)) ∈ (lowerOf locs 0 (evalElements sp els)).1 := (lo1 _ _).2 ⟨h2, fun s hs => by
        obtain ⟨i', j', hij', h1', _⟩ := hs
        rw [h2, Option.some.injEq, Prod.mk.injEq] at h1'
        omega⟩
      refine ⟨?_, ?_⟩
      · rw [a2, ← hlen]; exact (List.getElem?_eq_some_iff.1 h1).1
      · have := a3 _ (List.mem_map_of_mem hlow)
        rw [this, ← hval _ _ h2, ← hval _ _ h1, hsym])
    (fun w hw w' hw' he => by
      obtain ⟨i, j, hij, h1, h2⟩ := (lo2 w.1 w.2).1 hw
      obtain ⟨i', j', hij', h1', h2'⟩ := (lo2 w'.1 w'.2).1 hw'
      rw [← he, h1, Option.some.injEq, Prod.mk.injEq] at h2'
      omega)
  refine ⟨b, ?_, by rw [b2, a2], fun e i j he => ?_⟩
  · rw [directHessian]
    simp only [hl1, a1, b1]
  · obtain ⟨i', j', h1, h2, _⟩ := hev e i j he
    have hv : val e = H i j := by simp only [val, he]
    by_cases hd : ∃ s, IsDup (evalElements sp els) e s
    · obtain ⟨s, hs⟩ := hd
      rw [← hv]
      exact b3 _ ((lo2 e s).2 hs)
    · have hlow := (lo1 e (i', j')).2 ⟨h1, fun s hs => hd ⟨s, hs⟩⟩
      rw [b4 e fun w hw hew => hd ⟨w.2, (lo2 e w.2).1 (by rw [hew]; exact hw)⟩, ← hv]
      exact a3 _ (List.mem_map_of_mem hlow)

/-- The request is rejected when, and only when, an element would be evaluated twice. -/
theorem direct_hessian_rejects {V : Type} [Zero V] (oracle : Nat → Nat → V) (sp : Nat → Nat → Bool) {els : List (Nat × Nat)}
    (hn : ¬ (evalElements sp els).Nodup) : directHessian oracle sp els = .error .exception := by
  have := (locationsOf_ok (evalElements sp els) [] [] (by simp) (by simp)).2 List.nodup_nil hn
  simp only [List.length_nil] at this
  rw [directHessian, this]

/-- the Hessian [[2, 3], [3, 0]] with only the element (1, 0) of the pair in the pattern -/
def sp2 : Nat → Nat → Bool := fun i j => [(0, 0), (1, 0)].contains (i, j)

def oracle2 : Nat → Nat → Int := fun i j => if (i, j) = (0, 0) then 2 else if (i, j) = (1, 0) then 3 else 0

/-- Both elements of a symmetric pair cannot be requested if only one is in the pattern, although the request has no
repetition. -/
theorem direct_hessian_pair_counterexample :
    directHessian oracle2 sp2 [(0, 1), (1, 0)] = .error .exception := by rfl

/-! ### the dense Hessian -/

/-- The lower half is replaced by the upper one: right if the upper half is right and the Hessian symmetric. -/
theorem dense_hessian {V : Type} {H : Nat → Nat → V} (hsym : ∀ i j, H i j = H j i) {n : Nat} {a : List V}
    (hlen : a.length = n * n) (ha : ∀ i j, i ≤ j → j < n → a[i * n + j]? = some (H i j)) :
    ∃ b, denseSymmetric n a = .ok b ∧ b.length = n * n ∧ ∀ i j, i < n → j < n → b[i * n + j]? = some (H i j) := by
  have inj : ∀ {i j i' j' : Nat}, j < n → j' < n → i * n + j = i' * n + j' → i = i' ∧ j = j' := by
    intro i j i' j' hj hj' he
    have hn : 0 < n := by omega
    have h1 := congrArg (· / n) he
    have h2 := congrArg (· % n) he
    simp only [Nat.mul_comm _ n, Nat.mul_add_div hn, Nat.div_eq_of_lt hj, Nat.div_eq_of_lt hj', Nat.add_zero,
      Nat.mul_add_mod, Nat.mod_eq_of_lt hj, Nat.mod_eq_of_lt hj'] at h1 h2
    exact ⟨h1, h2⟩
  have bound : ∀ {i j : Nat}, i < n → j < n → i * n + j < n * n := by
    intro i j hi hj
    calc i * n + j < i * n + n := by omega
      _ = (i + 1) * n := by rw [Nat.add_mul, Nat.one_mul]
      _ ≤ n * n := Nat.mul_le_mul_right n hi
  have hmem : ∀ w, w ∈ ((List.range n).flatMap fun i => (List.range i).map fun j => (i * n + j, j * n + i)) ↔
      ∃ i j, j < i ∧ i < n ∧ w = (i * n + j, j * n + i) := by
    intro w
    simp only [List.mem_flatMap, List.mem_range, List.mem_map]
    constructor
    · rintro ⟨i, hi, j, hj, rfl⟩; exact ⟨i, j, hj, hi, rfl⟩
    · rintro ⟨i, j, hj, hi, rfl⟩; exact ⟨i, hi, j, hj, rfl⟩
  have hn : ∀ {i j}, j < i → i < n → (i * n + j) / n = i ∧ (i * n + j) % n = j := by
    intro i j hj hi
    have h0 : 0 < n := by omega
    rw [Nat.mul_comm i n, Nat.mul_add_div h0, Nat.div_eq_of_lt (by omega), Nat.mul_add_mod, Nat.mod_eq_of_lt (by omega)]
    exact ⟨by omega, rfl⟩
  obtain ⟨b, b1, b2, b3, b4⟩ := putDuplicates_ok (f := fun e => H (e / n) (e % n))
    ((List.range n).flatMap fun i => (List.range i).map fun j => (i * n + j, j * n + i)) a
    (fun w hw => by
      obtain ⟨i, j, hj, hi, rfl⟩ := (hmem w).1 hw
      refine ⟨by rw [hlen]; exact bound hi (by omega), ?_⟩
      rw [ha j i (by omega) hi]
      simp only [(hn hj hi).1, (hn hj hi).2, hsym i j])
    (fun w hw w' hw' he => by
      obtain ⟨i, j, hj, hi, rfl⟩ := (hmem w).1 hw
      obtain ⟨i', j', hj', hi', rfl⟩ := (hmem w').1 hw'
      have := inj (by omega) hi' he
      omega)
  refine ⟨b, b1, by rw [b2, hlen], fun i j hi hj => ?_⟩
  by_cases hij : i ≤ j
  · rw [b4 _ fun w hw he => ?_, ha i j hij hj]
    obtain ⟨i', j', hj', hi', rfl⟩ := (hmem w).1 hw
    have := inj hj (by omega) he
    omega
  · have := b3 (i * n + j, j * n + i) ((hmem _).2 ⟨i, j, by omega, hi, rfl⟩)
    simp only [(hn (by omega : j < i) hi).1, (hn (by omega : j < i) hi).2] at this
    exact this

/-! ### non-vacuity -/

example : directHessian oracle2 sp2 [(0, 1), (1, 1), (0, 0)] = .ok [3, 0, 2] := by rfl

example : directHessian (fun i j => ((i + j : Nat) : Int)) (fun _ _ => true) [(0, 2), (2, 0), (1, 1)] = .ok [2, 2, 2] := by rfl

def hes49 : Nat → Nat → Int := fun i j => if i = 0 ∧ j = 0 then 2 else if i + j = 1 then 3 else 0

example : ∃ a, directHessian oracle2 sp2 [(0, 1), (1, 1), (0, 0)] = .ok a ∧ a.length = 3 ∧
    ∀ (e i j : Nat), [(0, 1), (1, 1), (0, 0)][e]? = some (i, j) → a[e]? = some (hes49 i j) := by
  have hsp : ∀ i j, sp2 i j = true ↔ (i = 0 ∧ j = 0) ∨ (i = 1 ∧ j = 0) := fun i j => by simp [sp2]
  refine direct_hessian (H := hes49) (fun i j => ?_) (fun i j h1 h2 => ?_) (fun i j => ?_) (by decide)
  · simp only [hes49, and_comm, Nat.add_comm]
  · rw [← Bool.not_eq_true, hsp] at h1 h2
    simp only [hes49]
    rw [if_neg (by omega), if_neg (by omega)]
  · simp only [hsp, hes49, oracle2, Prod.mk.injEq]
    by_cases h1 : i = 0 ∧ j = 0
    · simp [h1]
    · by_cases h2 : i = 1 ∧ j = 0
      · simp [h2]
      · simp [h1, h2]

example : denseSymmetric 2 [1, 2, 77, 3] = .ok [1, 2, 2, 3] := by rfl

end Verif.Deriv
