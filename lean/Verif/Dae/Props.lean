import Verif.Dae.LemmasHall
/-
C28: augmenting the assignment of equations to variables.
-/
namespace Verif.Dae

/-- nothing is marked -/
def Uncolored (g : BG) : Prop := (∀ j, (g.v j).colored = false) ∧ ∀ k, (g.e k).colored = false

/-- the assignment of the equations -/
def assignment (g : BG) (k : Nat) : Option Nat := (g.e k).assign

/-- An attempt with the default strategy to assign the unassigned equation `i`, in a graph in which
equations and variables agree about the assignment: it ends (the recursion is never deeper than the number
of equations), changes nothing but assignments and marks, and
* if it succeeds, equations and variables agree, the assigned equations are those assigned before and `i`,
  no variable became unassigned, and the assignment is still one-to-one along incidences,
* if it fails, the assignment is unchanged, `i` is marked, the marked equations are those reached by
  alternating paths from `i`, they are all assigned except for `i`, and they contain fewer variables than
  there are marked equations. All of these variables are marked. -/
theorem augmentPath_correct {g : BG} (hm : Mut g) (hc : Uncolored g) {i : Nat} (hi : i < g.ne) (hun : assignment g i = none)
    {fuel : Nat} (hf : g.ne ≤ fuel) :
    ∃ b g', augmentPath fuel i g = .ok (b, g') ∧ Same g g' ∧
      (b = true → Mut g' ∧ (∀ k, assignment g' k ≠ none ↔ assignment g k ≠ none ∨ k = i) ∧
        (∀ j, (g.v j).assign ≠ none → (g'.v j).assign ≠ none) ∧
        ∀ inc, (∀ k j, j ∈ (g.e k).vars → j ∈ inc k) → IsMatching inc (assignment g) → IsMatching inc (assignment g')) ∧
      (b = false → (∀ j, (g'.v j).assign = (g.v j).assign) ∧ (∀ k, assignment g' k = assignment g k) ∧
        ∃ E : Finset Nat, (∀ k, k ∈ E ↔ (g'.e k).colored = true) ∧ i ∈ E ∧ (∀ k ∈ E, k ≠ i → assignment g k ≠ none) ∧
          (∀ k, k ∈ E ↔ Alternating (fun k => (g.e k).vars) (assignment g) i k) ∧
          (∀ k ∈ E, ∀ j ∈ (g.e k).vars, (g'.v j).colored = true) ∧
          (∀ j, (g'.v j).colored = true → ∃ k ∈ E, assignment g k = some j) ∧
          Singular (fun k => (g.e k).vars) E) := by
  have hd : Does (fun _ => true) true (augmentPath fuel) fuel := by
    have : augmentPath fuel = augG pick1 (fun _ => true) true fuel := by funext i g; exact augmentPath_eq fuel i g
    rw [this]; exact augG_does static_true pick1_ok fuel
  have hinc : incOf (fun _ => true) g = fun k => (g.e k).vars := by
    funext k; unfold incOf; simp
  rcases search_result hd hm hc.1 hc.2 hi hun hf with ⟨g', e, F, hm'⟩ | ⟨g', e, F, h1, h2, h3, h4⟩
  · refine ⟨true, g', e, F.same, fun _ => ⟨hm', ?_, F.keepV, ?_⟩, fun h => by cases h⟩
    · intro k
      refine ⟨F.fresh k, fun h => ?_⟩
      rcases h with h | rfl
      · exact F.keep k h
      · obtain ⟨j, hj, _⟩ := F.self
        unfold assignment; rw [hj]; simp
    · intro inc hi' ⟨a, _⟩
      refine ⟨fun k j h => ?_, fun k k' j h h' => ?_⟩
      · rcases F.inc k j h with h | ⟨h, _⟩
        · exact a k j h
        · exact hi' k j h
      · have := (hm'.iff k j).mp h
        have h' := (hm'.iff k' j).mp h'
        rw [this] at h'
        exact Option.some.inj h'
  · refine ⟨false, g', e, F.same, (fun h => by cases h), fun _ => ⟨F.av, F.ae, coloredE g', ?_⟩⟩
    have hmem : ∀ k, k ∈ coloredE g' ↔ (g'.e k).colored = true := by
      intro k
      unfold coloredE
      rw [Finset.mem_filter, Finset.mem_range, F.same.ne]
      exact ⟨fun h => h.2, fun h => ⟨h2 k h, h⟩⟩
    rw [hinc] at h3 h4
    have hclosed : ∀ k, Alternating (fun k => (g.e k).vars) (assignment g) i k → k ∈ coloredE g' := by
      intro k h
      induction h with
      | start => exact h1
      | step _ hj ha ih =>
        obtain ⟨_, k', b1, b2⟩ := F.done _ ((hmem _).mp ih) (hc.2 _) _ hj rfl
        have := (hm.iff _ _).mp ha
        rw [b1] at this
        cases this
        exact (hmem _).mpr b2
    refine ⟨hmem, h1, ?_, fun k => ⟨fun h => h3 k ((hmem k).mp h), hclosed k⟩, ?_, ?_, h4⟩
    · intro k hk hki
      cases h3 k ((hmem k).mp hk) with
      | start => exact absurd rfl hki
      | step _ _ ha => intro h; unfold assignment at h; rw [ha] at h; cases h
    · intro k hk j hj
      exact (F.done k ((hmem k).mp hk) (hc.2 k) j hj rfl).1 rfl
    · intro j hj
      obtain ⟨k, b1, b2⟩ := F.inv j hj rfl
      exact ⟨k, (hmem k).mpr b2, (hm.iff k j).mpr b1⟩

/-- the attempt succeeds exactly when there is an assignment of all assigned equations and `i` -/
theorem augmentPath_iff {g : BG} (hm : Mut g) (hc : Uncolored g) (ha : IsMatching (fun k => (g.e k).vars) (assignment g))
    {i : Nat} (hi : i < g.ne) (hun : assignment g i = none) {fuel : Nat} (hf : g.ne ≤ fuel) :
    (∃ g', augmentPath fuel i g = .ok (true, g')) ↔
      ∃ a, IsMatching (fun k => (g.e k).vars) a ∧ Covers a {k | assignment g k ≠ none ∨ k = i} := by
  obtain ⟨b, g', e, _, h1, h2⟩ := augmentPath_correct hm hc hi hun hf
  constructor
  · rintro ⟨g2, e2⟩
    rw [e] at e2
    cases e2
    obtain ⟨_, a1, _, a3⟩ := h1 rfl
    exact ⟨assignment g', a3 _ (fun _ _ h => h) ha, fun k hk => (a1 k).mpr hk⟩
  · rintro ⟨a, hma, hca⟩
    cases b with
    | true => exact ⟨g', e⟩
    | false =>
      obtain ⟨_, _, E, _, _, b3, _, _, _, b5⟩ := h2 rfl
      refine absurd b5 (not_singular hma fun k hk => hca k ?_)
      by_cases hki : k = i
      · exact .inr hki
      · exact .inl (b3 k hk hki)

/-- the variables considered by the second strategy: highest derivatives which are not algebraic -/
def highest (g : BG) (k : Nat) : List Nat :=
  (g.e k).vars.filter fun j => (g.v j).deriv.isNone && (g.v j).anti.isSome

/-- The same for the strategy which considers only highest derivatives; the assignment may contain other
variables, then the equations assigned to them remain so or get highest derivatives. Variables are not
marked. -/
theorem augmentPathA_correct {g : BG} (hm : Mut g) (hc : Uncolored g) {i : Nat} (hi : i < g.ne) (hun : assignment g i = none)
    {fuel : Nat} (hf : g.ne ≤ fuel) :
    ∃ b g', augmentPathA fuel i g = .ok (b, g') ∧ Same g g' ∧
      (b = true → Mut g' ∧ (∀ k, assignment g' k ≠ none ↔ assignment g k ≠ none ∨ k = i) ∧
        (∀ j, (g.v j).assign ≠ none → (g'.v j).assign ≠ none) ∧
        (∀ k, assignment g' k = assignment g k ∨ ∃ j ∈ highest g k, assignment g' k = some j) ∧
        ∀ inc, (∀ k j, j ∈ highest g k → j ∈ inc k) → IsMatching inc (assignment g) → IsMatching inc (assignment g')) ∧
      (b = false → (∀ j, (g'.v j).assign = (g.v j).assign) ∧ (∀ k, assignment g' k = assignment g k) ∧
        ∃ E : Finset Nat, (∀ k, k ∈ E ↔ (g'.e k).colored = true) ∧ i ∈ E ∧ (∀ k ∈ E, k ≠ i → assignment g k ≠ none) ∧
          (∀ k, k ∈ E ↔ Alternating (highest g) (assignment g) i k) ∧ Singular (highest g) E) := by
  have hd : Does consA false (augmentPathA fuel) fuel := by
    have : augmentPathA fuel = augG pickA consA false fuel := by funext i g; exact augmentPathA_eq fuel i g
    rw [this]; exact augG_does static_consA pickA_ok fuel
  have hinc : incOf consA g = highest g := rfl
  rcases search_result hd hm hc.1 hc.2 hi hun hf with ⟨g', e, F, hm'⟩ | ⟨g', e, F, h1, h2, h3, h4⟩
  · refine ⟨true, g', e, F.same, fun _ => ⟨hm', ?_, F.keepV, ?_, ?_⟩, fun h => by cases h⟩
    · intro k
      refine ⟨F.fresh k, fun h => ?_⟩
      rcases h with h | rfl
      · exact F.keep k h
      · obtain ⟨j, hj, _⟩ := F.self
        unfold assignment; rw [hj]; simp
    · intro k
      cases hk : assignment g' k with
      | none =>
        left
        by_contra hne
        exact F.keep k (fun h => hne (by unfold assignment; rw [h])) hk
      | some j =>
        rcases F.inc k j hk with h | ⟨h, h'⟩
        · left; exact h.symm
        · right; exact ⟨j, List.mem_filter.mpr ⟨h, h'⟩, rfl⟩
    · intro inc hi' ⟨a, _⟩
      refine ⟨fun k j h => ?_, fun k k' j h h' => ?_⟩
      · rcases F.inc k j h with h | h
        · exact a k j h
        · exact hi' k j (List.mem_filter.mpr h)
      · have := (hm'.iff k j).mp h
        have h' := (hm'.iff k' j).mp h'
        rw [this] at h'
        exact Option.some.inj h'
  · refine ⟨false, g', e, F.same, (fun h => by cases h), fun _ => ⟨F.av, F.ae, coloredE g', ?_⟩⟩
    have hmem : ∀ k, k ∈ coloredE g' ↔ (g'.e k).colored = true := by
      intro k
      unfold coloredE
      rw [Finset.mem_filter, Finset.mem_range, F.same.ne]
      exact ⟨fun h => h.2, fun h => ⟨h2 k h, h⟩⟩
    rw [hinc] at h3 h4
    have hclosed : ∀ k, Alternating (highest g) (assignment g) i k → k ∈ coloredE g' := by
      intro k h
      induction h with
      | start => exact h1
      | step _ hj ha ih =>
        obtain ⟨hj1, hj2⟩ := List.mem_filter.mp hj
        obtain ⟨_, k', b1, b2⟩ := F.done _ ((hmem _).mp ih) (hc.2 _) _ hj1 hj2
        have := (hm.iff _ _).mp ha
        rw [b1] at this
        cases this
        exact (hmem _).mpr b2
    refine ⟨hmem, h1, ?_, fun k => ⟨fun h => h3 k ((hmem k).mp h), hclosed k⟩, h4⟩
    intro k hk hki
    cases h3 k ((hmem k).mp hk) with
    | start => exact absurd rfl hki
    | step _ _ ha => intro h; unfold assignment at h; rw [ha] at h; cases h

/-- it succeeds exactly when there is an assignment to highest derivatives, if the current one is such -/
theorem augmentPathA_iff {g : BG} (hm : Mut g) (hc : Uncolored g) (ha : IsMatching (highest g) (assignment g))
    {i : Nat} (hi : i < g.ne) (hun : assignment g i = none) {fuel : Nat} (hf : g.ne ≤ fuel) :
    (∃ g', augmentPathA fuel i g = .ok (true, g')) ↔
      ∃ a, IsMatching (highest g) a ∧ Covers a {k | assignment g k ≠ none ∨ k = i} := by
  obtain ⟨b, g', e, _, h1, h2⟩ := augmentPathA_correct hm hc hi hun hf
  constructor
  · rintro ⟨g2, e2⟩
    rw [e] at e2
    cases e2
    obtain ⟨_, a1, _, _, a3⟩ := h1 rfl
    exact ⟨assignment g', a3 _ (fun _ _ h => h) ha, fun k hk => (a1 k).mpr hk⟩
  · rintro ⟨a, hma, hca⟩
    cases b with
    | true => exact ⟨g', e⟩
    | false =>
      obtain ⟨_, _, E, _, _, b3, _, b5⟩ := h2 rfl
      refine absurd b5 (not_singular hma fun k hk => hca k ?_)
      by_cases hki : k = i
      · exact .inr hki
      · exact .inl (b3 k hk hki)

/-! ### cases -/

/-- equations `0: {0, 1}`, `1: {0}`, `2: {1}`; `0` assigned to `0`, variables are derivatives -/
def ex3 : BG where
  v j := if j = 0 then { eqs := [0, 1], assign := some 0, anti := some 5 } else if j = 1 then { eqs := [0, 2], anti := some 6 } else {}
  nv := 7
  e i := if i = 0 then { orig := [0, 1], vars := [0, 1], assign := some 0 } else if i = 1 then { orig := [0], vars := [0] }
    else if i = 2 then { orig := [1], vars := [1] } else {}
  ne := 3

theorem ex3_mut : Mut ex3 := by
  constructor
  · intro k j
    simp only [ex3]
    by_cases h0 : k = 0
    · subst h0
      by_cases hj : j = 0
      · subst hj; simp
      · have : (some 0 : Option Nat) ≠ some j := by simpa using Ne.symm hj
        by_cases hj1 : j = 1
        · subst hj1; simp
        · simp [hj, hj1, Ne.symm hj]
    · by_cases hj : j = 0
      · subst hj
        have := Ne.symm h0
        by_cases h1 : k = 1
        · subst h1; simp
        · by_cases h2 : k = 2
          · subst h2; simp
          · simp [h0, h1, h2, this]
      · by_cases h1 : k = 1
        · subst h1; by_cases hj1 : j = 1 <;> simp [hj, hj1]
        · by_cases h2 : k = 2
          · subst h2; by_cases hj1 : j = 1 <;> simp [hj, hj1]
          · by_cases hj1 : j = 1 <;> simp [h0, h1, h2, hj, hj1]
  · intro j k
    simp only [ex3]
    by_cases hj : j = 0
    · simp [hj]; omega
    · by_cases hj1 : j = 1 <;> simp [hj, hj1]

theorem ex3_uncolored : Uncolored ex3 := by
  constructor
  · intro j; simp only [ex3]; split
    · rfl
    · split <;> rfl
  · intro k; simp only [ex3]; split
    · rfl
    · split
      · rfl
      · split <;> rfl

/-- the equation 1 takes the variable of equation 0, which takes another one -/
example : (augmentPath 3 1 ex3).map (fun r => (r.1, r.2.e 0 |>.assign, r.2.e 1 |>.assign)) = .ok (true, some 1, some 0) := by
  decide

/-- afterwards equation 2 cannot be assigned -/
example : (augmentPath 3 1 ex3 >>= fun r => augmentPath 3 2 r.2.uncolorAll).map
    (fun r => (r.1, (List.range 3).map fun k => (r.2.e k).colored)) = .ok (false, [true, true, true]) := by
  decide

example : (augmentPathA 3 1 ex3).map (fun r => (r.1, r.2.e 0 |>.assign, r.2.e 1 |>.assign)) = .ok (true, some 1, some 0) := by
  decide

end Verif.Dae
