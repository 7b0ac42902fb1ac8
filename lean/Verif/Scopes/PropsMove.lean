import Verif.Scopes.LemmasMove

/-
C62: values which do not depend on the index of a loop are computed before the loop (`moveNonIndexedOutsideLoop`).
-/
namespace Verif.Scopes.Move

/-- The search ends and accesses nothing which does not exist. -/
theorem locate_ends {nd : Nat → Node} {N ix : Nat} {ends : List Nat} (hg : Graph nd N) (hix : ix < N) (hik : (nd ix).kind = .index)
    (he : ∀ n ∈ ends, n < N) : ∃ fuel, ∀ f ≥ fuel, ∃ st, locate f ix nd N ends = .ok st := by
  obtain ⟨R, hR⟩ := hg.acyclic
  obtain ⟨fuel, hf⟩ := rank_bound R N
  refine ⟨fuel, fun f hle => ?_⟩
  obtain ⟨st, h1, _⟩ := findEnds_ok (ends := ends) hg hix hik hR (f := f) (fun n hn => by have := hf n hn; omega) ends _ (fun n hn => ⟨he n hn, hn⟩)
    (inv_init hg.closed)
  exact ⟨st, h1⟩

section
variable {nd : Nat → Node} {N ix : Nat} {ends : List Nat} (hg : Graph nd N) (hix : ix < N) (hik : (nd ix).kind = .index)
  (he : ∀ n ∈ ends, n < N) {f : Nat} {st : St} (h : locate f ix nd N ends = .ok st)
include hg hix hik he h

/-- What is computed before the loop does not depend on its index. -/
theorem moved_constant : ∀ m ∈ st.moved, ¬ Depends st.nd ix m := by
  intro m hm
  exact (locate_inv hg hix hik he h).1.moved_dep hm hix hg.closed

/-- What is computed before the loop is used in the loop: it is the value of a node of the loop. -/
theorem moved_used : ∀ m ∈ st.moved, ∃ x, InLoop nd ends x ∧ ¬ Depends nd ix x ∧ Same st.nd (some x) (some m) := by
  intro m hm
  have hi := (locate_inv hg hix hik he h).1
  obtain ⟨h1, h2⟩ := hi.moved m hm
  by_cases hN : m < N
  · have h3 := (h2 hN).1
    exact ⟨m, hi.loop m (by omega), (hi.one (n := m) (by omega)).1 h3, .refl⟩
  · obtain ⟨_, x, t, h3, _, _, h4⟩ := hi.new m (by omega) h1
    exact ⟨x, hi.loop x (by omega), (hi.one (n := x) (by omega)).1 h3, h4.same⟩

/-- All values without dependence on the index which are used in the loop by operations which depend on it, other than elements of arrays and
calls of atomic functions, are computed before the loop. -/
theorem constants_moved : ∀ u, InLoop st.nd ends u → Depends st.nd ix u → (st.nd u).kind ≠ .array →
    ∀ a, some a ∈ (st.nd u).args → ¬ Depends st.nd ix a → Ready st.nd st.moved a := by
  intro u hu hd hk a ha hna
  obtain ⟨hi, hm⟩ := locate_inv hg hix hik he h
  have hsz := hi.size
  obtain ⟨h1, h2⟩ := hi.inLoop (fun n hn => ⟨by have := he n hn; omega, fun _ => hm n hn⟩) hu
  by_cases hN : u < N
  · have h3 := h2 hN
    have h4 := (hi.dep u h3).2 ((hi.depends_old hN hix hg.closed).1 hd)
    rw [hi.same u hN (by omega)] at ha
    have haN := hg.closed u hN a ha
    refine hi.done u h4 (by simp) (by rw [← hi.kind u hN]; exact hk) a ha ?_
    exact (hi.one (hi.margs u h3 a ha)).2 fun h5 => hna ((hi.depends_old haN hix hg.closed).2 h5)
  · exact absurd hd (hi.depends_new (by omega) h1 hix)

/-- All operations compute the same values as before. -/
theorem values_same : ∀ n < N, SameNode nd st.nd n := by
  intro n hn
  have hi := (locate_inv hg hix hik he h).1
  exact ⟨hi.kind n hn, (hi.args n hn).imp fun _ _ => W.same⟩

/-- Whatever the operations compute: values which are right for the graph afterwards, in which assignments copy values, are right for the graph
before. -/
theorem values_right {V : Type} (compute : Nat → List (Option V) → V) (val : Nat → V)
    (hval : ∀ n < N, val n = compute n ((st.nd n).args.map (Option.map val)))
    (hassign : ∀ k, N ≤ k → k < st.size → ∀ z, st.nd k = ⟨.assign, [some z]⟩ → val k = val z) :
    ∀ n < N, val n = compute n ((nd n).args.map (Option.map val)) := by
  intro n hn
  rw [hval n hn, (locate_inv hg hix hik he h).1.values hassign hn]

/-- New nodes are assignments. -/
theorem new_assigned : ∀ k, N ≤ k → k < st.size → (∃ z, st.nd k = ⟨.assign, [some z]⟩) := by
  intro k h1 h2
  have hi := (locate_inv hg hix hik he h).1
  obtain ⟨⟨z, hz⟩, x, t, _, _, _, h6⟩ := hi.new k h1 h2
  cases h6 with
  | node _ => omega
  | assign _ _ h7 h8 =>
    rw [hz] at h7
    cases h7
    cases z with
    | some z => exact ⟨z, hz⟩
    | none => cases h8

/-- Dependence on the index is as before. -/
theorem depends_same : ∀ n < N, (Depends st.nd ix n ↔ Depends nd ix n) := by
  intro n hn
  exact (locate_inv hg hix hik he h).1.depends_old hn hix hg.closed

/-- No assignment to a temporary, independent or declaration is itself moved. -/
theorem moved_kinds : ∀ m ∈ st.moved, (st.nd m).kind ≠ .indexedTmp ∧ (st.nd m).kind ≠ .inv ∧ (st.nd m).kind ≠ .tmpDcl := by
  intro m hm
  have hi := (locate_inv hg hix hik he h).1
  obtain ⟨h1, h2⟩ := hi.moved m hm
  by_cases hN : m < N
  · rw [hi.kind m hN]
    obtain ⟨_, h3, h4, h5⟩ := h2 hN
    exact ⟨h5, h3, h4⟩
  · obtain ⟨⟨z, hz⟩, _⟩ := hi.new m (by omega) h1
    simp [hz]

/-- No assignment to a temporary takes part in what is computed before the loop, when these are only used by operations which depend on the
index. -/
theorem tmp_in_loop (ht : ∀ u < N, ∀ t, some t ∈ (nd u).args → (nd t).kind = .indexedTmp → Depends nd ix u) :
    ∀ m ∈ st.moved, ∀ x, InLoop st.nd [m] x → (st.nd x).kind ≠ .indexedTmp := by
  intro m hm x hx
  obtain ⟨hi, _⟩ := locate_inv hg hix hik he h
  have hsz := hi.size
  have hmd := moved_constant hg hix hik he h m hm
  have hmk := (moved_kinds hg hix hik he h m hm).1
  -- what takes part does not depend on the index
  have key : ∀ x, InLoop st.nd [m] x → ¬ Depends st.nd ix x := by
    intro x hx
    induction hx with
    | last h1 =>
      simp only [List.mem_cons, List.not_mem_nil, or_false] at h1
      rw [h1]
      exact hmd
    | arg _ ha ih => exact fun hd => ih (.arg ha hd)
  have hmem := fun {x} (hx : InLoop st.nd [m] x) => hi.inLoop (l := [m]) (fun n hn => by
    simp only [List.mem_cons, List.not_mem_nil, or_false] at hn
    subst hn
    exact ⟨(hi.moved n hm).1, fun hN => by have := ((hi.moved n hm).2 hN).1; omega⟩) hx
  cases hx with
  | last h1 =>
    simp only [List.mem_cons, List.not_mem_nil, or_false] at h1
    rw [h1]
    exact hmk
  | @arg u _ hu ha =>
    intro hk
    have hxN : x < N := by
      by_cases hN : x < N
      · exact hN
      · obtain ⟨⟨z, hz⟩, _⟩ := hi.new x (by omega) (hmem (.arg hu ha)).1
        simp [hz] at hk
    have hk0 : (nd x).kind = .indexedTmp := by rw [← hi.kind x hxN]; exact hk
    by_cases hN : u < N
    · obtain ⟨y, h1, h2⟩ := hi.origin hN ha
      have hyx : y = x := by
        cases h2 with
        | node _ => rfl
        | assign _ _ _ _ => omega
      subst hyx
      exact key u hu ((hi.depends_old hN hix hg.closed).2 (ht u hN y h1 hk0))
    · obtain ⟨_, y, t, h3, h4, h5, h6⟩ := hi.new u (by omega) (hmem hu).1
      cases h6 with
      | node _ => omega
      | assign _ _ h7 h8 =>
        rw [h7] at ha
        simp only [List.mem_cons, List.not_mem_nil, or_false] at ha
        subst ha
        have hyx : y = x := by
          cases h8 with
          | node _ => rfl
          | assign _ _ _ _ => omega
        subst hyx
        have htN := hi.lt t (by omega)
        exact (hi.one (n := t) (by omega)).1 h4 (ht t htN y h5 hk0)

end

/-! Cases which meet the hypotheses. -/

theorem graph_of_check {nd : Nat → Node} {N : Nat}
    (h : ((List.range N).all fun n => ((nd n).args.all fun x => x.all fun a => decide (a < n)) &&
      (decide ((nd n).kind ≠ .index) || (nd n).args.isEmpty) && (decide ((nd n).kind ≠ .indexedTmp) || decide (2 ≤ (nd n).args.length))) = true) :
    Graph nd N := by
  simp only [List.all_eq_true, List.mem_range, Bool.and_eq_true, Bool.or_eq_true, decide_eq_true_eq, List.isEmpty_iff] at h
  have lt : ∀ n < N, ∀ a, some a ∈ (nd n).args → a < n := fun n hn a ha => by simpa using (h n hn).1.1 _ ha
  exact {
    acyclic := ⟨id, lt⟩
    closed := fun n hn a ha => Nat.lt_trans (lt n hn a ha) hn
    index := fun n hn hk => (h n hn).1.2.resolve_left fun h => h hk
    tmp := fun n hn hk => (h n hn).2.resolve_left fun h => h hk }

theorem locate_result {fuel ix N : Nat} {nd : Nat → Node} {ends : List Nat} (p : St → Bool)
    (h : (match locate fuel ix nd N ends with
      | .ok st => p st
      | .error _ => false) = true) : ∃ st, locate fuel ix nd N ends = .ok st ∧ p st = true := by
  cases e : locate fuel ix nd N ends with
  | error _ => rw [e] at h; cases h
  | ok st => rw [e] at h; exact ⟨st, rfl, h⟩

/-- a loop with index 0; node 2 (`x * x`) is used by node 5, which depends on the index, and is the value of a temporary (7) used twice (8 and 10);
another temporary has a constant value (9); the element of an array (12) uses a value (11) which does not depend on the index -/
def sample : Nat → Node
  | 0 => ⟨.index, []⟩
  | 1 => ⟨.inv, []⟩
  | 2 => ⟨.other, [some 1, some 1]⟩
  | 3 => ⟨.other, [some 0, none]⟩
  | 5 => ⟨.other, [some 2, some 3, some 1]⟩
  | 6 => ⟨.tmpDcl, []⟩
  | 7 => ⟨.indexedTmp, [some 6, some 2]⟩
  | 8 => ⟨.other, [some 3, some 7]⟩
  | 9 => ⟨.indexedTmp, [some 6, none]⟩
  | 10 => ⟨.other, [some 8, some 9, some 7, some 5]⟩
  | 11 => ⟨.other, [some 2]⟩
  | 12 => ⟨.array, [some 10, some 11]⟩
  | _ => ⟨.other, []⟩

/-- node 2 is moved, and so are two assignments of its value to new variables, the second of which is now the value of the temporary; node 11 is
not -/
theorem sample_located : ∃ st, locate 20 0 sample 13 [12] = .ok st ∧ st.size = 15 ∧ st.moved = [13, 2, 14] ∧
    st.nd 7 = ⟨.indexedTmp, [some 6, some 14]⟩ ∧ st.nd 14 = ⟨.assign, [some 13]⟩ ∧ st.nd 13 = ⟨.assign, [some 2]⟩ := by
  obtain ⟨st, h1, h2⟩ := locate_result (fuel := 20) (ix := 0) (N := 13) (nd := sample) (ends := [12])
    (fun st => decide (st.size = 15 ∧ st.moved = [13, 2, 14] ∧ st.nd 7 = ⟨.indexedTmp, [some 6, some 14]⟩ ∧ st.nd 14 = ⟨.assign, [some 13]⟩ ∧
      st.nd 13 = ⟨.assign, [some 2]⟩)) (by decide +kernel)
  exact ⟨st, h1, by simpa using h2⟩

example : Graph sample 13 ∧ 0 < 13 ∧ (sample 0).kind = .index ∧ (∀ n ∈ [12], n < 13) ∧ ∃ st, locate 20 0 sample 13 [12] = .ok st ∧
    InLoop st.nd [12] 12 ∧ st.moved ≠ [] := by
  obtain ⟨st, h1, _, h2, _⟩ := sample_located
  exact ⟨graph_of_check (by decide), by decide, rfl, by decide, st, h1, .last (by simp), by simp [h2]⟩

/-- the temporaries are used by operations which depend on the index -/
example : ∀ u < 13, ∀ t, some t ∈ (sample u).args → (sample t).kind = .indexedTmp → Depends sample 0 u := by
  have h3 : Depends sample 0 3 := .arg (a := 0) (by decide) .index
  have h8 : Depends sample 0 8 := .arg (a := 3) (by decide) h3
  have h10 : Depends sample 0 10 := .arg (a := 8) (by decide) h8
  have key : ∀ u < 13, u = 8 ∨ u = 10 ∨ ((sample u).args.all fun x => x.all fun t => decide ((sample t).kind ≠ .indexedTmp)) = true := by decide
  intro u hu t ht hk
  rcases key u hu with rfl | rfl | h
  · exact h8
  · exact h10
  · simp only [List.all_eq_true] at h
    have := h _ ht
    simp [hk] at this

/-! Limits. -/

/-- values used by elements of arrays and calls of atomic functions are not moved, though they do not depend on the index -/
theorem array_argument_counterexample : ∃ (nd : Nat → Node) (N ix : Nat) (ends : List Nat) (st : St), Graph nd N ∧ locate 20 ix nd N ends = .ok st ∧
    ∃ u a, InLoop st.nd ends u ∧ Depends st.nd ix u ∧ some a ∈ (st.nd u).args ∧ ¬ Depends st.nd ix a ∧ ¬ Ready st.nd st.moved a := by
  have hg : Graph sample 13 := graph_of_check (by decide)
  obtain ⟨st, h1, h2⟩ := locate_result (fuel := 20) (ix := 0) (N := 13) (nd := sample) (ends := [12])
    (fun st => decide (st.moved = [13, 2, 14] ∧ st.nd 12 = sample 12 ∧ st.nd 11 = sample 11)) (by decide +kernel)
  simp only [decide_eq_true_eq] at h2
  obtain ⟨h2, h3, h4⟩ := h2
  have same := fun n hn => depends_same hg (by decide) rfl (by decide) h1 n hn
  refine ⟨sample, 13, 0, [12], st, hg, h1, 12, 11, .last (by simp), ?_, by rw [h3]; decide, ?_, ?_⟩
  · refine (same 12 (by decide)).2 ?_
    exact .arg (a := 10) (by decide) (.arg (a := 8) (by decide) (.arg (a := 3) (by decide) (.arg (a := 0) (by decide) .index)))
  · rw [same 11 (by decide)]
    intro h
    cases h with
    | arg h5 h =>
      simp only [sample, List.mem_cons, List.not_mem_nil, or_false, Option.some.injEq] at h5
      subst h5
      cases h with
      | arg h5 h =>
        simp only [sample, List.mem_cons, List.not_mem_nil, or_false, Option.some.injEq, or_self] at h5
        subst h5
        cases h with
        | arg h5 _ => simp [sample] at h5
  · intro h
    cases h with
    | moved h => simp [h2] at h
    | inv h => rw [h4] at h; cases h
    | tmpDcl h => rw [h4] at h; cases h
    | constant h => rw [h4] at h; cases h
    | value h _ => rw [h4] at h; cases h

/-- a temporary (3) used by an operation (4) which does not depend on the index -/
def constantUser : Nat → Node
  | 0 => ⟨.index, []⟩
  | 1 => ⟨.inv, []⟩
  | 2 => ⟨.tmpDcl, []⟩
  | 3 => ⟨.indexedTmp, [some 2, some 1]⟩
  | 4 => ⟨.other, [some 3]⟩
  | 5 => ⟨.other, [some 0, some 4]⟩
  | _ => ⟨.other, []⟩

/-- without the condition on their users, assignments to temporaries are computed before the loop -/
theorem tmp_moved_counterexample : ∃ (nd : Nat → Node) (N ix : Nat) (ends : List Nat) (st : St), Graph nd N ∧ locate 20 ix nd N ends = .ok st ∧
    ∃ m ∈ st.moved, ∃ x, InLoop st.nd [m] x ∧ (st.nd x).kind = .indexedTmp := by
  obtain ⟨st, h1, h2⟩ := locate_result (fuel := 20) (ix := 0) (N := 6) (nd := constantUser) (ends := [5])
    (fun st => decide (st.moved = [4] ∧ st.nd 4 = constantUser 4 ∧ st.nd 3 = constantUser 3)) (by decide +kernel)
  simp only [decide_eq_true_eq] at h2
  obtain ⟨h2, h3, h4⟩ := h2
  exact ⟨constantUser, 6, 0, [5], st, graph_of_check (by decide), h1, 4, by simp [h2], 3, .arg (n := 4) (.last (by simp)) (by rw [h3]; decide), by rw [h4]; rfl⟩

end Verif.Scopes.Move
