import Verif.Ranges.LemmasCond
/-
Properties C18, C19, C20: iteration conditions, if/else chains and the algebra of iteration ranges.
-/
namespace Verif.Ranges

/-! ## C20: range algebra -/

/-- Combining two ordered range lists covers exactly the union. -/
theorem combineOverlap_covers (a b : List (Nat × Nat)) (ha : OrderedRanges a)
    (hb : OrderedRanges b) (i : Nat) :
    Covers (combineOverlap a b) i ↔ Covers a i ∨ Covers b i := by
  by_cases hna : a = []
  · subst hna; simp [combineOverlap, covers_nil]
  · by_cases hnb : b = []
    · subst hnb; simp [combineOverlap, hna, covers_nil]
    · obtain ⟨t, ts, h1, h2, h3, h4⟩ := combineOverlap_of_ne a b ha hb hna hnb
      rw [h1, mergeLoop_covers i ts t h3 h4, ← h2]
      simp only [Covers, mem_insertAll]
      constructor
      · rintro ⟨r, h | h, h'⟩
        · exact Or.inl ⟨r, h, h'⟩
        · exact Or.inr ⟨r, h, h'⟩
      · rintro (⟨r, h, h'⟩ | ⟨r, h, h'⟩)
        · exact ⟨r, Or.inl h, h'⟩
        · exact ⟨r, Or.inr h, h'⟩

example : OrderedRanges [(0, 2), (5, 9)] ∧ OrderedRanges [(1, 3), (4, 4), (20, sizeMax)] ∧
    combineOverlap [(0, 2), (5, 9)] [(1, 3), (4, 4), (20, sizeMax)] = [(0, 9), (20, sizeMax)] := by
  refine ⟨?_, ?_, by decide⟩ <;> simp [OrderedRanges, sizeMax]

/-- When both lists have ranges, the combination is fully merged: ordered, and no two of its ranges
overlap or touch. -/
theorem combineOverlap_separated (a b : List (Nat × Nat)) (ha : OrderedRanges a)
    (hb : OrderedRanges b) (hna : a ≠ []) (hnb : b ≠ []) :
    SeparatedRanges (combineOverlap a b) := by
  obtain ⟨t, ts, h1, _, h3, h4⟩ := combineOverlap_of_ne a b ha hb hna hnb
  rw [h1]
  exact mergeLoop_separated ts t h3 h4

/-- Inverting covers exactly the complement in the `size_t` values. -/
theorem invert_covers (rs : List (Nat × Nat)) (h : DisjointRanges rs) (i : Nat)
    (hi : i ≤ sizeMax) : Covers (invert rs) i ↔ ¬ Covers rs i := by
  cases rs with
  | nil => simp [invert, covers_cons, covers_nil, hi]
  | cons r rs =>
    obtain ⟨hp, hv⟩ := h
    rw [List.pairwise_cons] at hp
    have hvr := hv r (by simp)
    unfold invert
    rw [covers_append, invertGo_covers i hi rs r.2 hvr.2 hp.1
      ⟨hp.2, fun s hs => hv s (List.mem_cons_of_mem _ hs)⟩, covers_cons]
    have hafter : Covers rs i → r.2 < i := by
      rintro ⟨s, hs, h1, h2⟩
      have := hp.1 s hs
      omega
    have hfirst : Covers (if r.1 ≠ 0 then [(0, r.1 - 1)] else []) i ↔ i < r.1 := by
      split
      · rw [covers_cons]; simp only [covers_nil, or_false]; omega
      · simp only [covers_nil, false_iff]; omega
    rw [hfirst]
    constructor
    · rintro (h | h)
      · rintro (h' | h')
        · omega
        · have := hafter h'; omega
      · rintro (h' | h')
        · omega
        · exact h.2 h'
    · intro h2
      by_cases hc : i < r.1
      · left; exact hc
      · right
        refine ⟨?_, fun h => h2 (Or.inr h)⟩
        apply Classical.byContradiction
        intro h3
        exact h2 (Or.inl ⟨by omega, by omega⟩)

example : DisjointRanges [(2, 3), (5, 5), (9, sizeMax)] ∧
    invert [(2, 3), (5, 5), (9, sizeMax)] = [(0, 1), (4, 4), (6, 8)] := by
  refine ⟨by simp [DisjointRanges, sizeMax], by decide⟩

/-- Inverting twice gives back the same set of iterations whenever the first inversion produced only
non-empty ranges (i.e. the input had no touching ranges). -/
theorem invert_invert_covers (rs : List (Nat × Nat)) (h : DisjointRanges rs)
    (h' : DisjointRanges (invert rs)) (i : Nat) (hi : i ≤ sizeMax) :
    Covers (invert (invert rs)) i ↔ Covers rs i := by
  rw [invert_covers _ h' i hi, invert_covers _ h i hi, Classical.not_not]

example : DisjointRanges (invert [(2, 3), (5, 5), (9, sizeMax)]) := by
  have : invert [(2, 3), (5, 5), (9, sizeMax)] = [(0, 1), (4, 4), (6, 8)] := by decide
  rw [this]; simp [DisjointRanges, sizeMax]

theorem foldl_combine (cs : List (List (Nat × Nat))) : ∀ acc : List (Nat × Nat),
    DisjointRanges acc → (∀ c ∈ cs, DisjointRanges c) →
    DisjointRanges (cs.foldl combineOverlap acc) ∧
    ∀ i, Covers (cs.foldl combineOverlap acc) i ↔ Covers acc i ∨ ∃ c ∈ cs, Covers c i := by
  induction cs with
  | nil => intro acc h _; exact ⟨h, by simp⟩
  | cons c cs ih =>
    intro acc h hc
    have hcd := hc c (by simp)
    have hd : DisjointRanges (combineOverlap acc c) := by
      by_cases h1 : acc = []
      · subst h1; simpa [combineOverlap] using hcd
      · by_cases h2 : c = []
        · subst h2; simpa [combineOverlap, h1] using h
        · exact (combineOverlap_separated acc c h.ordered hcd.ordered h1 h2).disjoint
    have := ih _ hd (fun x hx => hc x (List.mem_cons_of_mem _ hx))
    simp only [List.foldl_cons]
    refine ⟨this.1, fun i => ?_⟩
    rw [this.2, combineOverlap_covers acc c h.ordered hcd.ordered]
    simp [or_assoc]

/-- The ranges reported for an `else` branch contain every iteration in which the branch can run:
those rejected by the `if` and by every `else if` condition.
Partial: the reported ranges may contain more, see `elseRanges_exact_counterexample`. -/
theorem elseRanges_sound_partial (start : List (Nat × Nat)) (elseIfs : List (List (Nat × Nat)))
    (hs : DisjointRanges start) (he : ∀ c ∈ elseIfs, DisjointRanges c) (i : Nat) (hi : i ≤ sizeMax)
    (h1 : ¬ Covers start i) (h2 : ∀ c ∈ elseIfs, ¬ Covers c i) :
    Covers (elseRanges start elseIfs) i := by
  unfold elseRanges
  cases elseIfs with
  | nil =>
    simp only
    rw [combineOverlap, if_pos rfl, invert_covers _ hs i hi]
    exact h1
  | cons c cs =>
    simp only
    have := foldl_combine (c :: cs) [] (by simp [DisjointRanges]) he
    rw [invert_covers _ this.1 i hi, this.2]
    rintro (h | ⟨d, hd, h⟩)
    · exact covers_nil i h
    · exact h2 d hd h

/-- with a single `if`, the ranges of the `else` branch are exact -/
theorem elseRanges_exact_single (start : List (Nat × Nat)) (hs : DisjointRanges start) (i : Nat)
    (hi : i ≤ sizeMax) : Covers (elseRanges start []) i ↔ ¬ Covers start i := by
  simp only [elseRanges]
  rw [combineOverlap, if_pos rfl, invert_covers _ hs i hi]

/-- The code is not exact: with an `else if`, iterations of the first `if` are reported as `else`
iterations. -/
theorem elseRanges_exact_counterexample :
    ∃ (start : List (Nat × Nat)) (elseIfs : List (List (Nat × Nat))) (i : Nat),
      DisjointRanges start ∧ (∀ c ∈ elseIfs, DisjointRanges c) ∧ i ≤ sizeMax ∧
      Covers start i ∧ Covers (elseRanges start elseIfs) i := by
  refine ⟨[(0, 2)], [[(3, 5)]], 1, ?_, ?_, ?_, ?_, ?_⟩
  · simp [DisjointRanges, sizeMax]
  · simp [DisjointRanges, sizeMax]
  · simp [sizeMax]
  · simp [Covers]
  · have : elseRanges [(0, 2)] [[(3, 5)]] = [(0, 2), (6, sizeMax)] := by decide
    rw [this]; simp [Covers]

/-- `combineNonOverlapingIterationRanges` loses a region made of a single iteration that does not
touch the existing regions (the function has no caller in the library). -/
theorem combineNonOverlap_counterexample :
    combineNonOverlap [0, 1, 7, 8] [4, 4] = [0, 1, 7, 8] := by decide

/-! ## C18: the printed condition of one branch -/

/-- The condition printed for a branch is true on each of its iterations, and false on every other
iteration which an earlier branch of the chain has not taken already. -/
theorem condition_selects (its used : List Nat) (maxIter : Nat) (hmax : maxIter ≤ sizeMax)
    (hits : ∀ i ∈ its, i ≤ maxIter) (hused : ∀ i ∈ used, i ≤ maxIter) (hne : its ≠ [])
    (j : Nat) (hj : j ≤ maxIter) :
    ∃ e, printCond (createIndexCondition its used maxIter) = some e ∧
      (j ∈ its → e.eval j = true) ∧ (j ∉ its → j ∉ used → e.eval j = false) :=
  createIndexCondition_spec its used maxIter hmax hits hused hne j hj

/-- with nothing taken before, the printed condition is exactly membership -/
theorem condition_exact (its : List Nat) (maxIter : Nat) (hmax : maxIter ≤ sizeMax)
    (hits : ∀ i ∈ its, i ≤ maxIter) (hne : its ≠ []) (j : Nat) (hj : j ≤ maxIter) :
    ∃ e, printCond (createIndexCondition its [] maxIter) = some e ∧ (e.eval j = true ↔ j ∈ its) := by
  obtain ⟨e, he, h1, h2⟩ := condition_selects its [] maxIter hmax hits (by simp) hne j hj
  refine ⟨e, he, ?_, h1⟩
  intro h
  apply Classical.byContradiction
  intro hn
  rw [h2 hn (by simp)] at h
  exact absurd h (by simp)

example : createIndexCondition [1, 2, 5, 9] [0, 3] 9 = [(0, 2), (5, 5), (9, 9)] := by
  simp [createIndexCondition, allIters, mapSet, condScan, runGo, runStart, runInfo]
example : createIndexCondition [4, 6, 8] [5, 7] 8 = [(4, sizeMax)] := by
  simp [createIndexCondition, allIters, mapSet, condScan, runGo, runStart, runInfo]

/-- An empty iteration set has no condition at all (the asserted precondition of the printer). -/
theorem condition_empty (maxIter : Nat) : printCond (createIndexCondition [] [] maxIter) = none := by
  simp [createIndexCondition, allIters, condScan, printCond]

/-! ## C19: the generated if / else if / else chain -/

/-- For every iteration of the loop the chain runs exactly the branch whose iteration set contains it
(all branches have disjoint non-empty sets), and runs nothing when no set contains it. -/
theorem chain_runs_own_branch (maxIter : Nat) (hmax : maxIter ≤ sizeMax) (L : List Nat)
    (hLm : ∀ i ∈ L, i ≤ maxIter) (groups : List (List Nat)) (chain : List Branch)
    (hb : buildChain maxIter L.length true [] groups = some chain)
    (hnd : groups.flatten.Nodup) (hne : ∀ g ∈ groups, g ≠ []) (hsub : ∀ g ∈ groups, ∀ i ∈ g, i ∈ L)
    (j : Nat) (hj : j ∈ L) :
    (∀ p g, groups[p]? = some g → j ∈ g → runChain j chain = some p) ∧
    ((∀ g ∈ groups, j ∉ g) → runChain j chain = none) :=
  runChain_spec maxIter L.length hmax L rfl hLm j hj groups true [] chain hb (by simpa using hnd) hne
    (by
      intro i hi
      simp only [List.nil_append, List.mem_flatten] at hi
      obtain ⟨g, hg, hi⟩ := hi
      exact hsub g hg i hi) (by simp)

example : (buildChain 5 6 true [] [[1, 2], [0, 5], [3, 4]]).map
    (fun c => (List.range 6).map (runChain · c)) =
    some [some 1, some 0, some 0, some 2, some 2, some 1] := by
  simp [buildChain, createIndexCondition, allIters, mapSet, condScan, runGo, runStart, runInfo,
    setInsert, List.range, List.range.loop, runChain, printCond, rangeCond, CCond.eval, sizeMax]

/-- Building the chain fails (null dereference) only if the first branch alone takes every local
iteration. -/
theorem chain_defined_iff (maxIter nLocal : Nat) (groups : List (List Nat)) :
    buildChain maxIter nLocal true [] groups = none ↔
      ∃ g rest, groups = g :: rest ∧ g.length = nLocal := by
  cases groups with
  | nil => simp [buildChain]
  | cons g rest =>
    unfold buildChain
    simp only [List.length_nil, Nat.zero_add, if_true]
    split
    · rename_i h; simp [h]
    · rename_i h
      obtain ⟨c, hc⟩ := buildChain_some maxIter nLocal rest (g.foldl setInsert [])
      simp [hc, h]

/-- The failing case exists: one branch covering the whole loop. -/
theorem chain_single_branch_counterexample : buildChain 1 2 true [] [[0, 1]] = none := by
  simp [buildChain]

end Verif.Ranges
