import Verif.Colors.LemmasLoop

/- Theorems about `generateLoopForJacHes`. -/
namespace Verif.Colors

theorem inVector_resize {R : Type} {m : Nat} {jac : List (Nat → Option R)} : inVector (resize m (fun _ => none) jac) = inVector (jac.take m) := by
  funext i j
  unfold inVector
  by_cases hi : i < m
  · rw [resize_get hi, List.getElem?_take_of_lt hi, List.getD_eq_getElem?_getD]
    cases jac[i]? <;> rfl
  · rw [List.getElem?_eq_none (by rw [resize_length]; omega), List.getElem?_eq_none (by simp; omega)]

section
variable {R : Type} [CommSemiring R] {sort : List Nat → List Nat} (hsort : SortsPositions sort) {m n nx : Nat}
  {jacP jacEval hesP hesEval : List (List Nat)} (hj : ToEvaluate m n jacP jacEval) (hh : ToEvaluate n n hesP hesEval)
  {J : Nat → Nat → R} (hcov : Covers m n jacP J) {fwd : List R → List R} (hf : ForwardOne m n J fwd)
  {Hs : List (Nat → Nat → R)} (hcovs : ∀ H ∈ Hs, Covers n n hesP H) {revs : List (List R → List R)} (hrev : List.Forall₂ (ReverseTwo n) Hs revs)
  (jac : List (Nat → Option R)) (vhess : List (Nat → Option (Nat → Option R)))
include hsort hj hh hcov hf hcovs hrev

theorem loop_ok (hn : 0 < n) {individual : Bool} (hx : nx = n ∨ (nx = 0 ∧ n = 1 ∧ individual = false)) :
    ∃ jac' vhess', loopForJacHes sort m n nx fwd revs jacP jacEval jac hesP hesEval vhess individual = some (jac', vhess') ∧ jac'.length = m ∧
      Upd (fun i j => InPattern jacEval i j) J (inVector (jac.take m)) (inVector jac') ∧
      Upds (fun i j => InPattern hesEval i j) Hs (resize revs.length (fun _ => none) vhess) vhess' := by
  have hlen := hrev.length_eq
  have hr1 : (resize m (fun _ => none) jac : List (Nat → Option R)).length = m := resize_length
  have hr2 : (resize revs.length (fun _ => none) vhess : List (Nat → Option (Nat → Option R))).length = Hs.length := resize_length.trans hlen.symm
  have hv1 := indexes_valid hj
  have hv2 := indexes_valid hh
  unfold loopForJacHes
  cases individual with
  | false =>
    obtain ⟨w, jf, hfl, s, e1, e2, e3⟩ := elements_right hsort hv1 hv2 hcov hf hcovs hrev
      (jac0 := List.replicate (Sparsity.indexes jacEval).1.length 0)
      (hes0 := revs.map fun _ => List.replicate (Sparsity.indexes hesEval).1.length 0) (by simp) (by simp [hlen]) (by simp)
    obtain ⟨jac', g1, g2, g3⟩ := saveJac_ok hv1.size e2 (List.range (Sparsity.indexes jacEval).1.length) (resize m (fun _ => none) jac) (by simp)
      (by rw [hr1]; exact hv1.rows)
    obtain ⟨vhess', k1, k2⟩ := saveAll_ok hv2.size e3 hr2
    have hx' : ¬ (if nx = 0 then 1 else nx) ≠ n := by
      rcases hx with rfl | ⟨rfl, rfl, _⟩
      · rw [if_neg (by omega)]
        simp
      · simp
    simp only [if_pos]
    rw [if_neg hx']
    simp only [e1, g1, k1]
    refine ⟨jac', vhess', rfl, g2.trans hr1, ?_, ?_⟩
    · rw [← inVector_resize]
      intro i j
      show (InPattern _ _ _ → _) ∧ (¬ InPattern _ _ _ → _)
      rw [← requested_indexes]
      exact g3 i j
    · have : (fun i j => InPattern hesEval i j) = fun i j => ∃ k ∈ List.range (Sparsity.indexes hesEval).1.length,
          Requested (Sparsity.indexes hesEval).1 (Sparsity.indexes hesEval).2 k i j := by
        funext i j
        rw [requested_indexes]
      rw [this]
      exact k2
  | true =>
    have hd : Sparsity.Dims jacEval jacEval.length (List.replicate n ([] : List Nat)).length := by
      refine ⟨Nat.le_refl _, fun i j _ he => ?_⟩
      simpa using hj.cols i j (hj.inside i j he)
    obtain ⟨jacT, t1, t2, _, t4⟩ := Sparsity.adds_addTrans hd (List.replicate n []) rfl
    have ht : ∀ i j, InPattern jacT j i ↔ InPattern jacEval i j := by
      intro i j
      refine (t4 j i).trans ⟨?_, ?_⟩
      · rintro (⟨s, h1, h2⟩ | ⟨_, h⟩)
        · rw [List.getElem?_replicate] at h1
          split at h1
          · cases h1
            cases h2
          · cases h1
        · exact h
      · intro hp
        obtain ⟨s, h1, _⟩ := id hp
        exact .inr ⟨(List.getElem?_eq_some_iff.1 h1).1, hp⟩
    obtain ⟨jac', vhess', e1, e2, e3, e4⟩ := byVariables_ok hj hh hf hrev ht (by simpa using t2) hr1 hr2 n (Nat.le_refl _)
    have hx' : ¬ nx ≠ n := by
      rcases hx with rfl | ⟨_, _, h⟩
      · simp
      · cases h
    rw [if_neg (by simp)]
    simp only [t1]
    rw [if_neg hx']
    refine ⟨jac', vhess', e1, e2, ?_, ?_⟩
    · rw [← inVector_resize]
      intro i j
      have : (j < n ∧ InPattern jacEval i j) ↔ InPattern jacEval i j := ⟨fun h => h.2, fun h => ⟨hj.cols i j (hj.inside i j h), h⟩⟩
      show (InPattern _ _ _ → _) ∧ (¬ InPattern _ _ _ → _)
      rw [← this]
      exact e3 i j
    · have : (fun i j => InPattern hesEval i j) = fun i j => i < n ∧ InPattern hesEval i j := by
        funext i j
        refine propext ⟨fun h => ⟨?_, h⟩, fun h => h.2⟩
        obtain ⟨s, h1, _⟩ := h
        have := (List.getElem?_eq_some_iff.1 h1).1
        rw [hh.evalSize] at this
        exact this
      rw [this]
      exact e4

/-- all elements to be evaluated have their values in the maps and all others are as before, with and without coloring -/
theorem loop_elements_right (hn : 0 < n) {individual : Bool} (hx : nx = n ∨ (nx = 0 ∧ n = 1 ∧ individual = false)) :
    ∃ jac' vhess', loopForJacHes sort m n nx fwd revs jacP jacEval jac hesP hesEval vhess individual = some (jac', vhess') ∧
      jac'.length = m ∧ Filled jacEval J (inVector (jac.take m)) (inVector jac') ∧ vhess'.length = Hs.length ∧
      ∀ (l : Nat) H M', Hs[l]? = some H → vhess'[l]? = some M' → Filled hesEval H (inMap (vhess.getD l fun _ => none)) (inMap M') := by
  obtain ⟨jac', vhess', e1, e2, e3, e4⟩ := loop_ok hsort hj hh hcov hf hcovs hrev jac vhess hn hx
  refine ⟨jac', vhess', e1, e2, e3, e4.length.2, fun l H M' h1 h2 => ?_⟩
  have hl : l < revs.length := by
    rw [← hrev.length_eq]
    exact (List.getElem?_eq_some_iff.1 h1).1
  obtain ⟨M'', f1, f2⟩ := e4.get l H _ h1 (resize_get hl)
  rw [h2] at f1
  cases f1
  exact f2.values

/-- models with atomic functions, for which no coloring is used, get the same maps -/
theorem coloring_same (hn : 0 < n) :
    loopForJacHes sort m n n fwd revs jacP jacEval jac hesP hesEval vhess true = loopForJacHes sort m n n fwd revs jacP jacEval jac hesP hesEval vhess false := by
  obtain ⟨jac1, vhess1, a1, a2, a3, a4⟩ := loop_ok hsort hj hh hcov hf hcovs hrev jac vhess hn (nx := n) (individual := true) (.inl rfl)
  obtain ⟨jac2, vhess2, b1, b2, b3, b4⟩ := loop_ok hsort hj hh hcov hf hcovs hrev jac vhess hn (nx := n) (individual := false) (.inl rfl)
  rw [a1, b1]
  have h1 : jac1 = jac2 := by
    refine List.ext_getElem (a2.trans b2.symm) fun i hi1 hi2 => ?_
    funext j
    have : inVector jac1 i j = inVector jac2 i j := by
      by_cases h : InPattern jacEval i j
      · rw [(a3 i j).1 h, (b3 i j).1 h]
      · rw [(a3 i j).2 h, (b3 i j).2 h]
    simpa [inVector, hi1, hi2] using this
  have h2 : ∀ {Hs : List (Nat → Nat → R)} {a b c : List (Nat → Option (Nat → Option R))}, Upds (fun i j => InPattern hesEval i j) Hs a b →
      Upds (fun i j => InPattern hesEval i j) Hs a c → b = c := by
    intro Hs a b c h1
    induction h1 generalizing c with
    | nil =>
      intro h
      cases h
      rfl
    | @cons H Hs M M' Ms Ms' h _ ih =>
      intro h2
      cases h2 with
      | @cons _ _ _ M'' _ _ h' t =>
        rw [ih t]
        congr 1
        funext i
        have hv : ∀ j, inMap M' i j = inMap M'' i j := by
          intro j
          by_cases hp : InPattern hesEval i j
          · rw [(h.values i j).1 hp, (h'.values i j).1 hp]
          · rw [(h.values i j).2 hp, (h'.values i j).2 hp]
        have hr := (h.rows i).trans (h'.rows i).symm
        cases hm : M' i with
        | none => cases hm' : M'' i <;> simp_all
        | some r =>
          cases hm' : M'' i with
          | none => simp_all
          | some r' =>
            congr 1
            funext j
            simpa [inMap, hm, hm'] using hv j
  rw [h1, h2 a4 b4]

end

section Cases

theorem part_of {m n : Nat} {p eval : List (List Nat)} (h1 : p.length = m) (h2 : eval.length = m) (h3 : ∀ s ∈ p, ∀ j ∈ s, j < n)
    (h4 : ∀ e ∈ eval.zip p, ∀ j ∈ e.1, j ∈ e.2) : ToEvaluate m n p eval := by
  refine ⟨h1, h2, ?_, ?_⟩
  · rintro i j ⟨s, hs, hj⟩
    exact h3 s (List.mem_of_getElem? hs) j hj
  · rintro i j ⟨s, hs, hj⟩
    have hi := (List.getElem?_eq_some_iff.1 hs).1
    have hi' : i < p.length := by omega
    refine ⟨p[i], List.getElem?_eq_getElem hi', h4 (s, p[i]) (List.mem_of_getElem? (i := i) ?_) j hj⟩
    rw [List.getElem?_zip_eq_some]
    exact ⟨hs, List.getElem?_eq_getElem hi'⟩

theorem jac_evaluated : ToEvaluate 2 3 jacPattern [[2], [1]] := part_of rfl rfl (by decide) (by decide)
theorem hes_evaluated : ToEvaluate 3 3 hesPattern [[0, 2], [], [0]] := part_of rfl rfl (by decide) (by decide)

/-- the hypotheses hold for the sample of `sparseForJacHessian`, with a part of the patterns evaluated and something already in the maps -/
example : ∃ jac' vhess', loopForJacHes sortIdx 2 3 3 (forwardOf 2 3 jacSample) [reverseOf 3 hesSample1, reverseOf 3 hesSample2] jacPattern [[2], [1]]
      [fun j => if j = 0 then some 2 else none] hesPattern [[0, 2], [], [0]] [] true = some (jac', vhess') ∧
    jac'.length = 2 ∧ Filled [[2], [1]] jacSample (inVector ([fun j => if j = 0 then some 2 else none].take 2)) (inVector jac') ∧ vhess'.length = 2 ∧
      ∀ (l : Nat) H M', [hesSample1, hesSample2][l]? = some H → vhess'[l]? = some M' →
        Filled [[0, 2], [], [0]] H (inMap ((([] : List (Nat → Option (Nat → Option Int)))).getD l fun _ => none)) (inMap M') :=
  loop_elements_right sortIdx_sorts jac_evaluated hes_evaluated jac_covers (forwardOf_ok 2 3 jacSample) hes_covers
    (.cons (reverseOf_ok 3 hesSample1) (.cons (reverseOf_ok 3 hesSample2) .nil)) _ _ (by decide) (.inl rfl)

/-- the values of the sample -/
example : (loopForJacHes sortIdx 2 3 3 (forwardOf 2 3 jacSample) [reverseOf 3 hesSample1, reverseOf 3 hesSample2] jacPattern [[2], [1]]
      [fun j => if j = 0 then some 2 else none] hesPattern [[0, 2], [], [0]] [] false).map (fun r =>
        ((List.range 2).map fun i => (List.range 3).map fun j => inVector r.1 i j, r.2.map fun M => (List.range 3).map fun i => (List.range 3).map fun j => inMap M i j)) =
    some ([[some 2, none, some 3], [none, some 5, none]],
      [[[some 1, none, some 4], [none, none, none], [some 4, none, none]], [[some (-1), none, some 2], [none, none, none], [some 2, none, none]]]) := by decide +kernel

/-- a model without variables, for which the tape has one: this is handled only without atomic functions -/
theorem no_variables_counterexample :
    ToEvaluate 1 1 [[]] [[]] ∧
      (loopForJacHes sortIdx 1 1 0 (forwardOf 1 1 fun _ _ => 0) [] [[]] [[]] [] [[]] [[]] [] false).isSome = true ∧
      (loopForJacHes sortIdx 1 1 0 (forwardOf 1 1 fun _ _ => 0) [] [[]] [[]] [] [[]] [[]] [] true).isSome = false :=
  ⟨part_of rfl rfl (by decide) (by decide), by decide +kernel, by decide +kernel⟩

end Cases
end Verif.Colors
