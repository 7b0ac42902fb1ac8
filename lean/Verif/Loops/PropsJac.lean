import Verif.Loops.LemmasJac
import Mathlib.Tactic.IntervalCases
import Mathlib.Algebra.Ring.Int.Defs

/-
Property C57: the generated sparse Jacobian of a model with loops holds the derivatives which were requested.
-/
namespace Verif.Loops

open Verif.Index Verif.Ranges

variable {α : Type} [CommRing α]

/-- For a model whose tables fit together and sparsity patterns which cover the derivatives: if no element of an equation in
a loop on which the equation depends is requested twice, and locations are not shared, then code is generated, it does not get stuck, every requested element holds the
derivative given by the chain rule, and every other location holds zero. -/
theorem jacobian_right {M : Model} (hM : M.Ok) {D : Nat → Nat → Nat → Nat → α} {G : Nat → Nat → α} (hc : M.Covers D G)
    {req : List (Nat × Nat × Nat)} (hnd : req.Pairwise fun r r' => ¬ (r.1 = r'.1 ∧ r.2.1 = r'.2.1 ∧ M.LoopDep r.1 r.2.1))
    (hloc : (req.map fun r => r.2.2).Nodup)
    (hex : ∀ r ∈ req, M.Computes r.1) :
    ∃ out, jacobian M D G req = .ok out ∧
      (∀ i j e, (i, j, e) ∈ req → ∀ v, M.Deriv D G i j v → out e = v) ∧
      (∀ e, e ∉ req.map (fun r => r.2.2) → out e = 0) := by
  obtain ⟨a, ha, hI⟩ := analyseAll_inv hM req (inv_nil M) hnd (fun _ _ _ _ => by simp) hex
  rw [List.nil_append] at hI
  have huniq : ∀ r ∈ req, ∀ r' ∈ req, r.2.2 = r'.2.2 → r = r' := fun r hr r' hr' h => List.inj_on_of_nodup_map hloc hr hr' h
  obtain ⟨out, ho, hv⟩ := runLoops_ok hM hI D G (List.range M.loops.length) (fun q hq => List.mem_range.mp hq) (freeOut M G a)
  refine ⟨out, ?_, ?_, ?_⟩
  · rw [jacobian, ha]
    exact ho
  · -- a loop adds nothing if none of its equations is requested at this location
    have hzero : ∀ e q l jac, M.loops[q]? = some (l, jac) → (∀ i j, (i, j, e) ∈ req → ∀ t it, l.eq t it ≠ some i) → loopSum M D G a e q = 0 := by
      intro e q l jac hl hno
      rw [loopSum, hl]
      simp only
      refine Finset.sum_eq_zero fun it _ => list_sum_zero _ fun t ht => ?_
      rw [List.mem_range] at ht
      have htl : t < jac.length := by rw [hM.rows q l jac hl]; exact ht
      exact rowContr_zero (hI.row q l jac hl t jac[t] (List.getElem?_eq_getElem htl)) (D q) G M.nFree fun i j h => hno i j h t it
    intro i j e hr v hd
    rw [hv]
    cases hd with
    | @loop q tapeI it l jac hl hi =>
      have hb := eq_bounds (hM.deps q l jac hl) hi
      -- outside of the loops nothing is stored here
      have hfree : freeOut M G a e = 0 := by
        cases hfr : M.free with
        | none => simp [freeOut, hfr]
        | some fr =>
          rw [freeOut_eq hfr]
          refine foldl_upd e 0 _ _ ?_ (Or.inr rfl)
          intro p hp he
          exfalso
          simp only [List.mem_flatMap, List.mem_map] at hp
          obtain ⟨r, _, j', _, e', he', rfl⟩ := hp
          simp only at he
          subst he
          obtain ⟨i', h1, h2⟩ := (hI.loc fr hfr r j' e').mp he'
          have := huniq _ h2 _ hr rfl
          simp only [Prod.mk.injEq] at this
          rw [this.1] at h1
          exact hM.apart q l jac tapeI it i fr hl hi hfr (List.mem_of_getElem? h1)
      rw [hfree, zero_add, list_sum_single List.nodup_range _ (x := q) (List.mem_range.mpr (List.getElem?_eq_some_iff.mp hl).1)]
      · rw [loopSum, hl]
        simp only
        have htl : tapeI < jac.length := by rw [hM.rows q l jac hl]; exact hb.1
        have hrow : jac[tapeI]? = some jac[tapeI] := List.getElem?_eq_getElem htl
        rw [Finset.sum_eq_single it]
        · rw [list_sum_single List.nodup_range _ (x := tapeI) (List.mem_range.mpr hb.1)]
          · exact rowContr_chain huniq (hM.non q l jac hl) (hM.tmp q l jac hl) (hM.temps q l jac hl)
              (hI.row q l jac hl tapeI _ hrow) (D q) G (fun t it => fun h => hc.loops q l jac hl tapeI _ hrow t h it) hc.free hr hi
          · intro t ht hne
            rw [List.mem_range] at ht
            have htl' : t < jac.length := by rw [hM.rows q l jac hl]; exact ht
            refine rowContr_zero (hI.row q l jac hl t jac[t] (List.getElem?_eq_getElem htl')) (D q) G M.nFree ?_
            intro i' j' h' he
            have := huniq _ h' _ hr rfl
            simp only [Prod.mk.injEq] at this
            rw [this.1] at he
            exact hne (hM.once q q l l jac jac t tapeI it it i hl hl he hi).2.1
        · intro it' _ hne
          refine list_sum_zero _ fun t ht => ?_
          rw [List.mem_range] at ht
          have htl' : t < jac.length := by rw [hM.rows q l jac hl]; exact ht
          refine rowContr_zero (hI.row q l jac hl t jac[t] (List.getElem?_eq_getElem htl')) (D q) G M.nFree ?_
          intro i' j' h' he
          have := huniq _ h' _ hr rfl
          simp only [Prod.mk.injEq] at this
          rw [this.1] at he
          exact hne (hM.once q q l l jac jac t tapeI it' it i hl hl he hi).2.2
        · intro h
          exact absurd (Finset.mem_range.mpr hb.2) h
      · intro q' hq' hne
        rw [List.mem_range] at hq'
        refine hzero e q' M.loops[q'].1 M.loops[q'].2 (List.getElem?_eq_getElem hq') ?_
        intro i' j' h' t it' he
        have := huniq _ h' _ hr rfl
        simp only [Prod.mk.injEq] at this
        rw [this.1] at he
        exact hne (hM.once q' q _ l _ jac t tapeI it' it i (List.getElem?_eq_getElem hq') hl he hi).1
    | @free r fr hfr hi =>
      have hl0 : ((List.range M.loops.length).map (loopSum M D G a e)).sum = 0 := by
        refine list_sum_zero _ fun q hq => ?_
        rw [List.mem_range] at hq
        refine hzero e q M.loops[q].1 M.loops[q].2 (List.getElem?_eq_getElem hq) ?_
        intro i' j' h' t it he
        have := huniq _ h' _ hr rfl
        simp only [Prod.mk.injEq] at this
        rw [this.1] at he
        exact hM.apart q _ _ t it i fr (List.getElem?_eq_getElem hq) he hfr (List.mem_of_getElem? hi)
      rw [hl0, add_zero, freeOut_eq hfr]
      have hmem : e ∈ a.nlLoc r j := (hI.loc fr hfr r j e).mpr ⟨i, hi, hr⟩
      refine foldl_upd e (G r j) _ _ ?_ (Or.inl ⟨(e, G r j), ?_, rfl⟩)
      · intro p hp he
        simp only [List.mem_flatMap, List.mem_map] at hp
        obtain ⟨r', _, j', _, e', he', rfl⟩ := hp
        simp only at he
        subst he
        obtain ⟨i', h1, h2⟩ := (hI.loc fr hfr r' j' e').mp he'
        have := huniq _ h2 _ hr rfl
        simp only [Prod.mk.injEq] at this
        obtain ⟨rfl, rfl, _⟩ := this
        have e1 := lastIdx_eq (hM.eqs fr hfr) h1
        have e2 := lastIdx_eq (hM.eqs fr hfr) hi
        rw [e1] at e2
        rw [Option.some.inj e2]
      · simp only [List.mem_flatMap, List.mem_map]
        exact ⟨r, List.mem_range.mpr (List.getElem?_eq_some_iff.mp hi).1, j, hI.ev fr hfr r j e hmem, e, hmem, rfl⟩
  · intro e he
    have hno : ∀ i j, (i, j, e) ∉ req := fun i j h => he (List.mem_map.mpr ⟨_, h, rfl⟩)
    rw [hv]
    have hl0 : ((List.range M.loops.length).map (loopSum M D G a e)).sum = 0 := by
      refine list_sum_zero _ fun q hq => ?_
      rw [List.mem_range] at hq
      have hl : M.loops[q]? = some (M.loops[q].1, M.loops[q].2) := List.getElem?_eq_getElem hq
      rw [loopSum, hl]
      simp only
      refine Finset.sum_eq_zero fun it _ => list_sum_zero _ fun t ht => ?_
      rw [List.mem_range] at ht
      have htl : t < M.loops[q].2.length := by rw [hM.rows q _ _ hl]; exact ht
      exact rowContr_zero (hI.row q _ _ hl t _ (List.getElem?_eq_getElem htl)) (D q) G M.nFree fun i j h => absurd h (hno i j)
    rw [hl0, add_zero]
    cases hfr : M.free with
    | none => simp [freeOut, hfr]
    | some fr =>
      rw [freeOut_eq hfr]
      refine foldl_upd e 0 _ _ ?_ (Or.inr rfl)
      intro p hp he'
      exfalso
      simp only [List.mem_flatMap, List.mem_map] at hp
      obtain ⟨r, _, j', _, e', hm, rfl⟩ := hp
      simp only at he'
      subst he'
      obtain ⟨i', _, h2⟩ := (hI.loc fr hfr r j' e').mp hm
      exact hno i' j' h2

/-- exactly the requests with a repeated element of an equation in a loop on which the equation depends are refused, with the
exception for repeated elements; all others have code -/
theorem jacobian_refused_iff {M : Model} (hM : M.Ok) (D : Nat → Nat → Nat → Nat → α) (G : Nat → Nat → α)
    {req : List (Nat × Nat × Nat)} (hex : ∀ r ∈ req, M.Computes r.1) :
    (req.Pairwise (fun r r' => ¬ (r.1 = r'.1 ∧ r.2.1 = r'.2.1 ∧ M.LoopDep r.1 r.2.1)) → ∃ out, jacobian M D G req = .ok out) ∧
    (¬ req.Pairwise (fun r r' => ¬ (r.1 = r'.1 ∧ r.2.1 = r'.2.1 ∧ M.LoopDep r.1 r.2.1)) →
      ∃ r ∈ req, jacobian M D G req = .error (.repeated r.1 r.2.1)) := by
  constructor
  · intro hnd
    obtain ⟨a, ha, hI⟩ := analyseAll_inv hM req (inv_nil M) hnd (fun _ _ _ _ => by simp) hex
    obtain ⟨out, ho, _⟩ := runLoops_ok hM hI D G (List.range M.loops.length) (fun q hq => List.mem_range.mp hq) (freeOut M G a)
    exact ⟨out, by rw [jacobian, ha]; exact ho⟩
  · intro hnd
    obtain ⟨r, h1, h2⟩ := analyseAll_repeated hM req (inv_nil M) (Or.inl hnd) hex
    exact ⟨r, h1, by rw [jacobian, h2]⟩

/-! ### examples -/

/-- a loop with two tape equations (the second is missing in iteration 1), an indexed variable, the non-indexed variable 5 and
the temporary 0 -/
def exLoop : Loop := ⟨3, [[some 0, some 1, some 2], [some 3, none, some 4]], [[some 0, some 1, some 2], [some 2, some 2, some 0]], [5], [0]⟩

def exRows : List (List Nat) := [[0, 1, 2, 3], [0, 3]]

/-- equation 5 is outside of the loop, and the temporary depends on the variables 2 and 5 -/
def exModel : Model := ⟨[(exLoop, exRows)], some ⟨[5], [[4], [2, 5]]⟩⟩

def exD (_ t t' it : Nat) : Int := if t' ∈ (exRows[t]?).getD [] then 100 * t + 10 * t' + it + 1 else 0

def exG (r j : Nat) : Int := if j ∈ ([[4], [2, 5]][r]?).getD [] then 7 * r + j else 0

theorem exModel_one {q : Nat} {l : Loop} {jac : List (List Nat)} (h : exModel.loops[q]? = some (l, jac)) : q = 0 ∧ l = exLoop ∧ jac = exRows := by
  have hq : q < 1 := (List.getElem?_eq_some_iff.mp h).1
  obtain rfl : q = 0 := by omega
  simp only [exModel, List.getElem?_cons_zero, Option.some.injEq, Prod.mk.injEq] at h
  exact ⟨rfl, h.1.symm, h.2.symm⟩

theorem exModel_ok : exModel.Ok where
  rows q l jac h := by obtain ⟨_, rfl, rfl⟩ := exModel_one h; decide
  deps q l jac h := by obtain ⟨_, rfl, rfl⟩ := exModel_one h; decide
  cols q l jac h := by obtain ⟨_, rfl, rfl⟩ := exModel_one h; decide
  non q l jac h := by obtain ⟨_, rfl, rfl⟩ := exModel_one h; decide
  tmp q l jac h := by obtain ⟨_, rfl, rfl⟩ := exModel_one h; decide
  iters q l jac h := by obtain ⟨_, rfl, rfl⟩ := exModel_one h; decide
  temps q l jac h := by
    obtain ⟨_, rfl, rfl⟩ := exModel_one h
    intro k hk
    obtain rfl : k = 0 := by simpa [exLoop] using hk
    exact ⟨_, rfl, by decide⟩
  once q q' l l' jac jac' t t' it it' i h h' := by
    obtain ⟨rfl, rfl, rfl⟩ := exModel_one h
    obtain ⟨rfl, rfl, rfl⟩ := exModel_one h'
    intro h1 h2
    have b1 := eq_bounds (by decide) h1
    have b2 := eq_bounds (by decide) h2
    have key : ∀ c ∈ [(0, 0), (0, 1), (0, 2), (1, 0), (1, 1), (1, 2)], ∀ c' ∈ [(0, 0), (0, 1), (0, 2), (1, 0), (1, 1), (1, 2)],
        (exLoop.eq c.1 c.2).isSome = true → exLoop.eq c.1 c.2 = exLoop.eq c'.1 c'.2 → c = c' := by decide
    have cover : ∀ t < 2, ∀ it < 3, (t, it) ∈ [(0, 0), (0, 1), (0, 2), (1, 0), (1, 1), (1, 2)] := by decide
    have := key (t, it) (cover t b1.1 it b1.2) (t', it') (cover t' b2.1 it' b2.2) (by simp only; rw [h1]; rfl) (by simp only; rw [h1, h2])
    simp only [Prod.mk.injEq] at this
    exact ⟨rfl, this⟩
  apart q l jac t it i fr h h1 h2 := by
    obtain ⟨rfl, rfl, rfl⟩ := exModel_one h
    obtain rfl := Option.some.inj h2
    have b1 := eq_bounds (by decide) h1
    have key : ∀ t < 2, ∀ it < 3, exLoop.eq t it ≠ some 5 := by decide
    intro hm
    obtain rfl : i = 5 := by simpa using hm
    exact key t b1.1 it b1.2 h1
  eqs fr h := by
    obtain rfl := Option.some.inj h
    decide

theorem exModel_covers : exModel.Covers exD exG where
  loops q l jac h t row hrow t' ht' it := by
    obtain ⟨rfl, rfl, rfl⟩ := exModel_one h
    unfold exD
    rw [hrow, Option.getD_some, if_neg ht']
  free fr h r sp hsp j hj := by
    obtain rfl := Option.some.inj h
    unfold exG
    simp only at hsp
    rw [hsp, Option.getD_some, if_neg hj]

/-- requested elements: equation, variable, location -/
def exReq : List (Nat × Nat × Nat) := [(0, 0, 3), (0, 2, 0), (0, 5, 1), (1, 1, 2), (2, 2, 4), (3, 5, 5), (4, 5, 6), (4, 0, 9), (5, 4, 7), (1, 3, 8)]

theorem exReq_computes : ∀ r ∈ exReq, exModel.Computes r.1 := by
  have hloop : ∀ t it i, exLoop.eq t it = some i → exModel.Computes i := fun t it i h => Or.inl ⟨0, t, it, exLoop, exRows, rfl, h⟩
  have h5 : exModel.Computes 5 := Or.inr ⟨_, rfl, by decide⟩
  have : ∀ i < 5, ∃ c ∈ [(0, 0), (0, 1), (0, 2), (1, 0), (1, 2)], exLoop.eq c.1 c.2 = some i := by decide
  have h6 : ∀ r ∈ exReq, r.1 < 5 ∨ r.1 = 5 := by decide
  intro r hr
  rcases h6 r hr with h | h
  · obtain ⟨c, _, hc⟩ := this r.1 h
    exact hloop _ _ _ hc
  · rw [h]; exact h5

example : ∃ out, jacobian exModel exD exG exReq = .ok out ∧ out 0 = 290 ∧ out 1 = 393 ∧ out 4 = 300 ∧ out 5 = 1572 ∧ out 7 = 4 ∧ out 9 = 0 ∧ out 10 = 0 := by
  obtain ⟨out, h1, h2, h3⟩ := jacobian_right exModel_ok exModel_covers (req := exReq)
    (by
      have : exReq.Pairwise fun r r' => ¬ (r.1 = r'.1 ∧ r.2.1 = r'.2.1) := by decide
      exact this.imp fun h h' => h ⟨h'.1, h'.2.1⟩)
    (by decide) exReq_computes
  have hl : exModel.loops[0]? = some (exLoop, exRows) := rfl
  refine ⟨out, h1, ?_, ?_, ?_, ?_, ?_, ?_, ?_⟩
  · exact h2 0 2 0 (by decide) _ (.loop hl (tapeI := 0) (it := 0) rfl)
  · exact h2 0 5 1 (by decide) _ (.loop hl (tapeI := 0) (it := 0) rfl)
  · exact h2 2 2 4 (by decide) _ (.loop hl (tapeI := 0) (it := 2) rfl)
  · exact h2 3 5 5 (by decide) _ (.loop hl (tapeI := 1) (it := 0) rfl)
  · exact h2 5 4 7 (by decide) _ (.free (r := 0) rfl rfl)
  · exact h2 4 0 9 (by decide) _ (.loop hl (tapeI := 1) (it := 2) rfl)
  · exact h3 10 (by decide)

/-- element (0, 0) is requested twice -/
example : (match jacobian exModel exD exG ((0, 0, 12) :: exReq) with | .ok _ => none | .error x => some x) = some (.repeated 0 0) := by decide +kernel

end Verif.Loops
