import Verif.Scopes.LemmasFlat
import Verif.Scopes.LemmasNested
import Verif.Scopes.Props

/-
Properties of the order in which the values of models with loops and conditionals are computed.
-/
namespace Verif.Scopes.Order

open Verif.Scopes

section
variable {P : Placed} {roots : List Nat}

theorem before_of_pairwise {nd : Nat → Node} {l : List Nat} (hl : l.Pairwise fun x y => ¬ Desc nd x y) {x y : Nat} (hx : x ∈ l) (hy : y ∈ l)
    (hne : x ≠ y) (h : Desc nd x y) : Before l y x := by
  obtain ⟨l₁, l₂, rfl⟩ := List.append_of_mem hx
  rw [List.pairwise_append] at hl
  rcases List.mem_append.1 hy with h1 | h1
  · obtain ⟨l₃, l₄, rfl⟩ := List.append_of_mem h1
    exact ⟨l₃, l₄, l₂, by simp⟩
  · rcases List.mem_cons.1 h1 with h2 | h2
    · exact absurd h2.symm hne
    · exact absurd h (List.rel_of_pairwise_cons hl.2.1 h2)

/-- If every value is in a scope around its uses, the order is found and right: every value is computed once, after all values it depends
on, and the code of a scope is between its first and its last node. Results which get a variable of their own are in it. Missing: scopes
with conditional temporaries (see the counterexample). -/
theorem order_right_partial (hN : Nested P roots) (creates : OSt → Nat → Nat → Bool) : ∃ F, ∀ fuel, F ≤ fuel → ∃ l,
    order P creates fuel roots = .ok l ∧ RightOrder P roots l ∧
      ∀ x, Reach P.nd roots x → ((P.nd x).op = .plain ∨ (P.nd x).op = .multi) → (∀ s p, creates s p x = true) → x ∈ l := by
  obtain ⟨R, hR⟩ := hN.acyclic
  have hbound : ∃ M, ∀ r ∈ roots, R r ≤ M := by
    clear hN hR
    induction roots with
    | nil => exact ⟨0, by simp⟩
    | cons r rs ih =>
      obtain ⟨M, hM⟩ := ih
      refine ⟨M + R r, ?_⟩
      intro x hx
      rcases List.mem_cons.1 hx with rfl | hx
      · omega
      · have := hM x hx; omega
  obtain ⟨M, hM⟩ := hbound
  refine ⟨M + 2, fun fuel hfuel => ?_⟩
  obtain ⟨st, log, hq, hI, hall⟩ := queues_right hN creates hR (fuel := fuel) (fun r hr => by have := hM r hr; omega)
  have hlr : ∀ x ∈ log, Reach P.nd roots x := fun x hx => hI.reach x (hI.logv x hx)
  have hF : Final P roots st.queue log := ⟨hN, hI.q, hI.nodup, hI.needed, hlr, hI.post,
    fun x hx hp => hI.must x (hall x hx) (fun s p => queued_printed hp s p), hI.heads⟩
  have hle : ∀ n ∈ st.queue 0, R n + 1 < fuel := by
    intro n hn
    rw [hI.q] at hn
    obtain ⟨r, hr, h⟩ := reach_root (hlr n (List.mem_filter.1 hn).1)
    have := hM r hr
    rcases h with rfl | h
    · omega
    · have := h.rank hR (.root hr); omega
  obtain ⟨l, hl⟩ := flat_ok hF hR fuel 0 (by omega) hle
  have hp := flat_perm hF hl
  have hmem : ∀ x, x ∈ l ↔ x ∈ log := fun x => hp.mem_iff
  refine ⟨l, ?_, ⟨hp.nodup_iff.2 hI.nodup, fun x hx => hlr x ((hmem x).1 hx), ?_, ?_, ?_⟩, ?_⟩
  · unfold order
    rw [hq]
    simp only
    rw [hl]
    simp only
    rw [if_pos (by rw [hp.length_eq, hI.pushed])]
  · intro x hx y hy hd
    have hne : x ≠ y := by
      rintro rfl
      have := hd.rank hR (hlr x ((hmem x).1 hx)); omega
    exact before_of_pairwise (flat_order hF fuel 0 l hl) hx hy hne hd
  · intro x hx hpr
    exact (hmem x).2 (hF.all x hx hpr)
  · intro e he hend b as hargs
    obtain ⟨b', p, hE⟩ := hN.ended he hend
    obtain ⟨as', ha⟩ := hE.args
    rw [hargs] at ha
    obtain ⟨rfl, -⟩ := List.cons.inj ha
    exact block_right hF hl he hend hE
  · intro x hx hop hc
    refine (hmem x).2 (hI.must x (hall x hx) fun s p => ?_)
    unfold queued
    rcases hop with h | h <;> rw [h] <;> exact hc s p

end

/-- The scopes found for the graph of a model with loops (C60) fulfil the condition of the theorem if there are no conditional temporaries. -/
theorem marked_order_partial {nd : Nat → Node} {N fuel : Nat} {roots : List Nat} {own : Nat → Option Nat} {st : St} (hg : LoopGraph nd N)
    (hr : Roots nd N roots) (hix : ∀ r ∈ roots, (nd r).op ≠ .indexed) (hl : LoopLocal nd N roots own)
    (h : Verif.Scopes.mark fuel nd N roots = .ok st) (hs : st.size = N) (hx : ∀ n, N ≤ n → (nd n).op ≠ .loopTmp) (creates : OSt → Nat → Nat → Bool) :
    ∃ F, ∀ fuel, F ≤ fuel → ∃ l, order st.placed creates fuel roots = .ok l ∧ RightOrder st.placed roots l := by
  obtain ⟨F, hF⟩ := order_right_partial (mark_nested hg hr hix hl h hs hx) creates
  refine ⟨F, fun fuel hf => ?_⟩
  obtain ⟨l, h1, h2, -⟩ := hF fuel hf
  exact ⟨l, h1, h2⟩

/-! ### examples -/

/-- a fact about the scopes and the order, which can be evaluated -/
theorem order_result {fuel : Nat} {nd : Nat → Node} {N : Nat} {roots l : List Nat} {p : St → Bool}
    (h : (match Verif.Scopes.mark fuel nd N roots with
      | .ok st => p st && (match order st.placed (fun _ _ _ => true) fuel roots with | .ok l' => decide (l' = l) | .error _ => false)
      | .error _ => false) = true) : ∃ st, Verif.Scopes.mark fuel nd N roots = .ok st ∧ p st = true ∧
        order st.placed (fun _ _ _ => true) fuel roots = .ok l := by
  cases hm : Verif.Scopes.mark fuel nd N roots with
  | error e => rw [hm] at h; cases h
  | ok st =>
    rw [hm] at h
    simp only [Bool.and_eq_true] at h
    refine ⟨st, rfl, h.1, ?_⟩
    have h2 := h.2
    cases ho : order st.placed (fun _ _ _ => true) fuel roots with
    | error e => rw [ho] at h2; cases h2
    | ok l' => rw [ho] at h2; simp only [decide_eq_true_eq] at h2; rw [h2]

/-- the loop with a conditional of `Props`: there are no conditional temporaries -/
example : ∃ st, Verif.Scopes.mark 20 oneBranch 12 [11] = .ok st ∧ (∃ F, ∀ fuel, F ≤ fuel → ∃ l,
    order st.placed (fun _ _ _ => true) fuel [11] = .ok l ∧ RightOrder st.placed [11] l) ∧
      order st.placed (fun _ _ _ => true) 20 [11] = .ok [2, 8, 3, 4, 5, 6, 7, 9, 10, 11] := by
  obtain ⟨st, h1, h2, h3⟩ := order_result (fuel := 20) (nd := oneBranch) (N := 12) (roots := [11])
    (p := fun st => decide (st.size = 12)) (l := [2, 8, 3, 4, 5, 6, 7, 9, 10, 11]) (by decide +kernel)
  refine ⟨st, h1, marked_order_partial oneBranch_graph (roots_one (by decide)) (by decide)
    (local_of_check (own := ownBut 10 [1, 2]) (by decide)) h1 (by simpa using h2) ?_ _, h3⟩
  intro n hn
  have : oneBranch n = ⟨.indep, []⟩ := by
    unfold oneBranch
    split <;> first | omega | rfl
  rw [this]
  decide

/-- Two conditionals (iterations 0 to 2 and 5 to 7) use `v`, node 2, which is computed with `w`, node 1. The first conditional uses `w` as
well. -/
def evaluatedTwice : Nat → Node
  | 0 => ⟨.indexed, []⟩
  | 1 => ⟨.plain, [0]⟩
  | 2 => ⟨.plain, [1]⟩
  | 3 => ⟨.plain, [1]⟩
  | 4 => ⟨.plain, [2]⟩
  | 5 => ⟨.plain, [2]⟩
  | 6 => ⟨.startIf [(0, 2)], []⟩
  | 7 => ⟨.condRes, [6, 3]⟩
  | 8 => ⟨.condRes, [6, 4]⟩
  | 9 => ⟨.endIf, [6, 7, 8]⟩
  | 10 => ⟨.startIf [(5, 7)], []⟩
  | 11 => ⟨.condRes, [10, 5]⟩
  | 12 => ⟨.endIf, [10, 11]⟩
  | 13 => ⟨.loopStart, []⟩
  | 14 => ⟨.loopEnd, [13, 9, 12]⟩
  | 15 => ⟨.multi, [14]⟩
  | _ => ⟨.indep, []⟩

theorem evaluatedTwice_graph : LoopGraph evaluatedTwice 16 := by
  constructor
  case acyclic => refine ⟨id, ?_⟩; intro n hn; interval_cases n <;> decide
  case unique =>
    intro e he e' he' h h' heq
    interval_cases e <;> first
      | (exfalso; revert h; decide)
      | (interval_cases e' <;> first
          | rfl
          | (exfalso; revert h'; decide)
          | (exfalso; revert heq; decide))
  case conds =>
    intro n hn rs h
    interval_cases n <;> rcases h with h | h <;> cases h <;> exact ⟨by simp, by decide⟩
  case loopEnd =>
    intro n hn h
    interval_cases n <;> first | exact ⟨_, _, rfl, rfl, by decide⟩ | cases h
  case branch =>
    intro n hn h
    interval_cases n <;> first
      | exact ⟨_, _, rfl, by decide, by
          intro r hr
          simp only [List.mem_cons, List.not_mem_nil, or_false] at hr
          first
            | (rcases hr with hr | hr <;> subst hr <;> exact ⟨_, rfl⟩)
            | (subst hr; exact ⟨_, rfl⟩)⟩
      | cases h
  case condRes =>
    intro n hn h
    interval_cases n <;> first | exact ⟨_, _, rfl, by decide, by decide⟩ | cases h
  case leaf =>
    intro n hn h
    interval_cases n <;> first
      | rfl
      | (rcases h with h | h | ⟨rs, h⟩ <;> cases h)
  all_goals (intro n hn; interval_cases n <;> decide)

/-- With conditional temporaries a value can be computed twice: the first value of a scope makes the nodes at its beginning be visited
(`addToEvaluationQueue`, l.1616-1622), which adds the value itself, and then it is added again. -/
theorem evaluated_twice_counterexample : ∃ nd N roots own st l, LoopGraph nd N ∧ Roots nd N roots ∧ LoopLocal nd N roots own ∧
    Verif.Scopes.mark 30 nd N roots = .ok st ∧ order st.placed (fun _ _ _ => true) 30 roots = .ok l ∧ ¬ l.Nodup := by
  obtain ⟨st, h1, -, h3⟩ := order_result (fuel := 30) (nd := evaluatedTwice) (N := 16) (roots := [15])
    (p := fun _ => true) (l := [13, 17, 18, 1, 16, 19, 20, 1, 21, 6, 3, 7, 4, 8, 9, 10, 5, 11, 12, 14, 15]) (by decide +kernel)
  exact ⟨evaluatedTwice, 16, [15], ownBut 14 [], st, _, evaluatedTwice_graph, roots_one (by decide), local_of_check (by decide), h1, h3,
    by decide⟩

end Verif.Scopes.Order
