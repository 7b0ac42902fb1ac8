import Mathlib.Tactic.IntervalCases
import Verif.Scopes.LemmasMark

/-
Properties of the scopes of the nodes in models with loops.
-/
namespace Verif.Scopes

open Verif.Ranges

section
variable {nd : Nat → Node} {N fuel : Nat} {roots : List Nat} {own : Nat → Option Nat} {st : St}

/-- The scope of every value encloses the scopes in which it is used: whenever the use is run, the scope is run as well, in the same
iteration. Missing: a conditional temporary is only declared in this scope, and may not be assigned (see the counterexamples). -/
theorem values_enclosed_partial (hg : LoopGraph nd N) (hr : Roots nd N roots) (hl : LoopLocal nd N roots own)
    (h : mark fuel nd N roots = .ok st) : st.placed.AllEnclosed (fun u => 1 ≤ st.count u) := by
  obtain ⟨hi, _⟩ := mark_ok hg hr hl h
  have hb := hi.base
  intro u hu a ha hne c hc
  have hw := (hi.avail u hu (by simp) a ha).2.2 hne
  have tr : ∀ {c'}, st.path c = st.path c' → W st.nd st.path c' (st.scope a) → st.placed.Within c (st.scope a) := by
    intro c' hp h'
    refine ⟨?_, fun it hit hruns => h'.1.2 it hit ?_⟩
    · have h1 := h'.1.1
      unfold Placed.loops at h1 ⊢
      simp only [St.placed] at h1 ⊢
      rw [hp]; exact h1
    · unfold Placed.Runs at hruns ⊢
      simp only [St.placed] at hruns ⊢
      rw [← hp]; exact hruns
  have ends : (st.nd u).op.isEnd = true → (st.path c).getLast? = some (c, u) → st.placed.Within c (st.scope a) := by
    intro h1 h2
    have hcl : c ≤ st.colors := by
      by_contra h3
      rw [hb.beyond c (by omega)] at h2
      cases h2
    have h3 := (hb.pathEnd hcl (List.mem_of_getLast? h2)).2.2.2
    simp only at h3
    have h4 : st.use u = c := by
      unfold St.use
      rw [if_pos (by simp [Op.ctrl, h1]), h3]
    rw [h4] at hw
    exact tr rfl hw
  have opens : (st.nd u).op.ctrl = true → ((st.nd u).op = .loopStart ∨ ∃ rs, (st.nd u).op = .startIf rs) →
      st.path c = (st.path (st.scope u)).dropLast → st.placed.Within c (st.scope a) := by
    intro h1 h2 h3
    have h4 : st.use u = st.inner u := by unfold St.use; rw [if_pos h1]
    rw [h4] at hw
    exact tr (by rw [h3, hb.opens u hu h2]) hw
  have flat : (st.nd u).op.ctrl = false → c = st.scope u → st.placed.Within c (st.scope a) := by
    intro h1 h2
    rw [St.use_value h1] at hw
    exact tr (by rw [h2]) hw
  unfold Placed.UsedIn at hc
  simp only [St.placed] at hc
  cases ho : (st.nd u).op <;> rw [ho] at hc <;> simp only at hc
  case loopEnd => exact ends (by rw [ho]; rfl) hc
  case endIf => exact ends (by rw [ho]; rfl) hc
  case elseIf => exact ends (by rw [ho]; rfl) hc
  case els => exact ends (by rw [ho]; rfl) hc
  case loopStart => exact opens (by rw [ho]; rfl) (Or.inl ho) hc
  case startIf rs => exact opens (by rw [ho]; rfl) (Or.inr ⟨rs, ho⟩) hc
  all_goals exact flat (by rw [ho]; rfl) hc

/-- If no conditional temporary is used, every value is computed in the iterations in which it is used. Missing: graphs in which values are
used in several branches of conditionals. -/
theorem values_computed_partial (hg : LoopGraph nd N) (hr : Roots nd N roots) (hl : LoopLocal nd N roots own)
    (h : mark fuel nd N roots = .ok st) (ht : ∀ u, 1 ≤ st.count u → ∀ a ∈ (st.nd u).args, (st.nd a).op ≠ .tmp) : st.placed.AllComputed (fun u => 1 ≤ st.count u) := by
  intro u hu a ha hne c hc
  have h1 := values_enclosed_partial hg hr hl h u hu a ha hne c hc
  have h2 : st.placed.computed a = st.placed.scope a := by
    unfold Placed.computed
    split
    · rename_i d e h3
      exact absurd (by show (st.nd a).op = .tmp; rw [show st.nd a = _ from h3]) (ht u hu a ha)
    · rfl
  rw [h2]
  exact h1

/-- Each scope starts with a node in it, and a loop or a conditional ends in the scope around it. -/
theorem scopes_nested (hg : LoopGraph nd N) (hr : Roots nd N roots) (hl : LoopLocal nd N roots own)
    (h : mark fuel nd N roots = .ok st) : st.placed.Structured st.colors := by
  obtain ⟨hi, _⟩ := mark_ok hg hr hl h
  have hb := hi.base
  intro c h1 h2
  obtain ⟨e, h3, h4, h5⟩ := hb.color c h1 h2
  have hel := hb.visLt h3
  obtain ⟨b, as, h6, h7⟩ := hb.head e hel h4
  obtain ⟨e', k1, k2, k3, k4⟩ := hb.begins b (hi.avail e h3 (by simp) b (by rw [h6]; simp)).1 h7
  have := hb.uniq e hel e' (hb.visLt k1) h4 k2 (by rw [k3, h6]; rfl)
  subst this
  rcases isEnd_cases h4 with h8 | h8
  · obtain ⟨h9, h10⟩ := hb.loopEnd e h3 h8
    rw [h5] at h10
    refine ⟨[], e, b, as, h10.1, h6, k4.trans h5, fun _ => ?_⟩
    show st.path (st.scope e) = []
    rw [h9]
    exact hb.zero
  · obtain ⟨L, el, h9, h10, h11, h12⟩ := hb.branch e h3 h8
    rw [h5] at h9 h10 h11
    refine ⟨[(L, el)], e, b, as, h11, h6, k4.trans h5, fun h13 => ?_⟩
    show st.path (st.scope e) = _
    rcases h13 with h13 | h13
    · exact absurd h13 (ends_ne_loopEnd h8)
    · rw [h12 h13]
      exact h9.1

end

/-! ### examples -/

/-- a value which is used in three branches of a loop: `v` (node 1) is used in iterations 0, 1 and 2 by different operations -/
def threeBranches : Nat → Node
  | 0 => ⟨.indexed, []⟩
  | 1 => ⟨.plain, [0]⟩
  | 2 => ⟨.startIf [(0, 0)], []⟩
  | 3 => ⟨.plain, [1]⟩
  | 4 => ⟨.condRes, [2, 3]⟩
  | 5 => ⟨.endIf, [2, 4]⟩
  | 6 => ⟨.startIf [(1, 1)], []⟩
  | 7 => ⟨.plain, [1]⟩
  | 8 => ⟨.condRes, [6, 7]⟩
  | 9 => ⟨.endIf, [6, 8]⟩
  | 10 => ⟨.startIf [(2, 2)], []⟩
  | 11 => ⟨.plain, [1]⟩
  | 12 => ⟨.condRes, [10, 11]⟩
  | 13 => ⟨.endIf, [10, 12]⟩
  | 14 => ⟨.loopStart, []⟩
  | 15 => ⟨.loopEnd, [14, 5, 9, 13]⟩
  | 16 => ⟨.multi, [15]⟩
  | _ => ⟨.indep, []⟩

/-- a value (node 1) which is used in a branch by an operation (node 2) which is used in another branch as well -/
def movedUser : Nat → Node
  | 0 => ⟨.indexed, []⟩
  | 1 => ⟨.plain, [0]⟩
  | 2 => ⟨.plain, [1]⟩
  | 3 => ⟨.startIf [(0, 0)], []⟩
  | 4 => ⟨.plain, [2]⟩
  | 5 => ⟨.condRes, [3, 4]⟩
  | 6 => ⟨.endIf, [3, 5]⟩
  | 7 => ⟨.startIf [(1, 1)], []⟩
  | 8 => ⟨.plain, [1]⟩
  | 9 => ⟨.condRes, [7, 8]⟩
  | 10 => ⟨.endIf, [7, 9]⟩
  | 11 => ⟨.startIf [(2, 2)], []⟩
  | 12 => ⟨.plain, [2]⟩
  | 13 => ⟨.condRes, [11, 12]⟩
  | 14 => ⟨.endIf, [11, 13]⟩
  | 15 => ⟨.loopStart, []⟩
  | 16 => ⟨.loopEnd, [15, 6, 10, 14]⟩
  | 17 => ⟨.multi, [16]⟩
  | _ => ⟨.indep, []⟩

/-- a conditional with three branches and values used in and outside of it -/
def elseBranch : Nat → Node
  | 0 => ⟨.indexed, []⟩
  | 1 => ⟨.indep, []⟩
  | 2 => ⟨.plain, [1]⟩
  | 3 => ⟨.plain, [0, 2]⟩
  | 4 => ⟨.startIf [(0, 3)], []⟩
  | 5 => ⟨.plain, [3]⟩
  | 6 => ⟨.condRes, [4, 5]⟩
  | 7 => ⟨.elseIf [(6, 8)], [4, 6]⟩
  | 8 => ⟨.plain, [3]⟩
  | 9 => ⟨.condRes, [7, 8]⟩
  | 10 => ⟨.els, [7, 9]⟩
  | 11 => ⟨.plain, [0]⟩
  | 12 => ⟨.condRes, [10, 11]⟩
  | 13 => ⟨.endIf, [10, 12]⟩
  | 14 => ⟨.loopStart, [2]⟩
  | 15 => ⟨.plain, [3, 0]⟩
  | 16 => ⟨.loopEnd, [14, 13, 15]⟩
  | 17 => ⟨.multi, [2, 16]⟩
  | _ => ⟨.indep, []⟩

/-- checks a concrete graph -/
local macro "check_graph" : tactic => `(tactic| (
  constructor
  case acyclic => refine ⟨id, ?_⟩; intro n hn; interval_cases n <;> decide
  case unique =>
    intro e he e' he' h h' heq
    interval_cases e <;> first
      | (exfalso; revert h; decide)
      | (interval_cases e' <;> first
          | rfl
          | (exfalso; revert h'; decide)
          | (exfalso; revert heq; decide))
  case conds =>
    intro n hn rs h
    interval_cases n <;> rcases h with h | h <;> cases h <;> exact ⟨by simp, by decide⟩
  case loopEnd =>
    intro n hn h
    interval_cases n <;> first | exact ⟨_, _, rfl, rfl, by decide⟩ | cases h
  case branch =>
    intro n hn h
    interval_cases n <;> first
      | exact ⟨_, _, rfl, by decide, by intro r hr; simp only [List.mem_singleton] at hr; subst hr; exact ⟨_, rfl⟩⟩
      | cases h
  case condRes =>
    intro n hn h
    interval_cases n <;> first | exact ⟨_, _, rfl, by decide, by decide⟩ | cases h
  case leaf =>
    intro n hn h
    interval_cases n <;> first
      | rfl
      | (rcases h with h | h | ⟨rs, h⟩ <;> cases h)
  all_goals (intro n hn; interval_cases n <;> decide)))

theorem threeBranches_graph : LoopGraph threeBranches 17 := by check_graph

theorem movedUser_graph : LoopGraph movedUser 18 := by check_graph

theorem elseBranch_graph : LoopGraph elseBranch 18 := by check_graph

/-- nodes of the loop which ends with node `e`, where the nodes in the list do not belong to it -/
def ownBut (e : Nat) (out : List Nat) (n : Nat) : Option Nat := if n < e ∧ n ∉ out then some e else none

/-- the rule for the loops, checked -/
def localCheck (nd : Nat → Node) (N : Nat) (roots : List Nat) (own : Nat → Option Nat) : Bool :=
  (List.range N).all (fun n => (nd n).args.all fun a => !(nd a).op.needed || decide (own a = useLoop nd own n) ||
    (decide (own a = none) && match useLoop nd own n with
      | some e => match (nd e).args with
        | s :: _ => (nd s).args.contains a
        | [] => false
      | none => false)) && roots.all fun r => decide (own r = none)

theorem local_of_check {nd : Nat → Node} {N : Nat} {roots : List Nat} {own : Nat → Option Nat} (h : localCheck nd N roots own = true) :
    LoopLocal nd N roots own := by
  simp only [localCheck, Bool.and_eq_true, List.all_eq_true, List.mem_range, Bool.or_eq_true, Bool.not_eq_true', decide_eq_true_eq] at h
  refine ⟨fun n hn a ha hne => ?_, h.2⟩
  rcases h.1 n hn a ha with (h1 | h1) | ⟨h1, h2⟩
  · rw [hne] at h1; cases h1
  · exact Or.inl h1
  · refine Or.inr ⟨h1, ?_⟩
    cases hu : useLoop nd own n with
    | none => rw [hu] at h2; cases h2
    | some e =>
      rw [hu] at h2
      cases hargs : (nd e).args with
      | nil => simp only [hargs] at h2; cases h2
      | cons s as =>
        simp only [hargs] at h2
        exact ⟨e, s, rfl, by rw [hargs]; rfl, by simpa using h2⟩

theorem roots_one {nd : Nat → Node} {N r : Nat} (h : r < N ∧ (nd r).op = .multi) : Roots nd N [r] := by
  intro x hx
  simp only [List.mem_singleton] at hx
  subst hx
  exact ⟨h.1, Or.inr h.2⟩

theorem threeBranches_local : LoopLocal threeBranches 17 [16] (ownBut 15 []) := local_of_check (by decide)

theorem movedUser_local : LoopLocal movedUser 18 [17] (ownBut 16 []) := local_of_check (by decide)

theorem elseBranch_local : LoopLocal elseBranch 18 [17] (ownBut 16 [1, 2]) := local_of_check (by decide)

/-- a fact about the result, which can be evaluated -/
theorem mark_result {fuel : Nat} {nd : Nat → Node} {N : Nat} {roots : List Nat} {p : St → Bool}
    (h : (match mark fuel nd N roots with | .ok st => p st | .error _ => false) = true) : ∃ st, mark fuel nd N roots = .ok st ∧ p st = true := by
  cases hm : mark fuel nd N roots with
  | error e => rw [hm] at h; cases h
  | ok st => rw [hm] at h; exact ⟨st, rfl, h⟩

/-- The operation in the third branch uses a value which is not computed in its iterations: the condition of the conditional temporary is not
extended (`updateTemporaryVarInDiffScopes` returns at once). -/
theorem three_branches_counterexample : ∃ nd N roots own st, LoopGraph nd N ∧ Roots nd N roots ∧ LoopLocal nd N roots own ∧
    mark 20 nd N roots = .ok st ∧ ¬ st.placed.AllComputed (fun u => 1 ≤ st.count u) := by
  obtain ⟨st, h1, h2⟩ := mark_result (fuel := 20) (nd := threeBranches) (N := 17) (roots := [16])
    (p := fun st => decide (1 ≤ st.count 11 ∧ st.nd 11 = ⟨.plain, [1]⟩ ∧ st.nd 1 = ⟨.tmp, [18, 22]⟩ ∧ st.nd 22 = ⟨.endIf, [19, 21]⟩ ∧
      st.nd 19 = ⟨.startIf [(0, 1)], []⟩ ∧ st.scope 11 = 5 ∧ st.scope 19 = 4 ∧ st.path 5 = [(1, 15), (5, 13)] ∧ st.path 4 = [(1, 15), (4, 22)] ∧
      st.nd 13 = ⟨.endIf, [10, 12]⟩ ∧ st.nd 15 = ⟨.loopEnd, [14, 5, 9, 13]⟩ ∧ st.nd 10 = ⟨.startIf [(2, 2)], []⟩)) (by decide +kernel)
  refine ⟨threeBranches, 17, [16], _, st, threeBranches_graph, roots_one (by decide), threeBranches_local, h1, fun h => ?_⟩
  simp only [decide_eq_true_eq] at h2
  obtain ⟨a1, a2, a3, a4, a5, a6, a7, a8, a9, a10, a11, a12⟩ := h2
  have h3 := h 11 a1 1 (by simp [St.placed, a2]) (by simp [St.placed, a3, Op.needed]) 5 (by simp [Placed.UsedIn, St.placed, a2, a6])
  have h4 : st.placed.computed 1 = 4 := by simp [Placed.computed, St.placed, a3, a4, a7]
  rw [h4] at h3
  have h5 : st.placed.Runs 5 2 := by
    intro el hel hends b as hb
    simp only [St.placed, a8, List.mem_cons, List.not_mem_nil, or_false] at hel hends hb ⊢
    rcases hel with hel | hel <;> subst hel <;> simp only [a11, a10] at hends hb
    · cases hends
    · cases hb
      exact Taken.startIf a12 ⟨(2, 2), by simp, by decide, by decide⟩
  have h6 := h3.2 2 (by decide) h5 (4, 22) (by simp [St.placed, a9]) (by simp [St.placed, a4, Op.ends]) 19 [21] (by simp [St.placed, a4])
  simp only [St.placed] at h6
  cases h6 with
  | startIf k1 k2 =>
    rw [a5] at k1
    cases k1
    obtain ⟨r, hr, k3, k4⟩ := k2
    simp only [List.mem_singleton] at hr
    subst hr
    omega
  | elseIf k1 _ _ => rw [a5] at k1; cases k1
  | els k1 _ => rw [a5] at k1; cases k1

/-- An operation which uses a conditional temporary becomes a conditional temporary itself: it is computed in iteration 2, in which the value it
uses is not computed (`updateVarScopeUsage` stops at the conditional temporary). -/
theorem moved_user_counterexample : ∃ nd N roots own st, LoopGraph nd N ∧ Roots nd N roots ∧ LoopLocal nd N roots own ∧
    mark 20 nd N roots = .ok st ∧ ¬ st.placed.AllComputed (fun u => 1 ≤ st.count u) := by
  obtain ⟨st, h1, h2⟩ := mark_result (fuel := 20) (nd := movedUser) (N := 18) (roots := [17])
    (p := fun st => decide (1 ≤ st.count 24 ∧ st.nd 24 = ⟨.plain, [1]⟩ ∧ st.nd 1 = ⟨.tmp, [19, 23]⟩ ∧ st.nd 23 = ⟨.endIf, [20, 22]⟩ ∧
      st.nd 20 = ⟨.startIf [(0, 1)], []⟩ ∧ st.scope 24 = 6 ∧ st.scope 20 = 4 ∧ st.path 6 = [(1, 16), (6, 29)] ∧ st.path 4 = [(1, 16), (4, 23)] ∧
      st.nd 29 = ⟨.endIf, [26, 28]⟩ ∧ st.nd 16 = ⟨.loopEnd, [15, 6, 10, 14]⟩ ∧ st.nd 26 = ⟨.startIf [(0, 0), (2, 2)], []⟩)) (by decide +kernel)
  simp only [decide_eq_true_eq] at h2
  obtain ⟨a1, a2, a3, a4, a5, a6, a7, a8, a9, a10, a11, a12⟩ := h2
  refine ⟨movedUser, 18, [17], _, st, movedUser_graph, roots_one (by decide), movedUser_local, h1, fun h => ?_⟩
  have h3 := h 24 a1 1 (by simp [St.placed, a2]) (by simp [St.placed, a3, Op.needed]) 6 (by simp [Placed.UsedIn, St.placed, a2, a6])
  have h4 : st.placed.computed 1 = 4 := by simp [Placed.computed, St.placed, a3, a4, a7]
  rw [h4] at h3
  have h5 : st.placed.Runs 6 2 := by
    intro el hel hends b as hb
    simp only [St.placed, a8, List.mem_cons, List.not_mem_nil, or_false] at hel hends hb ⊢
    rcases hel with hel | hel <;> subst hel <;> simp only [a11, a10] at hends hb
    · cases hends
    · cases hb
      exact Taken.startIf a12 ⟨(2, 2), by simp, by decide, by decide⟩
  have h6 := h3.2 2 (by decide) h5 (4, 23) (by simp [St.placed, a9]) (by simp [St.placed, a4, Op.ends]) 20 [22] (by simp [St.placed, a4])
  simp only [St.placed] at h6
  cases h6 with
  | startIf k1 k2 =>
    rw [a5] at k1
    cases k1
    obtain ⟨r, hr, k3, k4⟩ := k2
    simp only [List.mem_singleton] at hr
    subst hr
    omega
  | elseIf k1 _ _ => rw [a5] at k1; cases k1
  | els k1 _ => rw [a5] at k1; cases k1

/-- `values_enclosed_partial` and `scopes_nested` for a conditional with three branches: a value used in two of them and then in the whole
loop is moved to the loop -/
example : ∃ st, mark 20 elseBranch 18 [17] = .ok st ∧ st.scope 3 = 1 ∧ (st.nd 3).op = .plain ∧ st.scope 2 = 0 ∧ st.scope 8 = 3 ∧
    st.placed.AllEnclosed (fun u => 1 ≤ st.count u) ∧ st.placed.Structured st.colors ∧ st.colors = 5 := by
  obtain ⟨st, h1, h2⟩ := mark_result (fuel := 20) (nd := elseBranch) (N := 18) (roots := [17])
    (p := fun st => decide (st.scope 3 = 1 ∧ (st.nd 3).op = .plain ∧ st.scope 2 = 0 ∧ st.scope 8 = 3 ∧ st.colors = 5)) (by decide +kernel)
  simp only [decide_eq_true_eq] at h2
  exact ⟨st, h1, h2.1, h2.2.1, h2.2.2.1, h2.2.2.2.1,
    values_enclosed_partial elseBranch_graph (roots_one (by decide)) elseBranch_local h1,
    scopes_nested elseBranch_graph (roots_one (by decide)) elseBranch_local h1, h2.2.2.2.2⟩

/-- `values_computed_partial` for a loop without conditional temporaries: node 3 is used in a branch and after it -/
def oneBranch : Nat → Node
  | 0 => ⟨.indexed, []⟩
  | 1 => ⟨.indep, []⟩
  | 2 => ⟨.plain, [1]⟩
  | 3 => ⟨.plain, [0, 2]⟩
  | 4 => ⟨.startIf [(0, 3)], []⟩
  | 5 => ⟨.plain, [3]⟩
  | 6 => ⟨.condRes, [4, 5]⟩
  | 7 => ⟨.endIf, [4, 6]⟩
  | 8 => ⟨.loopStart, [2]⟩
  | 9 => ⟨.plain, [3]⟩
  | 10 => ⟨.loopEnd, [8, 7, 9]⟩
  | 11 => ⟨.multi, [10]⟩
  | _ => ⟨.indep, []⟩

theorem oneBranch_graph : LoopGraph oneBranch 12 := by check_graph

example : ∃ st, mark 20 oneBranch 12 [11] = .ok st ∧ st.scope 3 = 1 ∧ st.scope 5 = 2 ∧ st.placed.AllComputed (fun u => 1 ≤ st.count u) := by
  obtain ⟨st, h1, h2⟩ := mark_result (fuel := 20) (nd := oneBranch) (N := 12) (roots := [11])
    (p := fun st => decide (st.scope 3 = 1 ∧ st.scope 5 = 2 ∧ st.size = 12 ∧ ((List.range 12).all fun n => (st.nd n).args.all fun a => decide ((st.nd a).op ≠ .tmp)) = true)) (by decide +kernel)
  simp only [decide_eq_true_eq] at h2
  refine ⟨st, h1, h2.1, h2.2.1, values_computed_partial oneBranch_graph (roots_one (by decide))
    (local_of_check (own := ownBut 10 [1, 2]) (by decide)) h1 fun u hu a ha => ?_⟩
  have hlt := (mark_ok oneBranch_graph (roots_one (by decide)) (local_of_check (own := ownBut 10 [1, 2]) (by decide)) h1).1.base.visLt hu
  have := h2.2.2.2
  simp only [List.all_eq_true, List.mem_range, decide_eq_true_eq] at this
  exact this u (by omega) a ha

/-- A value used in two scopes is placed in the innermost scope around both (0 stands for the code outside of all scopes). -/
theorem common_innermost (st : St) (a b : Nat) : ∃ p, Innermost ((st.path a).map (·.1)) ((st.path b).map (·.1)) p ∧ st.common a b = p.getLastD 0 := by
  refine ⟨_, commonLen_prefix _ _, ?_⟩
  unfold St.common
  have hl := commonLen_le (st.path a) (st.path b)
  cases h : commonLen (st.path a) (st.path b) with
  | zero => simp
  | succ d =>
    rw [h] at hl
    simp only
    have h1 : d < ((st.path b).map (·.1)).length := by simp; omega
    rw [List.take_succ_eq_append_getElem h1]
    have h2 : d < (st.path b).length := by omega
    simp [List.getD_eq_getElem?_getD, List.getElem?_eq_getElem h2]

/-- scopes 3 and 4 in the loop 2: the loop is the innermost scope around both -/
example : Innermost [2, 3] [2, 4] [2] ∧ ¬ Innermost [2, 3, 5] [2, 3, 6] [2] :=
  ⟨⟨by decide, by decide, fun q h1 h2 => by
    by_contra h
    have h3 := h1.length_le
    have h4 := List.prefix_iff_eq_take.1 h1
    have h5 := List.prefix_iff_eq_take.1 h2
    have h6 : q.length = 2 := by simp at h h3; omega
    rw [h6] at h4 h5
    rw [h4] at h5
    simp at h5⟩, fun h => absurd (h.longest [2, 3] (by decide) (by decide)) (by decide)⟩

end Verif.Scopes
