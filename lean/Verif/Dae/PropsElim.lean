import Verif.Dae.LemmasElim4
/-
C76: the choice of equations for the elimination of variables.

`dep h e k`: the residual of equation `e` depends on variable `k`. The sparsity of the Jacobian contains these dependencies,
and the order of sets of pointers is arbitrary.
-/
namespace Verif.Dae.Elim
variable {σ : Type}

/-- C76. The choice ends, and without undefined behaviour. If it raises no exception then there are substitutions, given by
pairs of an equation and a variable, which lead from the residuals to the final ones, such that
* no equation and no variable is used twice, and the variables are among those to be eliminated,
* each pair is recorded,
* in the end only its own equation depends on an eliminated variable,
* an equation without elimination keeps what was recorded, or a variable which was not eliminated and for which it can be
  solved is recorded; no variable is so assigned twice,
* for a semi-explicit system every derivative is assigned. -/
theorem elimination_correct (E : Eng σ) (dep : σ → Nat → Nat → Prop) (hE : Right E.solvable E.subst dep) (p : In)
    (hlt : ∀ v ∈ p.diff ++ p.dummy, v < p.n) (hord : ∀ l, (p.ord l).Perm l) (semi : Bool) (fuel : Nat) (orig : Nat → List Nat)
    (jac : Nat → Nat → Bool) (h : σ) (hjac : ∀ e k, e < p.ne → k ∈ p.diff ++ p.dummy → dep h e k → jac e k = true)
    (info : Nat → Option Nat) :
    match matchVars E p semi fuel orig jac h info with
    | .error .ub => False
    | .error .running => fuel ≤ (p.diff ++ p.dummy).length
    | .error .exception => True
    | .ok (s, info') => ∃ (ps : List (Nat × Nat)) (m : Nat → Option Nat),
        Run E.subst h ps s.h ∧ (ps.map (·.1)).Nodup ∧ (ps.map (·.2)).Nodup ∧
        (∀ i j, (i, j) ∈ ps → i < p.ne ∧ j ∈ p.diff ++ p.dummy ∧ m i = some j ∧
          ∀ e, e < p.ne → e ≠ i → ¬ dep s.h e j) ∧
        (∀ e, info' e = match m e with | some j => some j | none => info e) ∧
        (∀ e e' j, m e = some j → m e' = some j → e = e') ∧
        (∀ e j, m e = some j → (e, j) ∈ ps ∨
          (e < p.ne ∧ j ∈ p.diff ++ p.dummy ∧ E.solvable s.h e j = true ∧ (∀ i, (i, j) ∉ ps) ∧ ∀ k, (e, k) ∉ ps)) ∧
        (semi = true → ∀ j ∈ p.diff, ∃ e, m e = some j) := by
  have H : Hyp E p dep := ⟨hE, hlt, hord⟩
  have h1 := loop4_res H fuel [] _ (start_ei orig jac h hjac)
  unfold matchVars
  cases e : loop4 E p fuel (start E p orig jac h) with
  | error x =>
    rw [e] at h1
    cases x
    · exact h1
    · trivial
    · exact h1
  | ok s =>
    rw [e] at h1
    obtain ⟨ps, hi, _⟩ := h1
    obtain ⟨g, e2, r⟩ := remaining_spec hi
    simp only
    rw [e2]
    simp only
    by_cases hc : (semi && p.diff.any fun j => (g.v j).assign.isNone) = true
    · rw [if_pos hc]; trivial
    · rw [if_neg hc]
      simp only
      have hv : ∀ i j, (g.v j).assign = some i → j ∈ p.variables := by
        intro i j hij
        rcases r.new i j hij with h2 | h2
        · exact (hi.mem _ h2).2
        · exact (hi.gi.varsIn i j h2.1).1
      refine ⟨ps, fun e => (g.e e).assign, hi.run, hi.nd1, hi.nd2, fun i j hij => ⟨(hi.mem _ hij).1, (hi.mem _ hij).2,
        (r.agree.iff i j).mpr (r.keep i j hij), fun e he hei hd => ?_⟩, save_spec r.agree hv info, fun e e' j h2 h3 => ?_, fun e j h2 => ?_,
        fun hs j hj => ?_⟩
      · have := hi.col i j hij e he hei
        rw [hi.dep e j he (hi.mem _ hij).2 hd] at this
        cases this
      · rw [r.agree.iff] at h2 h3
        rw [h2] at h3; cases h3; rfl
      · rcases r.new e j ((r.agree.iff e j).mp h2) with h3 | ⟨h3, h4⟩
        · exact .inl h3
        · have h5 := hi.gi.varsIn e j h3
          refine .inr ⟨h5.2.2.1, h5.1, (hi.sol e h4 j h3).2, fun i hij => ?_, fun k hk => ?_⟩
          · have := (hi.del j).mpr (by rw [(hi.iffv i j).mpr hij]; simp)
            rw [h5.2.1] at this; cases this
          · rw [(hi.iffe e k).mpr hk] at h4; cases h4
      · rw [hs, Bool.true_and, List.any_eq_true] at hc
        cases hx : (g.v j).assign with
        | none => exact absurd ⟨j, hj, by rw [hx]; rfl⟩ hc
        | some i => exact ⟨i, (r.agree.iff i j).mpr hx⟩

/-- C76, corrected. If an edge which is removed is also removed from the list of the variable (`both`), no derivatives of
the original system are to be eliminated, and an equation said to be solvable can be solved, there are no exceptions. -/
theorem elimination_corrected (E : Eng σ) (dep : σ → Nat → Nat → Prop) (hE : Right E.solvable E.subst dep)
    (hx : Exact E.solvable E.subst) (p : In) (hb : p.both = true) (hdiff : p.diff = [])
    (hlt : ∀ v ∈ p.dummy, v < p.n) (hord : ∀ l, (p.ord l).Perm l) (semi : Bool) (fuel : Nat) (hf : p.dummy.length < fuel)
    (orig : Nat → List Nat) (jac : Nat → Nat → Bool) (h : σ)
    (hjac : ∀ e k, e < p.ne → k ∈ p.dummy → dep h e k → jac e k = true) (info : Nat → Option Nat) :
    ∃ r, matchVars E p semi fuel orig jac h info = .ok r := by
  have hv : p.variables = p.dummy := by unfold In.variables; rw [hdiff]; rfl
  have H : Hyp E p dep := ⟨hE, hv ▸ hlt, hord⟩
  have h1 := loop4_res H fuel [] _ (start_ei orig jac h (hv ▸ hjac))
  unfold matchVars
  cases e : loop4 E p fuel (start E p orig jac h) with
  | error x =>
    rw [e] at h1
    cases x
    · exact h1.elim
    · exact absurd ⟨hb, hdiff, hx⟩ h1
    · have : fuel ≤ p.variables.length := h1
      rw [hv] at this; omega
  | ok s =>
    rw [e] at h1
    obtain ⟨ps, hi, _⟩ := h1
    obtain ⟨g, e2, r⟩ := remaining_spec hi
    simp only
    rw [e2, hdiff]
    simp

/-- C76, a single substitution. It is kept if and only if no other equation contains the variable, or every other variable to
be eliminated can still be solved for: if it is assigned, in its equation when that is changed; otherwise in another equation. -/
theorem substitution_kept_iff (E : Eng σ) (p : In) (hlt : ∀ v ∈ p.diff ++ p.dummy, v < p.n) (s : St σ) (i j : Nat) {h : σ}
    (hs : E.subst s.h i j = some h) :
    (∃ s', assignVar E p s i j = .ok (true, s')) ↔
      (∀ e < p.ne, e ≠ i → s.jac e j = false) ∨
      ∀ v ∈ p.diff ++ p.dummy, v ≠ j →
        (∀ e, (s.g.v v).assign = some e → e < p.ne → e ≠ i → s.jac e j = true →
          (s.jac e v = true ∨ s.jac i v = true) ∧ E.solvable h e v = true) ∧
        ((s.g.v v).assign = none → ∃ e, e ≠ i ∧ (e < p.ne ∧ s.jac e j = true ∧
          (s.jac e v = true ∨ s.jac i v = true) ∧ E.solvable h e v = true ∨
          (e < p.ne ∧ s.jac e j = false ∧ v ∈ (s.g.e e).vars))) := by
  have haff : ∀ e, e ∈ affected p s i j ↔ e < p.ne ∧ e ≠ i ∧ s.jac e j = true := by
    intro e
    unfold affected
    simp
  have hfree : ∀ v, v ∈ p.free ↔ v ∈ p.diff ++ p.dummy := by
    intro v
    unfold In.free In.variables
    rw [List.mem_filter, List.mem_range, List.contains_iff_mem]
    exact ⟨fun x => x.2, fun x => ⟨hlt v x, x⟩⟩
  have hin : ∀ v e, v ∈ p.free → v ≠ j → (solvableIn E p s h i j v e = true ↔
      if e ∈ affected p s i j then (s.jac e v = true ∨ s.jac i v = true) ∧ E.solvable h e v = true
      else e ≠ i ∧ v ∈ (s.g.e e).vars) := by
    intro v e hv hne
    unfold solvableIn newJac
    by_cases ha : e ∈ affected p s i j
    · simp [ha, hne, hv]
    · simp [ha]
  have hch : check E p s h i j = true ↔ ∀ v ∈ p.diff ++ p.dummy, v ≠ j →
        (∀ e, (s.g.v v).assign = some e → e < p.ne → e ≠ i → s.jac e j = true →
          (s.jac e v = true ∨ s.jac i v = true) ∧ E.solvable h e v = true) ∧
        ((s.g.v v).assign = none → ∃ e, e ≠ i ∧ (e < p.ne ∧ s.jac e j = true ∧
          (s.jac e v = true ∨ s.jac i v = true) ∧ E.solvable h e v = true ∨
          (e < p.ne ∧ s.jac e j = false ∧ v ∈ (s.g.e e).vars))) := by
    unfold check
    rw [List.all_eq_true]
    refine forall_congr' fun v => ?_
    rw [hfree]
    refine forall_congr' fun hv => ?_
    have hvf := (hfree v).mpr hv
    by_cases hne : v = j
    · simp [hne]
    · simp only [hne, ne_eq, not_false_eq_true, true_imp_iff, beq_iff_eq, Bool.or_eq_true, false_or]
      cases hx : (s.g.v v).assign with
      | some e =>
        simp only [Option.some.injEq, forall_eq', reduceCtorEq, false_imp_iff, and_true, Bool.not_eq_true', Bool.and_eq_false_iff]
        rw [Bool.not_eq_false', hin v e hvf hne, List.contains_eq_mem, decide_eq_false_iff_not]
        by_cases ha : e ∈ affected p s i j
        · have := (haff e).mp ha
          simp [ha, this.1, this.2.1, this.2.2]
        · simp only [ha, not_false_eq_true, true_or, true_iff]
          exact fun h1 h2 h3 => absurd ((haff e).mpr ⟨h1, h2, h3⟩) ha
      | none =>
        simp only [reduceCtorEq, false_imp_iff, implies_true, true_and, true_imp_iff, List.any_eq_true, List.mem_range]
        refine exists_congr fun e => ?_
        rw [hin v e hvf hne]
        by_cases ha : e ∈ affected p s i j
        · have := (haff e).mp ha
          simp [ha, this.1, this.2.1, this.2.2]
        · rw [if_neg ha]
          constructor
          · rintro ⟨h1, h2, h3⟩
            refine ⟨h2, .inr ⟨h1, ?_, h3⟩⟩
            cases hj : s.jac e j with
            | false => rfl
            | true => exact absurd ((haff e).mpr ⟨h1, h2, hj⟩) ha
          · rintro ⟨h2, ⟨h1, hj, _⟩ | ⟨h1, _, h3⟩⟩
            · exact absurd ((haff e).mpr ⟨h1, h2, hj⟩) ha
            · exact ⟨h1, h2, h3⟩
  have hemp : (affected p s i j).isEmpty = true ↔ ∀ e < p.ne, e ≠ i → s.jac e j = false := by
    rw [List.isEmpty_iff, List.eq_nil_iff_forall_not_mem]
    refine forall_congr' fun e => ?_
    rw [haff]
    constructor
    · intro x h1 h2
      cases hj : s.jac e j with
      | false => rfl
      | true => exact absurd ⟨h1, h2, hj⟩ x
    · rintro x ⟨h1, h2, h3⟩
      rw [x h1 h2] at h3; cases h3
  rw [← hch, ← hemp]
  unfold assignVar
  simp only [hs]
  by_cases h1 : (affected p s i j).isEmpty = true
  · rw [if_pos h1]
    exact ⟨fun _ => .inl h1, fun _ => ⟨_, rfl⟩⟩
  · rw [if_neg h1]
    by_cases h2 : check E p s h i j = true
    · rw [if_pos h2]
      exact ⟨fun _ => .inr h2, fun _ => ⟨_, rfl⟩⟩
    · rw [if_neg h2]
      refine ⟨?_, ?_⟩
      · rintro ⟨s', e⟩
        cases e
      · rintro (h | h)
        · exact absurd h h1
        · exact absurd h h2

/-! ### linear systems -/

/-- linear equations with the coefficients `m e k`; other equations are multiplied so that the coefficients are whole -/
def linear : Eng (Nat → Nat → Int) where
  solvable m e k := m e k != 0
  subst m i j := if m i j = 0 then none else some fun e k => if e = i ∨ m e j = 0 then m e k else m i j * m e k - m e j * m i k

theorem linear_right : Right linear.solvable linear.subst fun m e k => m e k ≠ 0 := by
  have hs : ∀ {h i j h'}, linear.subst h i j = some h' → h i j ≠ 0 ∧
      h' = fun e k => if e = i ∨ h e j = 0 then h e k else h i j * h e k - h e j * h i k := by
    intro h i j h' e
    simp only [linear] at e
    split at e
    · cases e
    · rename_i hne; cases e; exact ⟨hne, rfl⟩
  refine ⟨fun h i j h' e e' k hne hd => ?_, fun h i j h' e k hd => ?_, fun h i j h' e e' k hne hd => ?_⟩
  · obtain ⟨hij, rfl⟩ := hs e
    simp only at hd
    split at hd
    · rename_i hc
      rcases hc with hc | hc
      · exact absurd hc hne
      · exact ⟨fun x => hd (x ▸ hc), .inl hd⟩
    · rename_i hc
      refine ⟨fun x => hd (by subst x; exact Int.sub_eq_zero.mpr (Int.mul_comm _ _)), ?_⟩
      by_cases h1 : h e' k = 0
      · right
        refine ⟨fun x => hc (.inr x), fun x => hd ?_⟩
        rw [h1, x]; simp
      · exact .inl h1
  · obtain ⟨_, rfl⟩ := hs e
    simpa using hd
  · obtain ⟨_, rfl⟩ := hs e
    simp only [ne_eq, Classical.not_not] at hd
    simp only [linear]
    rw [if_pos (.inr hd)]

theorem linear_exact : Exact linear.solvable linear.subst := by
  intro h i j hs
  simp only [linear, bne_iff_ne] at hs ⊢
  rw [if_neg hs]; simp

/-- coefficients -/
def rows {α : Type} (z : α) (m : List (List α)) (e k : Nat) : α := (m.getD e []).getD k z

/-- the elimination of all variables of a linear system, as in the code or corrected -/
def eliminate (both : Bool) (n : Nat) (m : List (List Int)) : Except Err (St (Nat → Nat → Int) × (Nat → Option Nat)) :=
  matchVars linear ⟨[], List.range n, m.length, n, id, both⟩ false (n + 1) (fun _ => List.range n) (fun e k => rows 0 m e k != 0)
    (rows 0 m) (fun _ => none)

/-- what is recorded, and the final coefficients -/
def outcome (n ne : Nat) (r : Except Err (St (Nat → Nat → Int) × (Nat → Option Nat))) :
    Except Err (List (Option Nat) × List (List Int)) :=
  r.map fun r => ((List.range ne).map r.2, (List.range ne).map fun e => (List.range n).map (r.1.h e))

example : outcome 3 3 (eliminate false 3 [[1, 1, 0], [0, 1, 1], [1, 0, 2]]) =
    .ok ([some 0, some 1, some 2], [[3, 0, 0], [0, 3, 0], [0, 0, 3]]) := by decide +kernel

/-- the regular system of the next theorem -/
def stuck : List (List Int) := [[1, 1, 0, 0], [1, 0, 0, 1], [1, 0, 1, 0], [1, 1, 1, 1]]

/-- C76, failure. `a.deleteNode(v)` removes the variable from the equation but not the equation from the variable. The
equation is still tried later, it cannot be solved, and the exception ends the whole generation: a regular linear system of
four equations, for which the corrected choice eliminates all variables. -/
theorem removed_edge_counterexample :
    Right linear.solvable linear.subst (fun m e k => m e k ≠ 0) ∧ Exact linear.solvable linear.subst ∧
    outcome 4 4 (eliminate false 4 stuck) = .error .exception ∧
    outcome 4 4 (eliminate true 4 stuck) =
      .ok ([some 0, some 1, some 2, some 3], [[2, 0, 0, 0], [0, 2, 0, 0], [0, 0, 2, 0], [0, 0, 0, -2]]) :=
  ⟨linear_right, linear_exact, by decide +kernel, by decide +kernel⟩

/-! ### nonlinear systems -/

/-- equations without cancellation: `m e k` is 0 if equation `e` does not depend on `k`, 1 if it is linear in `k` with a
constant coefficient and 2 otherwise -/
def nonlinear : Eng (Nat → Nat → Nat) where
  solvable m e k := m e k == 1
  subst m i j := if m i j = 1 then some fun e k =>
      if e = i ∨ m e j = 0 then m e k else if k = j then 0 else max (m e k) (if m i k = 0 then 0 else max (m e j) (m i k))
    else none

theorem nonlinear_right : Right nonlinear.solvable nonlinear.subst fun m e k => m e k ≠ 0 := by
  have hs : ∀ {h i j h'}, nonlinear.subst h i j = some h' → h' = fun e k =>
      if e = i ∨ h e j = 0 then h e k else if k = j then 0 else max (h e k) (if h i k = 0 then 0 else max (h e j) (h i k)) := by
    intro h i j h' e
    simp only [nonlinear] at e
    split at e
    · cases e; rfl
    · cases e
  refine ⟨fun h i j h' e e' k hne hd => ?_, fun h i j h' e k hd => ?_, fun h i j h' e e' k hne hd => ?_⟩
  · rw [hs e] at hd
    simp only at hd
    split at hd
    · rename_i hc
      rcases hc with hc | hc
      · exact absurd hc hne
      · exact ⟨fun x => hd (x ▸ hc), .inl hd⟩
    · rename_i hc
      split at hd
      · exact absurd rfl hd
      · rename_i hk
        refine ⟨hk, ?_⟩
        by_cases h1 : h e' k = 0
        · right
          refine ⟨fun x => hc (.inr x), fun x => hd ?_⟩
          rw [h1, x]; simp
        · exact .inl h1
  · rw [hs e] at hd
    simpa using hd
  · rw [hs e]
    simp only [ne_eq, Classical.not_not] at hd
    simp only [nonlinear]
    rw [if_pos (.inr hd)]

theorem nonlinear_exact : Exact nonlinear.solvable nonlinear.subst := by
  intro h i j hs
  simp only [nonlinear, beq_iff_eq] at hs ⊢
  rw [if_pos hs]; simp

/-- what is recorded, and the final dependencies -/
def choose (both semi : Bool) (diff dummy : List Nat) (n : Nat) (m : List (List Nat)) (info : Nat → Option Nat) :
    Except Err (List (Option Nat) × List (List Nat)) :=
  (matchVars nonlinear ⟨diff, dummy, m.length, n, id, both⟩ semi (n + 1) (fun _ => List.range n) (fun e k => rows 0 m e k != 0)
    (rows 0 m) info).map
    fun r => ((List.range m.length).map r.2, (List.range m.length).map fun e => (List.range n).map (r.1.h e))

example : choose false true [0] [1] 3 [[1, 0, 2], [1, 1, 1]] (fun _ => none) =
    .ok ([some 0, some 1], [[1, 0, 2], [0, 1, 2]]) := by decide +kernel

/-- a substitution which is kept, and one which is undone because variable 1 could no longer be solved for -/
example : ((assignVar nonlinear ⟨[], [0, 1], 2, 2, id, false⟩ (start nonlinear ⟨[], [0, 1], 2, 2, id, false⟩ (fun _ => [0, 1])
      (fun e k => rows 0 [[1, 1], [1, 1]] e k != 0) (rows 0 [[1, 1], [1, 1]])) 0 0).map (·.1)).toOption = some true ∧
    ((assignVar nonlinear ⟨[], [0, 1], 2, 2, id, false⟩ (start nonlinear ⟨[], [0, 1], 2, 2, id, false⟩ (fun _ => [0, 1])
      (fun e k => rows 0 [[1, 2], [1, 1]] e k != 0) (rows 0 [[1, 2], [1, 1]])) 0 0).map (·.1)).toOption = some false := by
  decide +kernel

/-- the failure for three equations which are linear except for one term -/
theorem removed_edge_nonlinear_counterexample :
    choose false false [] [0, 1, 2] 3 [[0, 1, 1], [1, 1, 0], [1, 2, 0]] (fun _ => none) = .error .exception ∧
    (choose true false [] [0, 1, 2] 3 [[0, 1, 1], [1, 1, 0], [1, 2, 0]] (fun _ => none)).isOk = true := by
  decide +kernel

/-- C76, failure. The variable recorded for an equation before is kept if the equation gets none: variable 0, to which the
first equation was assigned, is eliminated with the second equation and then recorded for both. -/
theorem stale_assignment_counterexample :
    choose false false [] [0] 2 [[2, 1], [1, 0]] (fun e => some e) = .ok ([some 0, some 0], [[0, 1], [1, 0]]) := by
  decide +kernel

/-- C76, failure. The check for semi-explicit systems also accepts derivatives which were assigned for information only:
the derivative 0 is recorded for the first equation, but the second still depends on it. -/
theorem semi_explicit_counterexample :
    choose false true [0] [1] 2 [[1, 2], [1, 2]] (fun _ => none) = .ok ([some 0, none], [[1, 2], [1, 2]]) := by
  decide +kernel

/-- C76, failure. The marks of earlier searches are not removed: the first equation gets variable 0 and the second none, though
the first could get variable 1 and the second variable 0. -/
theorem marks_kept_counterexample :
    choose false false [] [0, 1, 2] 3 [[1, 1, 0], [1, 2, 2]] (fun _ => none) = .ok ([some 0, none], [[1, 1, 0], [1, 2, 2]]) := by
  decide +kernel

end Verif.Dae.Elim
