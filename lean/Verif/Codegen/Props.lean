import Verif.Codegen.LemmasTop
/-
Properties C05-C10 and C12: the generated function computes the graph, never reads a variable before
writing it, reuse of temporary variables is invisible, declared sizes are large enough, inputs are
never written, every dependent is written, and generation does not depend on earlier generations.

The request is described by `WF` (Spec.lean). `Ready h` and `Unnamed` describe the state of the
handler; a new handler satisfies both.
-/
namespace Verif.Codegen
variable {α : Type} [DecidableEq α] {G : Graph α} {rank : Nat → Nat} {fuel : Nat} {indeps : List Nat}
  {deps : List (Arg α)}

/-- the handler has generated code before, or its per-node data is still zero -/
def Ready (h : HState) : Prop :=
  h.used = true ∨ (h.vid = (fun _ => 0) ∧ h.cnt = (fun _ => 0) ∧ h.ord = (fun _ => 0) ∧
    h.opCount = (fun _ => 0) ∧ h.scoped0 = [])

/-- no node of the request carries a name -/
def Unnamed (G : Graph α) (indeps : List Nat) (deps : List (Arg α)) (h : HState) : Prop :=
  ∀ n, (n ∈ indeps ∨ Reach G (argNodes deps) n) → h.names n = none

omit [DecidableEq α] in
theorem ready_fresh : Ready HState.fresh ∧ Unnamed G indeps deps HState.fresh :=
  ⟨Or.inr ⟨rfl, rfl, rfl, rfl, rfl⟩, fun _ _ => rfl⟩

theorem Ready.clean {h : HState} (hr : Ready h) : h.Clean := by
  rcases hr with h' | ⟨a, b, c, _, e⟩
  · exact Or.inl h'
  · exact Or.inr ⟨a, b, c, e⟩

/-! ### an example request used for the non-vacuity checks

`x0*x1` shared, a sum, a quotient, a sign and a conditional; a dependent which is an independent, a
constant dependent and a duplicated dependent. -/

/-- 2 = x0*x1, 3 = 2 + x0, 4 = sin 2, 5 = 3/4, 6 = sign 5, 7 = (6 < 0 ? 2 : 5), 8 = x1 - x0,
9 = 8*8, 10 = 9 + 4, 11 = 10*10 -/
def exG : Graph Int := fun n => match n with
  | 2 => ⟨.mul, [.node 0, .node 1]⟩
  | 3 => ⟨.add, [.node 2, .node 0]⟩
  | 4 => ⟨.un .sin, [.node 2]⟩
  | 5 => ⟨.div, [.node 3, .node 4]⟩
  | 6 => ⟨.sign, [.node 5]⟩
  | 7 => ⟨.cond .lt, [.node 6, .param 0, .node 2, .node 5]⟩
  | 8 => ⟨.sub, [.node 1, .node 0]⟩
  | 9 => ⟨.mul, [.node 8, .node 8]⟩
  | 10 => ⟨.add, [.node 9, .node 4]⟩
  | 11 => ⟨.mul, [.node 10, .node 10]⟩
  | _ => ⟨.inv, []⟩

def exDeps : List (Arg Int) :=
  [.node 3, .node 5, .node 7, .node 0, .param 4, .node 5, .node 11, .param 0]

def exCfg : Cfg := { reuse := true, maxOps := 100, zeroDeps := false, ignoreZero := false }

theorem exReach : ∀ n, Reach exG (argNodes exDeps) n → n ∈ List.range 12 := by
  intro n h
  induction h with
  | root h => exact (by decide : ∀ d ∈ argNodes exDeps, d ∈ List.range 12) _ h
  | kid _ hk ih =>
    exact (by decide : ∀ n ∈ List.range 12, ∀ m ∈ kids exG n, m ∈ List.range 12) _ ih _ hk

theorem exWF : WF exG id 12 [0, 1] exDeps where
  acyclic n h := (by decide : ∀ n ∈ List.range 12, ∀ m ∈ kids exG n, id m < id n) n (exReach n h)
  depth := by decide
  shape n h := by
    have h := exReach n h
    simp only [List.mem_range] at h
    match n, h with
    | 0, _ | 1, _ => rfl
    | 2, _ | 3, _ | 5, _ | 8, _ | 9, _ | 10, _ | 11, _ => exact ⟨_, _, rfl⟩
    | 4, _ => exact ⟨_, rfl⟩
    | 6, _ => exact ⟨_, rfl, by decide⟩
    | 7, _ => exact ⟨_, _, _, _, rfl⟩
    | n + 12, h => omega
  declared n h := (by decide : ∀ n ∈ List.range 12, (exG n).op = .inv → n ∈ [0, 1]) n (exReach n h)
  indeps_nodup := by decide
  indeps_inv := by decide
  alias_dep n h := (by decide : ∀ n ∈ List.range 12, ∀ m ∈ kids exG n, (exG m).op = .alias →
    m ∉ argNodes exDeps) n (exReach n h)

/-! ### C05: the generated code computes the graph -/

/-- C05. Generation succeeds, and for every interpretation of the operations, every input and every
valuation of the graph at that input, the generated function runs to completion, and afterwards every
dependent which is not a zero left out on purpose (`Assigned`) holds its value; inputs are intact. -/
theorem generateCode_correct [Inhabited α] (wf : WF G rank fuel indeps deps) (cfg : Cfg) (zero : α)
    (h : HState) (hr : Ready h) (hn : Unnamed G indeps deps h) :
    ∃ g h', generateCode G fuel cfg zero indeps deps h = .ok (g, h') ∧
      ∀ (I : Interp α) (x val : Nat → α), IsValuation I G indeps (argNodes deps) x val →
        ∃ env, execAll I (entryEnv indeps.length x) g.prog = some env ∧
          (∀ (i : Nat) (d : Arg α), deps[i]? = some d → Assigned G deps cfg zero d →
            env (.y i) = some (argVal val d)) ∧
          (∀ j, j < indeps.length → env (.x j) = some (x j)) := by
  obtain ⟨g, h', p, e, _, pf, _, ok⟩ := generate_spec wf cfg zero h hr.clean hn
  refine ⟨g, h', e, ?_⟩
  intro I x val hval
  obtain ⟨env, ds, cs, h1, _, _, _, _, h6, h7⟩ := sim wf pf cfg zero ok hval
  exact ⟨env, h1.execAll, h7, h6⟩

/-- C05. The valuation quantified over in `generateCode_correct` always exists (and is unique below
the dependents, `valuation_unique`): the previous theorem is not vacuous. -/
theorem graph_has_valuation [Inhabited α] (wf : WF G rank fuel indeps deps) (I : Interp α)
    (x : Nat → α) : ∃ val, IsValuation I G indeps (argNodes deps) x val :=
  valuation_exists wf I x

/-- The value of a graph is unique below the dependents. -/
theorem valuation_unique (wf : WF G rank fuel indeps deps) (I : Interp α) (x val val' : Nat → α)
    (h : IsValuation I G indeps (argNodes deps) x val)
    (h' : IsValuation I G indeps (argNodes deps) x val') :
    ∀ n, Reach G (argNodes deps) n → val n = val' n := by
  have key : ∀ (k n : Nat), rank n < k → Reach G (argNodes deps) n → val n = val' n := by
    intro k
    induction k with
    | zero => intro n h; omega
    | succ k ih =>
      intro n hk hr
      by_cases hop : (G n).op = .inv
      · have hin := wf.declared n hr hop
        obtain ⟨j, hj⟩ := List.mem_iff_getElem?.1 hin
        rw [h.1 j n hj, h'.1 j n hj]
      · have h1 := h.2 n hr hop
        have h2 := h'.2 n hr hop
        have hargs : (G n).args.map (argVal val) = (G n).args.map (argVal val') := by
          apply List.map_congr_left
          intro a ha
          cases a with
          | param v => rfl
          | node m =>
            have hm : m ∈ kids G n := mem_argNodes.2 ha
            exact ih m (by have := wf.acyclic n hr m hm; omega) (.kid hr hm)
        rw [hargs, h2] at h1
        exact (Option.some.inj h1).symm
  intro n hr
  exact key (rank n + 1) n (by omega) hr

example : WF exG id 12 [0, 1] exDeps ∧ Ready HState.fresh ∧ Unnamed exG [0, 1] exDeps HState.fresh ∧
    (∀ d ∈ exDeps, Assigned exG exDeps exCfg 0 d) :=
  ⟨exWF, (ready_fresh (G := exG) (indeps := [0, 1]) (deps := exDeps)).1, ready_fresh.2,
    fun _ _ => Or.inl rfl⟩

/-- the generated function of the example: one temporary variable is used three times -/
example : (generateCode exG 12 exCfg 0 [0, 1] exDeps .fresh).toOption.map (fun r => (r.1.prog, r.1.tempCount)) =
    some ([.assign (.v 0) (.mul (.var (.x 0)) (.var (.x 1))),
      .assign (.y 0) (.add (.var (.v 0)) (.var (.x 0))),
      .assign (.v 1) (.un .sin (.var (.v 0))),
      .assign (.y 1) (.div (.var (.y 0)) (.var (.v 1))),
      .ite .lt (.sgn (.y 1)) (.const 0) (.y 2) (.var (.v 0)) (.var (.y 1)),
      .assign (.v 0) (.sub (.var (.x 1)) (.var (.x 0))),
      .assign (.v 0) (.add (.mul (.var (.v 0)) (.var (.v 0))) (.var (.v 1))),
      .assign (.y 6) (.mul (.var (.v 0)) (.var (.v 0))),
      .assign (.y 5) (.var (.y 1)),
      .assign (.y 3) (.var (.x 0)),
      .assign (.y 4) (.const 4),
      .assign (.y 7) (.const 0)], 2) := by decide

/-- C05/C06, where it fails: an alias which is a dependent and an argument of an earlier dependent is
read before it is written. Node 2 is an alias of sin(x0), dependents are `2 + 1` and `2`. -/
def aliasG : Graph Int := fun n => match n with
  | 1 => ⟨.un .sin, [.node 0]⟩
  | 2 => ⟨.alias, [.node 1]⟩
  | 3 => ⟨.add, [.node 2, .param 1]⟩
  | 4 => ⟨.sign, [.node 2]⟩
  | _ => ⟨.inv, []⟩

theorem alias_dependent_counterexample :
    ∃ g h', generateCode aliasG 10 exCfg 0 [0] [.node 3, .node 2] .fresh = .ok (g, h') ∧
      ¬ DefBeforeUse 1 [] g.prog ∧
      ∀ (I : Interp Int) (x : Nat → Int), execAll I (entryEnv 1 x) g.prog = none := by
  refine ⟨_, _, rfl, ?_, ?_⟩
  · intro h
    exact absurd (h.2.1 (.y 1) (by decide)) (by decide)
  · intro I x
    rfl

/-- C05, where it fails: the sign of an alias has no variable to name (undefined behaviour). -/
theorem sign_of_alias_counterexample :
    generateCode aliasG 10 exCfg 0 [0] [.node 4] .fresh = .error .ub := rfl

/-- C05/C10, where it fails: `zeroDependents` together with `ignoreZeroDepAssign` leaves a zero
dependent unwritten when the function has no operation. -/
theorem zero_dependent_counterexample :
    ∃ g h', generateCode exG 10 { exCfg with zeroDeps := true, ignoreZero := true } 0 [0, 1]
        [.param 0] .fresh = .ok (g, h') ∧
      ∀ (I : Interp Int) (x : Nat → Int),
        (execAll I (entryEnv 2 x) g.prog).map (fun env => env (.y 0)) = some none :=
  ⟨_, _, rfl, fun _ _ => rfl⟩

/-! ### C06: no variable is read before it is written -/

/-- C06. On every path through the generated function each variable read is an input of the function
or was written by an earlier statement. -/
theorem generateCode_defBeforeUse (wf : WF G rank fuel indeps deps) (cfg : Cfg) (zero : α) (h : HState)
    (hr : Ready h) (hn : Unnamed G indeps deps h) {g : Gen α} {h' : HState}
    (e : generateCode G fuel cfg zero indeps deps h = .ok (g, h')) :
    DefBeforeUse indeps.length [] g.prog := by
  obtain ⟨g', h'', p, e', _, pf, _, ok⟩ := generate_spec wf cfg zero h hr.clean hn
  rw [e'] at e
  cases e
  exact (prog_static wf pf cfg zero ok).1

/-! ### C07: reuse of temporary variables -/

/-- C07. Turning the reuse of temporary variables on or off does not change any value assigned by any
statement of the generated function, for any interpretation of the operations and any input. -/
theorem reuse_invisible [Inhabited α] (wf : WF G rank fuel indeps deps) (cfg : Cfg) (zero : α)
    (h : HState) (hr : Ready h) (hn : Unnamed G indeps deps h) {g g' : Gen α} {h1 h2 : HState}
    (e : generateCode G fuel { cfg with reuse := true } zero indeps deps h = .ok (g, h1))
    (e' : generateCode G fuel { cfg with reuse := false } zero indeps deps h = .ok (g', h2))
    (I : Interp α) (x : Nat → α) :
    ∃ vs, execTrace I (entryEnv indeps.length x) g.prog = some vs ∧
      execTrace I (entryEnv indeps.length x) g'.prog = some vs := by
  obtain ⟨_, _, p, f1, f2, pf, _, ok⟩ := generate_spec wf { cfg with reuse := true } zero h hr.clean hn
  obtain ⟨_, _, p', f1', f2', pf', _, ok'⟩ :=
    generate_spec wf { cfg with reuse := false } zero h hr.clean hn
  rw [f1] at e
  rw [f1'] at e'
  cases e
  cases e'
  obtain ⟨val, hval⟩ := valuation_exists wf I x
  obtain ⟨_, ds, cs, r1, r2, r3, r4, r5, _⟩ := sim wf pf _ zero ok hval
  obtain ⟨_, ds', cs', s1, s2, s3, s4, s5, _⟩ := sim wf pf' _ zero ok' hval
  have hq := plan_queue { cfg with reuse := true } { cfg with reuse := false } rfl h f2 f2'
  have hds : ds = ds' := sorted_ext r2 s2 (fun k => (r4 k).trans (s4 k).symm)
  have hcs : cs = cs' := sorted_ext r3 s3 (fun k => (r5 k).trans (s5 k).symm)
  refine ⟨_, r1.trace, ?_⟩
  rw [s1.trace, hq, hds, hcs]

/-- in the example the reuse changes the program: two temporaries instead of four -/
example : (generateCode exG 12 { exCfg with reuse := false } 0 [0, 1] exDeps .fresh).toOption.map
      (fun r => r.1.tempCount) = some 4 ∧
    (generateCode exG 12 exCfg 0 [0, 1] exDeps .fresh).toOption.map (fun r => r.1.tempCount) = some 2 := by
  decide

/-! ### C08: enough temporary variables are declared -/

/-- C08. Every temporary variable read or written is within the declared array. -/
theorem temporaries_declared (wf : WF G rank fuel indeps deps) (cfg : Cfg) (zero : α) (h : HState)
    (hr : Ready h) (hn : Unnamed G indeps deps h) {g : Gen α} {h' : HState}
    (e : generateCode G fuel cfg zero indeps deps h = .ok (g, h')) (s : Stmt α) (hs : s ∈ g.prog)
    (k : Nat) (hk : s.lhs = .v k ∨ .v k ∈ s.reads) : k < g.tempCount := by
  obtain ⟨_, _, p, e', _, pf, hc, ok⟩ := generate_spec wf cfg zero h hr.clean hn
  rw [e'] at e
  cases e
  rw [hc]
  exact (prog_static wf pf cfg zero ok).2.2.2 s hs k hk

/-! ### C09: inputs are never written -/

/-- C09. No statement of the generated function writes an input. -/
theorem inputs_not_written (wf : WF G rank fuel indeps deps) (cfg : Cfg) (zero : α) (h : HState)
    (hr : Ready h) (hn : Unnamed G indeps deps h) {g : Gen α} {h' : HState}
    (e : generateCode G fuel cfg zero indeps deps h = .ok (g, h')) (s : Stmt α) (hs : s ∈ g.prog)
    (i : Nat) : s.lhs ≠ .x i := by
  obtain ⟨_, _, p, e', _, pf, hc, ok⟩ := generate_spec wf cfg zero h hr.clean hn
  rw [e'] at e
  cases e
  exact (prog_static wf pf cfg zero ok).2.1 s hs i

/-! ### C10: each dependent is written exactly once -/

/-- C10. Without `zeroDependents`, each dependent (other than a zero left out by
`ignoreZeroDepAssign`) is written by exactly one statement of the generated function. -/
theorem dependent_written_once (wf : WF G rank fuel indeps deps) (cfg : Cfg) (zero : α) (h : HState)
    (hr : Ready h) (hn : Unnamed G indeps deps h) {g : Gen α} {h' : HState}
    (e : generateCode G fuel cfg zero indeps deps h = .ok (g, h')) (hz : cfg.zeroDeps = false)
    (i : Nat) (d : Arg α) (hi : deps[i]? = some d) (ha : cfg.ignoreZero = false ∨ d ≠ .param zero) :
    (g.prog.map Stmt.lhs).count (.y i) = 1 := by
  obtain ⟨_, _, p, e', _, pf, hc, ok⟩ := generate_spec wf cfg zero h hr.clean hn
  rw [e'] at e
  cases e
  exact prog_once wf pf cfg zero ok hz i d hi ha

/-- C10. Nothing is written past the last dependent. -/
theorem dependent_in_range (wf : WF G rank fuel indeps deps) (cfg : Cfg) (zero : α) (h : HState)
    (hr : Ready h) (hn : Unnamed G indeps deps h) {g : Gen α} {h' : HState}
    (e : generateCode G fuel cfg zero indeps deps h = .ok (g, h')) (s : Stmt α) (hs : s ∈ g.prog)
    (i : Nat) (hi : s.lhs = .y i) : i < deps.length := by
  obtain ⟨_, _, p, e', _, pf, hc, ok⟩ := generate_spec wf cfg zero h hr.clean hn
  rw [e'] at e
  cases e
  exact (prog_static wf pf cfg zero ok).2.2.1 s hs i hi

example : exCfg.zeroDeps = false ∧ ∃ g h', generateCode exG 12 exCfg 0 [0, 1] exDeps .fresh = .ok (g, h') ∧
    g.prog.length = 12 := ⟨rfl, _, _, rfl, by decide⟩

/-! ### C12: history -/

theorem plan_ready (cfg : Cfg) (h : HState) (hr : Ready h) :
    plan G fuel cfg indeps deps h = plan G fuel cfg indeps deps .fresh := by
  unfold plan
  rcases hr with hu | ⟨h1, h2, h3, h4, h5⟩
  · simp only [hu, HState.resetManagedNodes, HState.fresh, if_true]
    simp
  · by_cases hu : h.used = true
    · simp only [hu, HState.resetManagedNodes, HState.fresh, if_true]
      simp
    · obtain ⟨_, _, _, _, _, _, _, _⟩ := h
      simp only at h1 h2 h3 h4 h5
      subst h1 h2 h3 h4 h5
      simp only [Bool.not_eq_true] at hu
      subst hu
      rfl

/-- C12. Whatever the handler generated before, if the nodes of the request carry no name yet then
the function generated is the one a new handler would generate. -/
theorem history_independent_partial (wf : WF G rank fuel indeps deps) (cfg : Cfg) (zero : α)
    (h : HState) (hr : Ready h) (hn : Unnamed G indeps deps h) :
    ∃ g h1 h2, generateCode G fuel cfg zero indeps deps h = .ok (g, h1) ∧
      generateCode G fuel cfg zero indeps deps .fresh = .ok (g, h2) := by
  obtain ⟨p, e, pf⟩ := plan_spec wf cfg h hr.clean
  have e0 := e
  rw [plan_ready cfg h hr] at e0
  have ok1 : NamesOk G indeps deps p h.names := fun n hr _ => Or.inl (hn n hr)
  have ok2 : NamesOk G indeps deps p HState.fresh.names := fun _ _ _ => Or.inl rfl
  obtain ⟨g, nm, e2, _, _⟩ := emit_ok wf pf cfg zero ok1
  obtain ⟨m', e3⟩ := emit_congr cfg zero p h.names HState.fresh.names
    ((emitName_eq wf pf ok1).trans (emitName_eq wf pf ok2).symm) e2
  exact ⟨g, _, _, by simp only [generateCode, e, e2]; rfl, by simp only [generateCode, e0, e3]; rfl⟩

/-- the same request made `k + 1` times in a row: the functions generated -/
def generateRepeatedly (G : Graph α) (fuel : Nat) (cfg : Cfg) (zero : α) (indeps : List Nat)
    (deps : List (Arg α)) : Nat → HState → Except Err (List (Gen α))
  | 0, _ => .ok []
  | k + 1, h =>
    match generateCode G fuel cfg zero indeps deps h with
    | .error e => .error e
    | .ok (g, h') =>
      match generateRepeatedly G fuel cfg zero indeps deps k h' with
      | .error e => .error e
      | .ok gs => .ok (g :: gs)

/-- C12. Generating the same request any number of times gives the same function every time. -/
theorem generate_repeatable (wf : WF G rank fuel indeps deps) (cfg : Cfg) (zero : α) (h : HState)
    (hr : Ready h) (hn : Unnamed G indeps deps h) :
    ∃ g, ∀ k, generateRepeatedly G fuel cfg zero indeps deps k h = .ok (List.replicate k g) := by
  obtain ⟨p, e, pf⟩ := plan_spec wf cfg h hr.clean
  obtain ⟨g, nm, e2, _, _⟩ := emit_ok wf pf cfg zero (names := h.names)
    (fun n hr _ => Or.inl (hn n hr))
  refine ⟨g, ?_⟩
  have key : ∀ k (h1 : HState), Ready h1 → NamesOk G indeps deps p h1.names →
      generateRepeatedly G fuel cfg zero indeps deps k h1 = .ok (List.replicate k g) := by
    intro k
    induction k with
    | zero => intro h1 _ _; rfl
    | succ k ih =>
      intro h1 hr1 ok1
      have e1 := e
      rw [plan_ready cfg h hr, ← plan_ready cfg h1 hr1] at e1
      have ok0 : NamesOk G indeps deps p h.names := fun n hr _ => Or.inl (hn n hr)
      obtain ⟨m', e3⟩ := emit_congr cfg zero p h.names h1.names
        ((emitName_eq wf pf ok0).trans (emitName_eq wf pf ok1).symm) e2
      have ok2 := emit_names wf pf cfg zero ok1 e3
      unfold generateRepeatedly
      simp only [generateCode, e1, e3]
      rw [ih _ (Or.inl rfl) ok2]
      rfl
  intro k
  exact key k h hr (fun n hr _ => Or.inl (hn n hr))

/-- C12, where it fails: the names given by a first generation stay on the nodes. After generating
`(3, 5)`, generating `(5, 3)` still writes the value of 3 to `y[0]` and of 5 to `y[1]`. -/
theorem permuted_dependents_counterexample :
    ∃ g1 h1 g2 h2, generateCode exG 12 exCfg 0 [0, 1] [.node 3, .node 5] .fresh = .ok (g1, h1) ∧
      generateCode exG 12 exCfg 0 [0, 1] [.node 5, .node 3] h1 = .ok (g2, h2) ∧ g2.prog = g1.prog ∧
      g1.prog = [.assign (.v 0) (.mul (.var (.x 0)) (.var (.x 1))),
        .assign (.y 0) (.add (.var (.v 0)) (.var (.x 0))),
        .assign (.y 1) (.div (.var (.y 0)) (.un .sin (.var (.v 0))))] :=
  ⟨_, _, _, _, rfl, rfl, by decide, by decide⟩

/-- 3 = sign(sin x0), 4 = sign(cos x0), 5 = 3 + 4 -/
def signG : Graph Int := fun n => match n with
  | 1 => ⟨.un .sin, [.node 0]⟩
  | 2 => ⟨.un .cos, [.node 0]⟩
  | 3 => ⟨.sign, [.node 1]⟩
  | 4 => ⟨.sign, [.node 2]⟩
  | 5 => ⟨.add, [.node 3, .node 4]⟩
  | _ => ⟨.inv, []⟩

/-- C12/C07, where it fails: a temporary variable used once keeps the name of an earlier generation,
so that two live temporaries share one variable: `v0 = sin x0; v0 = cos x0; y0 = sgn v0 + sgn v0`. -/
theorem stale_temporary_name_counterexample :
    ∃ g1 h1 g2 h2, generateCode signG 12 exCfg 0 [0] [.node 4] .fresh = .ok (g1, h1) ∧
      generateCode signG 12 exCfg 0 [0] [.node 5] h1 = .ok (g2, h2) ∧
      g2.prog = [.assign (.v 0) (.un .sin (.var (.x 0))),
        .assign (.v 0) (.un .cos (.var (.x 0))),
        .assign (.y 0) (.add (.sgn (.v 0)) (.sgn (.v 0)))] :=
  ⟨_, _, _, _, rfl, rfl, by decide⟩

/-- C08, where it fails: with the name left by an earlier generation, the program writes `v[1]` although one
temporary variable is declared: `v[1] = cos x0; y0 = sgn v[1]`. -/
theorem temporaries_declared_counterexample :
    ∃ g1 h1 g2 h2, generateCode signG 12 exCfg 0 [0] [.node 5] .fresh = .ok (g1, h1) ∧
      generateCode signG 12 exCfg 0 [0] [.node 4] h1 = .ok (g2, h2) ∧
      g2.prog = [.assign (.v 1) (.un .cos (.var (.x 0))), .assign (.y 0) (.sgn (.v 1))] ∧ g2.tempCount = 1 :=
  ⟨_, _, _, _, rfl, rfl, by decide, by decide⟩

/-- 1 = sin x0, 2 = 1*1, 3 = 1 + 2 -/
def resetG : Graph Int := fun n => match n with
  | 1 => ⟨.un .sin, [.node 0]⟩
  | 2 => ⟨.mul, [.node 1, .node 1]⟩
  | 3 => ⟨.add, [.node 1, .node 2]⟩
  | _ => ⟨.inv, []⟩

/-- C12, where it fails: `reset()` does not clear the per-node data and marks the handler as unused.
After generating `sin x0` and a reset, `y0 = sin² x0, y1 = sin x0 + y0` is generated with `sin x0`
stored in `y0` and overwritten before its last use. -/
theorem reset_counterexample :
    ∃ g1 h1 g2 h2, generateCode resetG 12 { exCfg with reuse := false } 0 [0] [.node 1] .fresh = .ok (g1, h1) ∧
      generateCode resetG 12 { exCfg with reuse := false } 0 [0] [.node 2, .node 3] h1.reset = .ok (g2, h2) ∧
      g2.prog = [.assign (.y 0) (.un .sin (.var (.x 0))),
        .assign (.y 0) (.mul (.var (.y 0)) (.var (.y 0))),
        .assign (.y 1) (.add (.var (.y 0)) (.var (.y 0)))] :=
  ⟨_, _, _, _, rfl, rfl, by decide⟩

end Verif.Codegen
