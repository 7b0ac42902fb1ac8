import Verif.Codegen.LemmasEmit
/- Running the generated function. -/
namespace Verif.Codegen
variable {α : Type}

/-- a successful run, with the values assigned -/
inductive Runs (I : Interp α) : Env α → List (Stmt α) → List α → Env α → Prop
  | nil {env : Env α} : Runs I env [] [] env
  | cons {env env' : Env α} {s : Stmt α} {ss : List (Stmt α)} {v : α} {vs : List α} :
      s.exec I env = some (env.set s.lhs v) → Runs I (env.set s.lhs v) ss vs env' →
      Runs I env (s :: ss) (v :: vs) env'

theorem Runs.execAll {I : Interp α} {env env' : Env α} {ss : List (Stmt α)} {vs : List α}
    (h : Runs I env ss vs env') : execAll I env ss = some env' := by
  induction h with
  | nil => rfl
  | cons h1 _ ih => simp [Codegen.execAll, h1, ih]

theorem Runs.trace {I : Interp α} {env env' : Env α} {ss : List (Stmt α)} {vs : List α}
    (h : Runs I env ss vs env') : execTrace I env ss = some vs := by
  induction h with
  | nil => rfl
  | cons h1 _ ih => simp [execTrace, h1, ih, Env.set]

theorem Runs.append {I : Interp α} {e1 e2 e3 : Env α} {a b : List (Stmt α)} {va vb : List α}
    (h1 : Runs I e1 a va e2) (h2 : Runs I e2 b vb e3) : Runs I e1 (a ++ b) (va ++ vb) e3 := by
  induction h1 with
  | nil => exact h2
  | cons h _ ih => exact .cons h (ih h2)

theorem Runs.frame {I : Interp α} {env env' : Env α} {ss : List (Stmt α)} {vs : List α}
    (h : Runs I env ss vs env') (nm : Name) (hn : ∀ s ∈ ss, s.lhs ≠ nm) : env' nm = env nm := by
  induction h with
  | nil => rfl
  | cons _ _ ih =>
    rename_i env env' s ss v vs _ _
    rw [ih (fun s hs => hn s (List.mem_cons_of_mem _ hs))]
    have : nm ≠ s.lhs := fun h => hn s (by simp) h.symm
    simp [Env.set, this]

section
variable [DecidableEq α] {G : Graph α} {rank : Nat → Nat} {fuel : Nat} {indeps : List Nat}
  {deps : List (Arg α)} {p : Plan} {I : Interp α} {x val : Nat → α}

/-- contents of the variables before statement `i` -/
structure SimInv (indeps : List Nat) (deps : List (Arg α)) (p : Plan) (x val : Nat → α) (i : Nat)
    (env : Env α) : Prop where
  inp : ∀ j, j < indeps.length → env (.x j) = some (x j)
  var : ∀ j q, j < i → p.queue[j]? = some q →
    (∀ k b, j < k → k < i → p.queue[k]? = some b →
      nameFor indeps deps p b ≠ nameFor indeps deps p q) →
    env (nameFor indeps deps p q) = some (val q)

theorem nameFor_queue (wf : WF G rank fuel indeps deps) (pf : PlanFacts G indeps deps p) {q : Nat}
    (hq : q ∈ p.queue) (j : Nat) : nameFor indeps deps p q ≠ .x j := by
  have hi : q ∉ indeps := fun h => pf.qop q hq (wf.indeps_inv q h)
  unfold nameFor
  rw [if_neg hi]
  split <;> simp

theorem nameFor_indep (wf : WF G rank fuel indeps deps) {t : Nat} (hr : Reach G (argNodes deps) t)
    (hi : (G t).op = .inv) : nameFor indeps deps p t = .x (indeps.idxOf t) ∧
      indeps.idxOf t < indeps.length ∧ indeps[indeps.idxOf t]? = some t := by
  have hin := wf.declared t hr hi
  have hl := List.idxOf_lt_length_of_mem hin
  refine ⟨by simp [nameFor, hin], hl, ?_⟩
  rw [List.getElem?_eq_getElem hl, List.getElem_idxOf]

/-- the variables read by a statement hold the right values when it is executed -/
theorem SimInv.read (wf : WF G rank fuel indeps deps) (pf : PlanFacts G indeps deps p)
    (hval : IsValuation I G indeps (argNodes deps) x val) {i q : Nat} {env : Env α}
    (hq : p.queue[i]? = some q) (h : SimInv indeps deps p x val i env) (t : Nat)
    (ht : Reads G p.vid q t) : env (nameFor indeps deps p t) = some (val t) := by
  have hqr := pf.qreach q (List.mem_of_getElem? hq)
  have htr : Reach G (argNodes deps) t := by
    obtain ⟨a, ha, hl⟩ := ht
    have : ∀ a t, Leaf G p.vid a t → Reach G (argNodes deps) a → Reach G (argNodes deps) t := by
      intro a t hl
      induction hl with
      | self _ => exact fun h => h
      | step _ hk _ ih => exact fun h => ih (.kid h hk)
    exact this a t hl (.kid hqr ha)
  rcases pf.order i q t hq ht with hi | hm
  · obtain ⟨e, hl, hg⟩ := nameFor_indep (p := p) wf htr hi
    rw [e, h.inp _ hl, hval.1 _ _ hg]
  · obtain ⟨j, hj, e⟩ := List.mem_take_iff_getElem.1 hm
    have hjt : p.queue[j]? = some t := by rw [List.getElem?_eq_getElem (by omega), e]
    apply h.var j t (by omega) hjt
    intro k b hjk hki hkb hname
    have hbt : b ≠ t := by
      rintro rfl
      have : j = k := (List.getElem?_inj (List.getElem?_eq_some_iff.1 hjt).1 pf.nodup).1
        (hjt.trans hkb.symm)
      omega
    obtain ⟨h1, h2, h3⟩ := nameFor_clash wf pf (List.mem_of_getElem? hkb)
      (List.mem_of_getElem? hjt) hbt hname
    have := pf.clash j k t b hjt hkb h2 h1 hjk h3.symm i q hq ht
    omega

theorem SimInv.next (wf : WF G rank fuel indeps deps) (pf : PlanFacts G indeps deps p) {i q : Nat}
    {env : Env α} (hq : p.queue[i]? = some q) (h : SimInv indeps deps p x val i env) :
    SimInv indeps deps p x val (i + 1) (env.set (nameFor indeps deps p q) (val q)) := by
  refine ⟨?_, ?_⟩
  · intro j hj
    have := nameFor_queue (indeps := indeps) wf pf (List.mem_of_getElem? hq) j
    simp only [Env.set]
    rw [if_neg (fun h => this h.symm)]
    exact h.inp j hj
  · intro j a hj ha hk
    simp only [Env.set]
    by_cases hji : j = i
    · subst hji
      have : a = q := by rw [hq] at ha; exact (Option.some.inj ha).symm
      subst this; simp
    · rw [if_neg (fun e => hk i q (by omega) (by omega) hq e.symm)]
      exact h.var j a (by omega) ha (fun k b h1 h2 => hk k b h1 (by omega))

theorem sim_body (wf : WF G rank fuel indeps deps) (pf : PlanFacts G indeps deps p)
    (hval : IsValuation I G indeps (argNodes deps) x val) :
    ∀ (l : List Nat) (ss : List (Stmt α)) (i : Nat) (env : Env α), p.queue.drop i = l →
      i ≤ p.queue.length → List.Forall₂ (StmtOk G indeps deps p) l ss →
      SimInv indeps deps p x val i env →
      ∃ env', Runs I env ss (l.map val) env' ∧ SimInv indeps deps p x val p.queue.length env' := by
  intro l ss i env hl hi hf h
  induction hf generalizing i env with
  | nil =>
    refine ⟨env, .nil, ?_⟩
    have : i = p.queue.length := by rw [List.drop_eq_nil_iff] at hl; omega
    subst this; exact h
  | cons hs _ ih =>
    rename_i q s l ss _
    have hi : i < p.queue.length := by
      apply Classical.byContradiction
      intro hge
      rw [List.drop_eq_nil_of_le (by omega)] at hl; cases hl
    have hdrop := List.drop_eq_getElem_cons hi
    rw [hl] at hdrop
    obtain ⟨hqe, hle⟩ := List.cons.inj hdrop
    have hqi : p.queue[i]? = some q := by rw [List.getElem?_eq_getElem hi, hqe]
    have hex := hs.exec I x val hval env (fun t ht => h.read wf pf hval hqi t ht)
    obtain ⟨env', hr, hinv⟩ := ih (i + 1) _ hle.symm (by omega) (h.next wf pf hqi)
    rw [← hs.lhs] at hex hr
    exact ⟨env', .cons hex hr, hinv⟩

/-- value of dependent number `i` -/
def depVal [Inhabited α] (deps : List (Arg α)) (val : Nat → α) (i : Nat) : α :=
  match deps[i]? with
  | some d => argVal val d
  | none => default

theorem sim_tail [Inhabited α] (wf : WF G rank fuel indeps deps) (pf : PlanFacts G indeps deps p)
    (hval : IsValuation I G indeps (argNodes deps) x val) :
    ∀ (l : List Nat) (ss : List (Stmt α)) (env : Env α) (W : Nat → Prop),
      List.Forall₂ (TailOk G indeps deps p) l ss →
      (∀ j, j < indeps.length → env (.x j) = some (x j)) →
      (∀ i, W i → env (.y i) = some (depVal deps val i)) →
      (∀ n ∈ argNodes deps, (G n).op ≠ .inv → W (deps.idxOf (.node n))) →
      ∃ env', Runs I env ss (l.map (depVal deps val)) env' ∧
        (∀ j, j < indeps.length → env' (.x j) = some (x j)) ∧
        (∀ i, (W i ∨ i ∈ l) → env' (.y i) = some (depVal deps val i)) := by
  intro l ss env W hf
  induction hf generalizing env W with
  | nil =>
    intro h1 h2 _
    refine ⟨env, .nil, h1, ?_⟩
    intro i hi
    rcases hi with hi | hi
    · exact h2 i hi
    · simp at hi
  | cons hs _ ih =>
    rename_i i s l ss _
    intro h1 h2 h3
    have hlhs : s.lhs = .y i := by cases hs <;> rfl
    have hex : s.exec I env = some (env.set s.lhs (depVal deps val i)) := by
      cases hs with
      | const hd => simp [Stmt.exec, Expr.eval, Stmt.lhs, depVal, hd, argVal]
      | copy hd hv =>
        rename_i n
        have hnr : n ∈ argNodes deps := mem_argNodes.2 (List.mem_of_getElem? hd)
        have : env (nameFor indeps deps p n) = some (val n) := by
          rcases pf.var n (.root hnr) hv with hi | hq
          · obtain ⟨e, hl, hg⟩ := nameFor_indep (p := p) wf (.root hnr) hi
            rw [e, h1 _ hl, hval.1 _ _ hg]
          · have hni : n ∉ indeps := fun h => pf.qop n hq (wf.indeps_inv n h)
            have hmem := mem_argNodes.1 hnr
            have hl := List.idxOf_lt_length_of_mem hmem
            have := h2 _ (h3 n hnr (pf.qop n hq))
            simp only [nameFor, hni, hnr, if_true, if_false]
            rw [this]
            simp [depVal, List.getElem?_eq_getElem hl, List.getElem_idxOf, argVal]
        simp [Stmt.exec, Expr.eval, Stmt.lhs, depVal, hd, argVal, this]
    obtain ⟨env', hr, e1, e2⟩ := ih (env.set s.lhs (depVal deps val i)) (fun k => W k ∨ k = i)
      (by intro j hj; simp [Env.set, hlhs, h1 j hj])
      (by intro k hk
          simp only [Env.set, hlhs, Name.y.injEq]
          split
          · rename_i e; subst e; rfl
          · rename_i hne
            rcases hk with hk | hk
            · exact h2 k hk
            · exact absurd hk hne)
      (fun n hn hop => Or.inl (h3 n hn hop))
    refine ⟨env', .cons hex hr, e1, ?_⟩
    intro k hk
    apply e2
    rcases hk with hk | hk
    · exact Or.inl (Or.inl hk)
    · rcases List.mem_cons.1 hk with rfl | hk
      · exact Or.inl (Or.inr rfl)
      · exact Or.inr hk

theorem run_zeros (zero : α) : ∀ (is : List Nat) (env : Env α), ∃ env',
    Runs I env (is.map (fun i => Stmt.assign (.y i) (.const zero))) (is.map fun _ => zero) env' ∧
    (∀ i ∈ is, env' (.y i) = some zero) ∧
    (∀ nm, (∀ i ∈ is, nm ≠ .y i) → env' nm = env nm) := by
  intro is
  induction is with
  | nil => intro env; exact ⟨env, .nil, by simp, by simp⟩
  | cons i is ih =>
    intro env
    obtain ⟨env', h1, h2, h3⟩ := ih (env.set (.y i) zero)
    refine ⟨env', .cons (by simp [Stmt.exec, Expr.eval, Stmt.lhs]) h1, ?_, ?_⟩
    · intro k hk
      by_cases hki : k ∈ is
      · exact h2 k hki
      · rcases List.mem_cons.1 hk with rfl | hk
        · rw [h3]
          · simp [Env.set]
          · rintro j hj he
            simp only [Name.y.injEq] at he
            subst he; exact hki hj
        · exact absurd hk hki
    · intro nm hnm
      rw [h3 nm (fun j hj => hnm j (List.mem_cons_of_mem _ hj))]
      simp [Env.set, hnm i (by simp)]

/-- which dependents are certainly assigned -/
def Assigned (G : Graph α) (deps : List (Arg α)) (cfg : Cfg) (zero : α) (d : Arg α) : Prop :=
  cfg.ignoreZero = false ∨ d ≠ .param zero ∨
    (cfg.zeroDeps = true ∧ ∃ n ∈ argNodes deps, (G n).op ≠ .inv)

theorem nameFor_y {n : Nat} (hn : n ∈ p.queue) (wf : WF G rank fuel indeps deps)
    (pf : PlanFacts G indeps deps p) {i : Nat} (h : nameFor indeps deps p n = .y i) :
    n ∈ argNodes deps ∧ deps.idxOf (.node n) = i ∧ deps[i]? = some (.node n) := by
  have hi : n ∉ indeps := fun h => pf.qop n hn (wf.indeps_inv n h)
  unfold nameFor at h
  rw [if_neg hi] at h
  split at h
  · rename_i hd
    simp only [Name.y.injEq] at h
    have hl := List.idxOf_lt_length_of_mem (mem_argNodes.1 hd)
    subst h
    exact ⟨hd, rfl, by rw [List.getElem?_eq_getElem hl, List.getElem_idxOf]⟩
  · cases h

theorem forall₂_mem {β γ : Type} {R : β → γ → Prop} {l : List β} {m : List γ}
    (h : List.Forall₂ R l m) : ∀ c ∈ m, ∃ b ∈ l, R b c := by
  induction h with
  | nil => simp
  | cons hr _ ih =>
    intro c hc
    rcases List.mem_cons.1 hc with rfl | hc
    · exact ⟨_, by simp, hr⟩
    · obtain ⟨b, hb, h⟩ := ih c hc
      exact ⟨b, List.mem_cons_of_mem _ hb, h⟩

theorem sim [Inhabited α] (wf : WF G rank fuel indeps deps) (pf : PlanFacts G indeps deps p) (cfg : Cfg)
    (zero : α) {prog : List (Stmt α)} (ok : EmitOk G indeps deps cfg zero p prog)
    (hval : IsValuation I G indeps (argNodes deps) x val) :
    ∃ (env' : Env α) (ds cs : List Nat), Runs I (entryEnv indeps.length x) prog
        ((if cfg.zeroDeps && !p.queue.isEmpty then (List.range deps.length).map (fun _ => zero)
          else []) ++ (p.queue.map val ++ (ds.map (depVal deps val) ++ cs.map (depVal deps val))))
        env' ∧
      ds.Pairwise (· < ·) ∧ cs.Pairwise (· < ·) ∧
      (∀ k, k ∈ ds ↔ ∃ n, deps[k]? = some (.node n) ∧ (G n).op ≠ .inv ∧ deps.idxOf (.node n) < k) ∧
      (∀ k, k ∈ cs ↔ ((∃ v, deps[k]? = some (.param v) ∧ (cfg.ignoreZero = true → v ≠ zero)) ∨
        (∃ n, deps[k]? = some (.node n) ∧ (G n).op = .inv))) ∧
      (∀ j, j < indeps.length → env' (.x j) = some (x j)) ∧
      (∀ i d, deps[i]? = some d → Assigned G deps cfg zero d → env' (.y i) = some (argVal val d)) := by
  obtain ⟨body, dups, consts, ds, cs, hprog, hb, hd, hc, pd, pc, md, mc⟩ := ok.pieces
  -- initial zeros
  have hz : ∃ env0, Runs I (entryEnv indeps.length x)
      (if cfg.zeroDeps && !p.queue.isEmpty then
        (List.range deps.length).map (fun i => Stmt.assign (.y i) (.const zero)) else [])
      (if cfg.zeroDeps && !p.queue.isEmpty then (List.range deps.length).map (fun _ => zero) else [])
      env0 ∧ (∀ j, j < indeps.length → env0 (.x j) = some (x j)) ∧
      ((cfg.zeroDeps && !p.queue.isEmpty) = true → ∀ i, i < deps.length → env0 (.y i) = some zero) := by
    split
    · rename_i hzd
      obtain ⟨env0, h1, h2, h3⟩ := run_zeros (I := I) zero (List.range deps.length)
        (entryEnv indeps.length x)
      refine ⟨env0, h1, ?_, ?_⟩
      · intro j hj
        rw [h3 _ (by simp)]
        simp [entryEnv, hj]
      · intro _ i hi
        exact h2 i (by simpa using hi)
    · rename_i hzd
      exact ⟨_, .nil, fun j hj => by simp [entryEnv, hj], fun h => absurd h hzd⟩
  obtain ⟨env0, r0, x0, y0⟩ := hz
  obtain ⟨env1, r1, s1⟩ := sim_body (I := I) (x := x) wf pf hval p.queue body 0 env0 (by simp)
    (by omega) hb ⟨x0, by intro j q hj; omega⟩
  -- dependents computed by the operations
  have hdep : ∀ n ∈ argNodes deps, (G n).op ≠ .inv →
      env1 (.y (deps.idxOf (.node n))) = some (val n) := by
    intro n hn hop
    have hq := pf.root n hn hop
    obtain ⟨j, hj⟩ := List.mem_iff_getElem?.1 hq
    have hi : n ∉ indeps := fun h => pf.qop n hq (wf.indeps_inv n h)
    have := s1.var j n (List.getElem?_eq_some_iff.1 hj).1 hj (by
      intro k b hjk hkl hkb hname
      have hbn : b ≠ n := by
        rintro rfl
        have : j = k := (List.getElem?_inj (List.getElem?_eq_some_iff.1 hj).1 pf.nodup).1
          (hj.trans hkb.symm)
        omega
      exact (nameFor_clash wf pf (List.mem_of_getElem? hkb) hq hbn hname).2.1 hn)
    simpa [nameFor, hi, hn] using this
  -- zero constants keep their initial value
  have hzero : (cfg.zeroDeps && !p.queue.isEmpty) = true → ∀ i, deps[i]? = some (.param zero) →
      env1 (.y i) = some zero := by
    intro hzd i hi
    rw [r1.frame (.y i), y0 hzd i (List.getElem?_eq_some_iff.1 hi).1]
    intro s hs he
    obtain ⟨q, hq, hok⟩ := forall₂_mem hb s hs
    rw [hok.lhs] at he
    have := (nameFor_y hq wf pf he).2.2
    rw [hi] at this; simp at this
  let W : Nat → Prop := fun i => (∃ n ∈ argNodes deps, (G n).op ≠ .inv ∧ i = deps.idxOf (.node n)) ∨
    ((cfg.zeroDeps && !p.queue.isEmpty) = true ∧ deps[i]? = some (.param zero))
  have hW : ∀ i, W i → env1 (.y i) = some (depVal deps val i) := by
    rintro i (⟨n, hn, hop, rfl⟩ | ⟨hzd, hi⟩)
    · rw [hdep n hn hop]
      have hl := List.idxOf_lt_length_of_mem (mem_argNodes.1 hn)
      simp [depVal, List.getElem?_eq_getElem hl, List.getElem_idxOf, argVal]
    · rw [hzero hzd i hi]
      simp [depVal, hi, argVal]
  obtain ⟨env2, r2, x2, y2⟩ := sim_tail (I := I) wf pf hval ds dups env1 W hd s1.inp hW
    (fun n hn hop => Or.inl ⟨n, hn, hop, rfl⟩)
  obtain ⟨env3, r3, x3, y3⟩ := sim_tail (I := I) wf pf hval cs consts env2 (fun i => W i ∨ i ∈ ds) hc x2 y2
    (fun n hn hop => Or.inl (Or.inl ⟨n, hn, hop, rfl⟩))
  refine ⟨env3, ds, cs, ?_, pd, pc, md, mc, x3, ?_⟩
  · rw [hprog]
    exact r0.append (r1.append (r2.append r3))
  · intro i d hi has
    have hdv : depVal deps val i = argVal val d := by simp [depVal, hi]
    rw [← hdv]
    apply y3
    cases d with
    | param v =>
      by_cases hv : cfg.ignoreZero = true → v ≠ zero
      · right; rw [mc]; exact Or.inl ⟨v, hi, hv⟩
      · left; left; right
        have hv1 : cfg.ignoreZero = true := by
          apply Classical.byContradiction; intro h; exact hv (fun h' => absurd h' h)
        have hv2 : v = zero := by
          apply Classical.byContradiction; intro h; exact hv (fun _ => h)
        subst hv2
        rcases has with h | h | ⟨h, n, hn, hop⟩
        · rw [hv1] at h; cases h
        · exact absurd rfl h
        · refine ⟨?_, hi⟩
          have hq := pf.root n hn hop
          have : p.queue.isEmpty = false := by
            cases hqq : p.queue with
            | nil => rw [hqq] at hq; simp at hq
            | cons _ _ => rfl
          simp [h, this]
    | node n =>
      have hn : n ∈ argNodes deps := mem_argNodes.2 (List.mem_of_getElem? hi)
      by_cases hop : (G n).op = .inv
      · right; rw [mc]; exact Or.inr ⟨n, hi, hop⟩
      · left
        by_cases hidx : deps.idxOf (.node n) = i
        · left; left; exact ⟨n, hn, hop, hidx.symm⟩
        · right
          rw [md]
          refine ⟨n, hi, hop, ?_⟩
          have hle : deps.idxOf (.node n) < i + 1 := by
            rw [← List.mem_take_iff_idxOf_lt (mem_argNodes.1 hn)]
            rw [List.mem_take_iff_getElem]
            obtain ⟨hl, he⟩ := List.getElem?_eq_some_iff.1 hi
            exact ⟨i, by omega, he⟩
          omega

/-! ### static facts -/

theorem prog_static (wf : WF G rank fuel indeps deps) (pf : PlanFacts G indeps deps p) (cfg : Cfg)
    (zero : α) {prog : List (Stmt α)} (ok : EmitOk G indeps deps cfg zero p prog) :
    DefBeforeUse indeps.length [] prog ∧
    (∀ s ∈ prog, ∀ i, s.lhs ≠ .x i) ∧
    (∀ s ∈ prog, ∀ i, s.lhs = .y i → i < deps.length) ∧
    (∀ s ∈ prog, ∀ k, (s.lhs = .v k ∨ .v k ∈ s.reads) → k < p.idCount - p.minTemp) := by
  obtain ⟨body, dups, consts, ds, cs, hprog, hb, hd, hc, pd, pc, md, mc⟩ := ok.pieces
  have hreach : ∀ q t, Reads G p.vid q t → Reach G (argNodes deps) q →
      Reach G (argNodes deps) t ∧ p.vid t ≠ 0 := by
    rintro q t ⟨a, ha, hl⟩ hq
    have : ∀ a t, Leaf G p.vid a t → Reach G (argNodes deps) a →
        Reach G (argNodes deps) t ∧ p.vid t ≠ 0 := by
      intro a t hl
      induction hl with
      | self hv => exact fun h => ⟨h, hv⟩
      | step _ hk _ ih => exact fun h => ih (.kid h hk)
    exact this a t hl (.kid hq ha)
  -- the names variables can have
  have hkinds : ∀ t, Reach G (argNodes deps) t → p.vid t ≠ 0 → ∀ k,
      nameFor indeps deps p t = .v k → k < p.idCount - p.minTemp := by
    intro t ht hv k hk
    rcases pf.var t ht hv with h | h
    · rw [(nameFor_indep (p := p) wf ht h).1] at hk; cases hk
    · have hi : t ∉ indeps := fun h' => pf.qop t h (wf.indeps_inv t h')
      unfold nameFor at hk
      rw [if_neg hi] at hk
      split at hk
      · cases hk
      · rename_i hnd
        have := pf.temp t h hnd
        simp only [Name.v.injEq] at hk
        omega
  have hzeros : ∀ s ∈ (if cfg.zeroDeps && !p.queue.isEmpty then
      (List.range deps.length).map (fun i => (Stmt.assign (.y i) (.const zero) : Stmt α)) else []),
      s.reads = [] ∧ ∃ i, i < deps.length ∧ s.lhs = .y i := by
    intro s hs
    split at hs
    · obtain ⟨i, hi, rfl⟩ := List.mem_map.1 hs
      exact ⟨rfl, i, by simpa using hi, rfl⟩
    · simp at hs
  have htail : ∀ i s, TailOk G indeps deps p i s → s.lhs = .y i ∧ i < deps.length ∧
      ∀ r ∈ s.reads, ∃ n ∈ argNodes deps, p.vid n ≠ 0 ∧ r = nameFor indeps deps p n := by
    intro i s h
    cases h with
    | const h => exact ⟨rfl, (List.getElem?_eq_some_iff.1 h).1, by simp [Stmt.reads, Expr.reads]⟩
    | copy h hv =>
      refine ⟨rfl, (List.getElem?_eq_some_iff.1 h).1, ?_⟩
      intro r hr
      simp only [Stmt.reads, Expr.reads, List.mem_singleton] at hr
      exact ⟨_, mem_argNodes.2 (List.mem_of_getElem? h), hv, hr⟩
  -- body: every prefix defines the names of the nodes before
  have hbody : ∀ (l : List Nat) (ss : List (Stmt α)) (i : Nat) (defs : List Name),
      p.queue.drop i = l → List.Forall₂ (StmtOk G indeps deps p) l ss →
      (∀ q ∈ p.queue.take i, nameFor indeps deps p q ∈ defs) →
      DefBeforeUse indeps.length defs ss ∧
        (ss.map Stmt.lhs) = l.map (nameFor indeps deps p) := by
    intro l ss i defs hl hf
    induction hf generalizing i defs with
    | nil => intro _; exact ⟨trivial, rfl⟩
    | cons hs _ ih =>
      rename_i q s l ss _
      intro hdefs
      have hi : i < p.queue.length := by
        apply Classical.byContradiction
        intro hge
        rw [List.drop_eq_nil_of_le (by omega)] at hl; cases hl
      have hdrop := List.drop_eq_getElem_cons hi
      rw [hl] at hdrop
      obtain ⟨hqe, hle⟩ := List.cons.inj hdrop
      have hqi : p.queue[i]? = some q := by rw [List.getElem?_eq_getElem hi, hqe]
      have hqr := pf.qreach q (List.mem_of_getElem? hqi)
      obtain ⟨h1, h2⟩ := ih (i + 1) (s.lhs :: defs) hle.symm (by
        intro b hb
        rw [List.take_succ_eq_append_getElem hi, List.mem_append, List.mem_singleton] at hb
        rcases hb with hb | hb
        · exact List.mem_cons_of_mem _ (hdefs b hb)
        · rw [hb, ← hqe, hs.lhs]; simp)
      refine ⟨⟨?_, h1⟩, by simp [hs.lhs, h2]⟩
      intro r hr
      obtain ⟨t, ht, e⟩ := hs.reads r hr
      obtain ⟨htr, _⟩ := hreach q t ht hqr
      rcases pf.order i q t hqi ht with h | h
      · obtain ⟨e', hl', _⟩ := nameFor_indep (p := p) wf htr h
        exact Or.inl ⟨_, hl', by rw [e, e']⟩
      · exact Or.inr (by rw [e]; exact hdefs t h)
  obtain ⟨hb1, hb2⟩ := hbody p.queue body 0 [] (by simp) hb (by simp)
  have htailread : ∀ i s, TailOk G indeps deps p i s → ∀ r ∈ s.reads,
      (∃ j, j < indeps.length ∧ r = .x j) ∨ r ∈ body.map Stmt.lhs := by
    intro i s h r hr
    obtain ⟨n, hn, hv, e⟩ := (htail i s h).2.2 r hr
    rcases pf.var n (.root hn) hv with h' | h'
    · obtain ⟨e', hl', _⟩ := nameFor_indep (p := p) wf (.root hn) h'
      exact Or.inl ⟨_, hl', by rw [e, e']⟩
    · right
      rw [hb2, e]
      exact List.mem_map_of_mem h'
  refine ⟨?_, ?_, ?_, ?_⟩
  · rw [hprog]
    apply DefBeforeUse.append
    · apply DefBeforeUse.of_all
      intro s hs r hr
      rw [(hzeros s hs).1] at hr; simp at hr
    · apply DefBeforeUse.append
      · exact hb1.mono _ _ _ (by simp)
      · apply DefBeforeUse.of_all
        intro s hs r hr
        have : ∃ i, TailOk G indeps deps p i s := by
          rcases List.mem_append.1 hs with h | h
          · obtain ⟨i, _, h⟩ := forall₂_mem hd s h; exact ⟨i, h⟩
          · obtain ⟨i, _, h⟩ := forall₂_mem hc s h; exact ⟨i, h⟩
        obtain ⟨i, hi⟩ := this
        rcases htailread i s hi r hr with h | h
        · exact Or.inl h
        · right
          rw [List.mem_append]
          left
          simpa using h
  all_goals
    intro s hs
    rw [hprog] at hs
    have hcases : (s.reads = [] ∧ ∃ i, i < deps.length ∧ s.lhs = .y i) ∨
        (∃ q ∈ p.queue, StmtOk G indeps deps p q s) ∨ ∃ i, TailOk G indeps deps p i s := by
      rcases List.mem_append.1 hs with h | h
      · exact Or.inl (hzeros s h)
      · rcases List.mem_append.1 h with h | h
        · exact Or.inr (Or.inl (forall₂_mem hb s h))
        · rcases List.mem_append.1 h with h | h
          · obtain ⟨i, _, h⟩ := forall₂_mem hd s h; exact Or.inr (Or.inr ⟨i, h⟩)
          · obtain ⟨i, _, h⟩ := forall₂_mem hc s h; exact Or.inr (Or.inr ⟨i, h⟩)
  · intro i he
    rcases hcases with ⟨_, k, _, h⟩ | ⟨q, hq, h⟩ | ⟨k, h⟩
    · rw [h] at he; cases he
    · rw [h.lhs] at he; exact nameFor_queue wf pf hq i he
    · rw [(htail k s h).1] at he; cases he
  · intro i he
    rcases hcases with ⟨_, k, hk, h⟩ | ⟨q, hq, h⟩ | ⟨k, h⟩
    · rw [h] at he; simp only [Name.y.injEq] at he; omega
    · rw [h.lhs] at he
      exact (List.getElem?_eq_some_iff.1 (nameFor_y hq wf pf he).2.2).1
    · have := htail k s h
      rw [this.1] at he; simp only [Name.y.injEq] at he; omega
  · intro k hk
    rcases hcases with ⟨hr, i, _, h⟩ | ⟨q, hq, h⟩ | ⟨i, h⟩
    · rw [h, hr] at hk; simp at hk
    · have hqr := pf.qreach q hq
      rcases hk with hk | hk
      · rw [h.lhs] at hk
        exact hkinds q hqr (pf.qvid q hq) k hk
      · obtain ⟨t, ht, e⟩ := h.reads _ hk
        obtain ⟨h1, h2⟩ := hreach q t ht hqr
        exact hkinds t h1 h2 k e.symm
    · obtain ⟨h1, _, h3⟩ := htail i s h
      rcases hk with hk | hk
      · rw [h1] at hk; cases hk
      · obtain ⟨n, hn, hv, e⟩ := h3 _ hk
        exact hkinds n (.root hn) hv k e.symm

/-- how often each dependent is assigned when there is no initialisation -/
theorem prog_once (wf : WF G rank fuel indeps deps) (pf : PlanFacts G indeps deps p) (cfg : Cfg)
    (zero : α) {prog : List (Stmt α)} (ok : EmitOk G indeps deps cfg zero p prog)
    (hz : cfg.zeroDeps = false) (i : Nat) (d : Arg α) (hi : deps[i]? = some d)
    (ha : cfg.ignoreZero = false ∨ d ≠ .param zero) : (prog.map Stmt.lhs).count (.y i) = 1 := by
  obtain ⟨body, dups, consts, ds, cs, hprog, hb, hd, hc, pd, pc, md, mc⟩ := ok.pieces
  have htl : ∀ (is : List Nat) (ss : List (Stmt α)), List.Forall₂ (TailOk G indeps deps p) is ss →
      ss.map Stmt.lhs = is.map Name.y := by
    intro is ss h
    induction h with
    | nil => rfl
    | cons h _ ih => simp only [List.map_cons, ih]; congr 1; cases h <;> rfl
  have hbl : ∀ (l : List Nat) (ss : List (Stmt α)), List.Forall₂ (StmtOk G indeps deps p) l ss →
      ss.map Stmt.lhs = l.map (nameFor indeps deps p) := by
    intro l ss h
    induction h with
    | nil => rfl
    | cons h _ ih => simp only [List.map_cons, ih, h.lhs]
  have hcy : ∀ (is : List Nat), is.Pairwise (· < ·) →
      (is.map Name.y).count (.y i) = if i ∈ is then 1 else 0 := by
    intro is hp
    have hnd : is.Nodup := hp.imp (fun h => Nat.ne_of_lt h)
    have : (is.map Name.y).count (.y i) = is.count i :=
      by
        rw [List.count_eq_countP, List.countP_map, List.count_eq_countP]
        apply List.countP_congr
        intro a _
        simp
    rw [this, hnd.count]
  have hnotboth : ¬ (i ∈ ds ∧ i ∈ cs) := by
    rintro ⟨h1, h2⟩
    obtain ⟨n, e, hop, _⟩ := (md i).1 h1
    rcases (mc i).1 h2 with ⟨v, e', _⟩ | ⟨m, e', hop'⟩
    · rw [e] at e'; simp at e'
    · rw [e] at e'
      simp only [Option.some.injEq, Arg.node.injEq] at e'
      subst e'; exact hop hop'
  -- statements of operations which write this dependent
  have hbody : (p.queue.map (nameFor indeps deps p)).count (.y i) =
      @ite _ (∃ n, d = .node n ∧ (G n).op ≠ .inv ∧ deps.idxOf (.node n) = i) (Classical.propDecidable _)
        1 0 := by
    rw [List.count_eq_countP, List.countP_map]
    split
    · rename_i h
      obtain ⟨n, rfl, hop, hidx⟩ := h
      have hn : n ∈ argNodes deps := mem_argNodes.2 (List.mem_of_getElem? hi)
      have hq := pf.root n hn hop
      have hni : n ∉ indeps := fun h => hop (wf.indeps_inv n h)
      have : p.queue.countP ((fun b => b == Name.y i) ∘ nameFor indeps deps p) = p.queue.count n := by
        rw [List.count_eq_countP]
        apply List.countP_congr
        intro q hq'
        simp only [Function.comp_apply, beq_iff_eq]
        constructor
        · intro h
          have := (nameFor_y hq' wf pf h).2.2
          rw [hi] at this; simpa using this.symm
        · rintro rfl
          simp [nameFor, hni, hn, hidx]
      rw [this, pf.nodup.count, if_pos hq]
    · rename_i h
      rw [List.countP_eq_zero]
      intro q hq hname
      simp only [Function.comp_apply, beq_iff_eq] at hname
      obtain ⟨h1, h2, h3⟩ := nameFor_y hq wf pf hname
      rw [hi] at h3
      exact h ⟨q, Option.some.inj h3, pf.qop q hq, h2⟩
  rw [hprog]
  simp only [hz, Bool.false_and, Bool.false_eq_true, if_false, List.nil_append, List.map_append,
    List.count_append, hbl _ _ hb, htl _ _ hd, htl _ _ hc, hcy ds pd, hcy cs pc, hbody]
  cases d with
  | param v =>
    have h1 : i ∉ ds := by
      rw [md]; rintro ⟨n, e, _⟩; rw [hi] at e; simp at e
    have h2 : i ∈ cs := by
      rw [mc]; left
      refine ⟨v, hi, ?_⟩
      rintro hig rfl
      rcases ha with h | h
      · rw [hig] at h; cases h
      · exact h rfl
    simp [h1, h2]
  | node n =>
    have hn : n ∈ argNodes deps := mem_argNodes.2 (List.mem_of_getElem? hi)
    by_cases hop : (G n).op = .inv
    · have h1 : i ∉ ds := by
        rw [md]; rintro ⟨m, e, hop', _⟩; rw [hi] at e
        simp only [Option.some.injEq, Arg.node.injEq] at e
        subst e; exact hop' hop
      have h2 : i ∈ cs := by rw [mc]; exact Or.inr ⟨n, hi, hop⟩
      have h3 : ¬ ∃ m, (Arg.node n : Arg α) = .node m ∧ (G m).op ≠ .inv ∧ deps.idxOf (.node m) = i := by
        rintro ⟨m, e, hop', _⟩
        simp only [Arg.node.injEq] at e
        subst e; exact hop' hop
      simp only [h1, h2, if_true, if_false, if_neg h3]
    · have h2 : i ∉ cs := by
        rw [mc]
        rintro (⟨v, e, _⟩ | ⟨m, e, hop'⟩)
        · rw [hi] at e; simp at e
        · rw [hi] at e
          simp only [Option.some.injEq, Arg.node.injEq] at e
          subst e; exact hop hop'
      have hle : deps.idxOf (.node n) < i + 1 := by
        rw [← List.mem_take_iff_idxOf_lt (mem_argNodes.1 hn)]
        rw [List.mem_take_iff_getElem]
        obtain ⟨hl, he⟩ := List.getElem?_eq_some_iff.1 hi
        exact ⟨i, by omega, he⟩
      by_cases hidx : deps.idxOf (.node n) = i
      · have h1 : i ∉ ds := by
          rw [md]; rintro ⟨m, e, _, hlt⟩; rw [hi] at e
          simp only [Option.some.injEq, Arg.node.injEq] at e
          subst e; omega
        have h3 : ∃ m, (Arg.node n : Arg α) = .node m ∧ (G m).op ≠ .inv ∧ deps.idxOf (.node m) = i :=
          ⟨n, rfl, hop, hidx⟩
        simp only [h1, h2, if_false, if_pos h3]
      · have h1 : i ∈ ds := by
          rw [md]; exact ⟨n, hi, hop, by omega⟩
        have h3 : ¬ ∃ m, (Arg.node n : Arg α) = .node m ∧ (G m).op ≠ .inv ∧
            deps.idxOf (.node m) = i := by
          rintro ⟨m, e, _, he⟩
          simp only [Arg.node.injEq] at e
          subst e; exact hidx he
        simp only [h1, h2, if_true, if_false, if_neg h3]

end
end Verif.Codegen
