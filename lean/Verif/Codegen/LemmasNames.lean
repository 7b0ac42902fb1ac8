import Verif.Codegen.LemmasPlan
/- Names of the variables. -/
namespace Verif.Codegen
variable {α : Type}

theorem nameIndeps_spec (vid : Nat → Nat) (ns : List Nat) : ∀ (nm : Nat → Option Name) (n : Nat),
    nameIndeps vid ns nm n =
      if nm n = none ∧ n ∈ ns then some (.x (vid n - 1)) else nm n := by
  induction ns with
  | nil => intro nm n; simp [nameIndeps]
  | cons a ns ih =>
    intro nm n
    unfold nameIndeps
    rw [ih]
    by_cases hna : n = a
    · subst hna
      by_cases hn : nm n = none
      · simp [hn]
      · simp [hn]
    · by_cases ha : nm a = none
      · simp [ha, hna]
      · simp [ha, hna]

theorem nameDeps_spec [DecidableEq α] (ds : List (Arg α)) : ∀ (i : Nat) (nm : Nat → Option Name)
    (n : Nat), nameDeps i ds nm n =
      if nm n = none ∧ Arg.node n ∈ ds then some (.y (i + ds.idxOf (.node n))) else nm n := by
  induction ds with
  | nil => intro i nm n; simp [nameDeps]
  | cons d ds ih =>
    intro i nm n
    cases d with
    | param v =>
      unfold nameDeps
      rw [ih]
      have hne : ¬ (Arg.param v = (Arg.node n : Arg α)) := by simp
      have hne' : ¬ ((Arg.node n : Arg α) = Arg.param v) := by simp
      simp only [List.mem_cons, hne', false_or]
      split
      · rw [List.idxOf_cons_ne _ hne]; congr 2; omega
      · rfl
    | node a =>
      unfold nameDeps
      rw [ih]
      by_cases hna : n = a
      · subst hna
        by_cases hn : nm n = none
        · simp [hn]
        · simp [hn]
      · have hne : ¬ ((Arg.node a : Arg α) = Arg.node n) := by simpa using fun h => hna h.symm
        have hnm : (if nm a = none then upd nm a (some (.y i)) else nm) n = nm n := by
          split
          · simp [hna]
          · rfl
        rw [hnm]
        simp only [List.mem_cons, Arg.node.injEq, hna, false_or]
        split
        · rw [List.idxOf_cons_ne _ hne]; congr 2; omega
        · rfl

theorem nameTemps_spec (G : Graph α) (cnt vid : Nat → Nat) (nIndep minTemp : Nat) (ns : List Nat) :
    ∀ (nm : Nat → Option Name) (n : Nat), nameTemps G cnt vid nIndep minTemp ns nm n =
      if n ∈ ns ∧ isDependent nIndep minTemp vid n = false ∧ requiresName G cnt n = true then
        some (.v (vid n - minTemp)) else nm n := by
  induction ns with
  | nil => intro nm n; simp [nameTemps]
  | cons a ns ih =>
    intro nm n
    unfold nameTemps
    rw [ih]
    by_cases hna : n = a
    · subst hna
      by_cases hd : isDependent nIndep minTemp vid n = false ∧ requiresName G cnt n = true
      · simp [hd.1, hd.2]
      · by_cases h1 : isDependent nIndep minTemp vid n = false
        · have h2 : requiresName G cnt n = false := by
            cases hh : requiresName G cnt n
            · rfl
            · exact absurd ⟨h1, hh⟩ hd
          simp [h2]
        · simp [h1]
    · have hnm : (if !isDependent nIndep minTemp vid a && requiresName G cnt a then
          upd nm a (some (Name.v (vid a - minTemp))) else nm) n = nm n := by
        split
        · simp [hna]
        · rfl
      rw [hnm]
      simp [hna]

section
variable [DecidableEq α] {G : Graph α} {rank : Nat → Nat} {fuel : Nat} {indeps : List Nat}
  {deps : List (Arg α)} {p : Plan}

/-- the name every variable must get -/
def nameFor (indeps : List Nat) (deps : List (Arg α)) (p : Plan) (n : Nat) : Name :=
  if n ∈ indeps then .x (indeps.idxOf n)
  else if n ∈ argNodes deps then .y (deps.idxOf (.node n))
  else .v (p.vid n - p.minTemp)

/-- the names left in the nodes by earlier generations do not disagree -/
def NamesOk (G : Graph α) (indeps : List Nat) (deps : List (Arg α)) (p : Plan)
    (names : Nat → Option Name) : Prop :=
  ∀ n, (n ∈ indeps ∨ Reach G (argNodes deps) n) → p.vid n ≠ 0 →
    names n = none ∨ names n = some (nameFor indeps deps p n)

/-- the naming function used when printing -/
def emitName (G : Graph α) (indeps : List Nat) (deps : List (Arg α)) (p : Plan)
    (names : Nat → Option Name) : Nat → Except Err Name :=
  varName (nameTemps G p.cnt p.vid indeps.length p.minTemp p.queue
    (nameDeps 0 deps (nameIndeps p.vid indeps names))) p.vid indeps.length p.minTemp
    (depIds G p.vid 0 deps [] []).1

theorem emitName_ok (wf : WF G rank fuel indeps deps) (pf : PlanFacts G indeps deps p)
    {names : Nat → Option Name} (hn : NamesOk G indeps deps p names) (n : Nat)
    (hr : Reach G (argNodes deps) n) (hv : p.vid n ≠ 0) :
    emitName G indeps deps p names n = .ok (nameFor indeps deps p n) := by
  unfold emitName varName
  rw [if_neg hv, nameTemps_spec, nameDeps_spec, nameIndeps_spec]
  have hnm := hn n (Or.inr hr) hv
  rcases pf.var n hr hv with hi | hq
  · -- an independent variable
    have hin := wf.declared n hr hi
    have hnq : n ∉ p.queue := fun h => pf.qop n h hi
    have hf : nameFor indeps deps p n = .x (p.vid n - 1) := by
      simp [nameFor, hin, pf.indep n hin]
    rcases hnm with h | h
    · simp [hnq, h, hin, hf]
    · simp [hnq, h]
  · have hnin : n ∉ indeps := fun h => pf.qop n hq (wf.indeps_inv n h)
    by_cases hd : n ∈ argNodes deps
    · have hb := pf.dep n hd hnin
      have hdep : isDependent indeps.length p.minTemp p.vid n = true := by
        simp [isDependent, hb.1, hb.2]
      have hmem : Arg.node n ∈ deps := mem_argNodes.1 hd
      have hf : nameFor indeps deps p n = .y (deps.idxOf (.node n)) := by
        simp [nameFor, hnin, hd]
      rcases hnm with h | h
      · simp [hdep, h, hnin, hmem, hf]
      · simp [hdep, h]
    · have hb := pf.temp n hq hd
      have hnd : Arg.node n ∉ deps := fun h => hd (mem_argNodes.2 h)
      have hf : nameFor indeps deps p n = .v (p.vid n - p.minTemp) := by
        simp [nameFor, hnin, hd]
      have hmt := pf.minTemp
      have h1 : ¬ p.vid n ≤ indeps.length := by omega
      have h2 : ¬ p.vid n < p.minTemp := by omega
      rcases hnm with h | h
      · by_cases hreq : isDependent indeps.length p.minTemp p.vid n = false ∧
            requiresName G p.cnt n = true
        · simp [hq, hreq, hf]
        · simp [hq, hreq, h, hnin, hnd, h1, h2, hf]
      · by_cases hreq : isDependent indeps.length p.minTemp p.vid n = false ∧
            requiresName G p.cnt n = true
        · simp [hq, hreq, hf]
        · simp [hq, hreq, h]

theorem emitName_indep (wf : WF G rank fuel indeps deps) (pf : PlanFacts G indeps deps p)
    {names : Nat → Option Name} (hn : NamesOk G indeps deps p names) (n : Nat) (hin : n ∈ indeps)
    (hv : p.vid n ≠ 0) : emitName G indeps deps p names n = .ok (nameFor indeps deps p n) := by
  unfold emitName varName
  rw [if_neg hv, nameTemps_spec, nameDeps_spec, nameIndeps_spec]
  have hnm := hn n (Or.inl hin) hv
  have hnq : n ∉ p.queue := fun h => pf.qop n h (wf.indeps_inv n hin)
  have hf : nameFor indeps deps p n = .x (p.vid n - 1) := by
    simp [nameFor, hin, pf.indep n hin]
  rcases hnm with h | h
  · simp [hnq, h, hin, hf]
  · simp [hnq, h]

/-- the names printed do not depend on the names left by earlier generations -/
theorem emitName_eq (wf : WF G rank fuel indeps deps) (pf : PlanFacts G indeps deps p)
    {names : Nat → Option Name} (hn : NamesOk G indeps deps p names) :
    emitName G indeps deps p names =
      fun n => if p.vid n = 0 then .error .ub else .ok (nameFor indeps deps p n) := by
  funext n
  by_cases hv : p.vid n = 0
  · simp [emitName, varName, hv]
  · simp only [hv, if_false]
    rcases pf.known n hv with h | h
    · exact emitName_indep wf pf hn n h hv
    · exact emitName_ok wf pf hn n h hv

/-- two different statements write the same variable only if it is a shared temporary -/
theorem nameFor_clash (wf : WF G rank fuel indeps deps) (pf : PlanFacts G indeps deps p) {a b : Nat}
    (ha : a ∈ p.queue) (hb : b ∈ p.queue) (hab : a ≠ b)
    (h : nameFor indeps deps p a = nameFor indeps deps p b) :
    a ∉ argNodes deps ∧ b ∉ argNodes deps ∧ p.vid a = p.vid b := by
  have ia : a ∉ indeps := fun h => pf.qop a ha (wf.indeps_inv a h)
  have ib : b ∉ indeps := fun h => pf.qop b hb (wf.indeps_inv b h)
  unfold nameFor at h
  rw [if_neg ia, if_neg ib] at h
  by_cases da : a ∈ argNodes deps <;> by_cases db : b ∈ argNodes deps
  · rw [if_pos da, if_pos db] at h
    have h' : deps.idxOf (.node a) = deps.idxOf (.node b) := by simpa using h
    have := (List.idxOf_inj (mem_argNodes.1 da)).1 h'
    simp only [Arg.node.injEq] at this
    exact absurd this hab
  · rw [if_pos da, if_neg db] at h; cases h
  · rw [if_neg da, if_pos db] at h; cases h
  · rw [if_neg da, if_neg db] at h
    have h' : p.vid a - p.minTemp = p.vid b - p.minTemp := by simpa using h
    have h1 := pf.temp a ha da
    have h2 := pf.temp b hb db
    exact ⟨da, db, by omega⟩

/-! ### expressions -/

/-- a printed expression is right: it only reads the variables in `S` and evaluates to `v` when they
hold their values -/
structure ExprOk (G : Graph α) (indeps : List Nat) (deps : List (Arg α)) (p : Plan) (e : Expr α)
    (S : Nat → Prop) (v : (Nat → α) → Interp α → α) : Prop where
  reads : ∀ r ∈ e.reads, ∃ t, S t ∧ r = nameFor indeps deps p t
  eval : ∀ (I : Interp α) (x val : Nat → α), IsValuation I G indeps (argNodes deps) x val →
    ∀ env : Env α, (∀ t, S t → env (nameFor indeps deps p t) = some (val t)) →
      e.eval I env = some (v val I)

/-- variables read through an argument -/
def ArgReads (G : Graph α) (vid : Nat → Nat) : Arg α → Nat → Prop
  | .param _, _ => False
  | .node n, t => Leaf G vid n t

theorem ExprOk.mono {e : Expr α} {S S' : Nat → Prop} {v : (Nat → α) → Interp α → α}
    (h : ExprOk G indeps deps p e S v) (hs : ∀ t, S t → S' t) : ExprOk G indeps deps p e S' v :=
  ⟨fun r hr => by obtain ⟨t, ht, e⟩ := h.reads r hr; exact ⟨t, hs t ht, e⟩,
   fun I x val hv env henv => h.eval I x val hv env (fun t ht => henv t (hs t ht))⟩

variable {nameOf : Nat → Except Err Name}

theorem argExpr_ok
    (hname : ∀ n, Reach G (argNodes deps) n → p.vid n ≠ 0 →
      nameOf n = .ok (nameFor indeps deps p n))
    {rec : Nat → Except Err (Expr α)} (a : Arg α)
    (hr : ∀ n, a = .node n → Reach G (argNodes deps) n)
    (hrec : ∀ n, a = .node n → p.vid n = 0 → ∃ e, rec n = .ok e ∧
      ExprOk G indeps deps p e (Reads G p.vid n) (fun val _ => val n)) :
    ∃ e, argExpr p.vid nameOf rec a = .ok e ∧
      ExprOk G indeps deps p e (ArgReads G p.vid a) (fun val _ => argVal val a) := by
  cases a with
  | param v =>
    exact ⟨.const v, rfl, by simp [Expr.reads], fun _ _ _ _ _ _ => rfl⟩
  | node n =>
    by_cases hv : p.vid n = 0
    · obtain ⟨e, he, hok⟩ := hrec n rfl hv
      refine ⟨e, by simp [argExpr, hv, he], ?_⟩
      apply hok.mono
      rintro t ⟨b, hb, hl⟩
      exact .step hv hb hl
    · refine ⟨.var (nameFor indeps deps p n), ?_, ?_, ?_⟩
      · simp only [argExpr, ne_eq, hv, not_false_eq_true, if_true, hname n (hr n rfl) hv]; rfl
      · intro r hr
        simp only [Expr.reads, List.mem_singleton] at hr
        exact ⟨n, .self hv, hr⟩
      · intro I x val _ env henv
        exact henv n (.self hv)

theorem nodeExpr_ok (wf : WF G rank fuel indeps deps) (pf : PlanFacts G indeps deps p)
    (hname : ∀ n, Reach G (argNodes deps) n → p.vid n ≠ 0 →
      nameOf n = .ok (nameFor indeps deps p n)) : ∀ (k n : Nat), Reach G (argNodes deps) n →
    rank n < k → (G n).op ≠ .inv → (∀ c, (G n).op ≠ .cond c) →
    ∃ e, nodeExpr G p.vid nameOf k n = .ok e ∧
      ExprOk G indeps deps p e (Reads G p.vid n) (fun val _ => val n) := by
  intro k
  induction k with
  | zero => intro n _ h; omega
  | succ k ih =>
    intro n hr hk hni hnc
    have hkidsr : ∀ m, Arg.node m ∈ (G n).args → Reach G (argNodes deps) m := fun m hm =>
      .kid hr (mem_argNodes.2 hm)
    -- the arguments
    have harg : ∀ a ∈ (G n).args, ∃ e, argExpr p.vid nameOf (nodeExpr G p.vid nameOf k) a = .ok e ∧
        ExprOk G indeps deps p e (Reads G p.vid n) (fun val _ => argVal val a) := by
      intro a ha
      obtain ⟨e, he, hok⟩ := argExpr_ok (G := G) (p := p) (indeps := indeps) (deps := deps) hname
        (rec := nodeExpr G p.vid nameOf k) a
        (by rintro m rfl; exact hkidsr m ha)
        (by rintro m rfl hv
            have hm : m ∈ kids G n := mem_argNodes.2 ha
            have hmr := hkidsr m ha
            obtain ⟨h1, h2, _⟩ := pf.inl m hmr hv
            have := wf.acyclic n hr m hm
            exact ih m hmr (by omega) h1 h2)
      refine ⟨e, he, hok.mono ?_⟩
      intro t ht
      cases a with
      | param v => exact absurd ht (by simp [ArgReads])
      | node m => exact ⟨m, mem_argNodes.2 ha, ht⟩
    have hsem : ∀ (I : Interp α) (x val : Nat → α), IsValuation I G indeps (argNodes deps) x val →
        opSem I (G n).op ((G n).args.map (argVal val)) = some (val n) :=
      fun I x val hv => hv.2 n hr hni
    have hshape := wf.shape n hr
    -- one argument
    have one : ∀ (a : Arg α) (C : Expr α → Expr α) (f : Interp α → α → α), (G n).args = [a] →
        (∀ e, (C e).reads = e.reads) →
        (∀ I env e, (C e).eval I env = (e.eval I env).map (f I)) →
        (∀ I u, opSem I (G n).op [u] = some (f I u)) →
        ∃ e, (argExpr p.vid nameOf (nodeExpr G p.vid nameOf k) a).map C = .ok e ∧
          ExprOk G indeps deps p e (Reads G p.vid n) (fun val _ => val n) := by
      intro a C f ha hreads heval hop
      obtain ⟨e, he, hok⟩ := harg a (by simp [ha])
      refine ⟨C e, by rw [he]; rfl, ⟨?_, ?_⟩⟩
      · rw [hreads]; exact hok.reads
      · intro I x val hv env henv
        have h1 := hsem I x val hv
        rw [ha] at h1
        simp only [List.map_cons, List.map_nil, hop, Option.some.injEq] at h1
        rw [heval, hok.eval I x val hv env henv]
        simp [h1]
    -- two arguments
    have two : ∀ (a b : Arg α) (C : Expr α → Expr α → Expr α) (f : Interp α → α → α → α),
        (G n).args = [a, b] →
        (∀ e e', (C e e').reads = e.reads ++ e'.reads) →
        (∀ I env e e' u w, e.eval I env = some u → e'.eval I env = some w →
          (C e e').eval I env = some (f I u w)) →
        (∀ I u w, opSem I (G n).op [u, w] = some (f I u w)) →
        ∃ e, (do
            let u ← argExpr p.vid nameOf (nodeExpr G p.vid nameOf k) a
            let w ← argExpr p.vid nameOf (nodeExpr G p.vid nameOf k) b
            pure (C u w)) = Except.ok e ∧
          ExprOk G indeps deps p e (Reads G p.vid n) (fun val _ => val n) := by
      intro a b C f ha hreads heval hop
      obtain ⟨e, he, hok⟩ := harg a (by simp [ha])
      obtain ⟨e', he', hok'⟩ := harg b (by simp [ha])
      refine ⟨C e e', by rw [he, he']; rfl, ⟨?_, ?_⟩⟩
      · rw [hreads]
        intro r hr
        rcases List.mem_append.1 hr with h | h
        · exact hok.reads r h
        · exact hok'.reads r h
      · intro I x val hv env henv
        have h1 := hsem I x val hv
        rw [ha] at h1
        simp only [List.map_cons, List.map_nil, hop, Option.some.injEq] at h1
        rw [heval I env e e' _ _ (hok.eval I x val hv env henv) (hok'.eval I x val hv env henv), h1]
    unfold nodeExpr
    unfold Shape at hshape
    cases hop : (G n).op with
    | inv => exact absurd hop hni
    | cond c => exact absurd hop (hnc c)
    | assign =>
      rw [hop] at hshape one
      obtain ⟨a, ha⟩ := hshape
      simp only [ha]
      exact one a .asg (fun _ u => u) ha (fun _ => rfl)
        (fun I env e => by simp [Expr.eval]) (fun _ _ => rfl)
    | «alias» =>
      rw [hop] at hshape one
      obtain ⟨m, ha⟩ := hshape
      simp only [ha]
      exact one (.node m) .ali (fun _ u => u) ha (fun _ => rfl)
        (fun I env e => by simp [Expr.eval]) (fun _ _ => rfl)
    | un f =>
      rw [hop] at hshape one
      obtain ⟨a, ha⟩ := hshape
      simp only [ha]
      exact one a (.un f) (fun I u => I.un f u) ha (fun _ => rfl)
        (fun I env e => by simp [Expr.eval]) (fun _ _ => rfl)
    | neg =>
      rw [hop] at hshape one
      obtain ⟨a, ha⟩ := hshape
      simp only [ha]
      exact one a .neg (fun I u => I.neg u) ha (fun _ => rfl)
        (fun I env e => by simp [Expr.eval]) (fun _ _ => rfl)
    | add =>
      rw [hop] at hshape two
      obtain ⟨a, b, ha⟩ := hshape
      simp only [ha]
      exact two a b .add (fun I u w => I.add u w) ha (fun _ _ => rfl)
        (fun I env e e' u w h1 h2 => by simp [Expr.eval, h1, h2]) (fun _ _ _ => rfl)
    | sub =>
      rw [hop] at hshape two
      obtain ⟨a, b, ha⟩ := hshape
      simp only [ha]
      exact two a b .sub (fun I u w => I.sub u w) ha (fun _ _ => rfl)
        (fun I env e e' u w h1 h2 => by simp [Expr.eval, h1, h2]) (fun _ _ _ => rfl)
    | mul =>
      rw [hop] at hshape two
      obtain ⟨a, b, ha⟩ := hshape
      simp only [ha]
      exact two a b .mul (fun I u w => I.mul u w) ha (fun _ _ => rfl)
        (fun I env e e' u w h1 h2 => by simp [Expr.eval, h1, h2]) (fun _ _ _ => rfl)
    | div =>
      rw [hop] at hshape two
      obtain ⟨a, b, ha⟩ := hshape
      simp only [ha]
      exact two a b .div (fun I u w => I.div u w) ha (fun _ _ => rfl)
        (fun I env e e' u w h1 h2 => by simp [Expr.eval, h1, h2]) (fun _ _ _ => rfl)
    | pow =>
      rw [hop] at hshape two
      obtain ⟨a, b, ha⟩ := hshape
      simp only [ha]
      exact two a b .pow (fun I u w => I.pow u w) ha (fun _ _ => rfl)
        (fun I env e e' u w h1 h2 => by simp [Expr.eval, h1, h2]) (fun _ _ _ => rfl)
    | sign =>
      rw [hop] at hshape
      obtain ⟨m, ha, _⟩ := hshape
      simp only [ha]
      have hm : m ∈ kids G n := mem_argNodes.2 (by simp [ha])
      have hmr : Reach G (argNodes deps) m := .kid hr hm
      have hv : p.vid m ≠ 0 := fun hv => (pf.inl m hmr hv).2.2 n hr hm hop
      rw [if_pos hv, hname m hmr hv]
      refine ⟨_, rfl, ⟨?_, ?_⟩⟩
      · intro r hr'
        simp only [Expr.reads, List.mem_singleton] at hr'
        exact ⟨m, ⟨m, hm, .self hv⟩, hr'⟩
      · intro I x val hval env henv
        have h1 := hsem I x val hval
        rw [hop, ha] at h1
        simp only [List.map_cons, List.map_nil, argVal, opSem, Option.some.injEq] at h1
        simp only [Expr.eval, henv m ⟨m, hm, .self hv⟩, Option.map_some, Option.some.injEq]
        exact h1

/-- a printed statement is right -/
structure StmtOk (G : Graph α) (indeps : List Nat) (deps : List (Arg α)) (p : Plan) (n : Nat)
    (s : Stmt α) : Prop where
  lhs : s.lhs = nameFor indeps deps p n
  reads : ∀ r ∈ s.reads, ∃ t, Reads G p.vid n t ∧ r = nameFor indeps deps p t
  exec : ∀ (I : Interp α) (x val : Nat → α), IsValuation I G indeps (argNodes deps) x val →
    ∀ env : Env α, (∀ t, Reads G p.vid n t → env (nameFor indeps deps p t) = some (val t)) →
      s.exec I env = some (env.set (nameFor indeps deps p n) (val n))

theorem nodeStmt_ok (wf : WF G rank fuel indeps deps) (pf : PlanFacts G indeps deps p)
    (hname : ∀ n, Reach G (argNodes deps) n → p.vid n ≠ 0 →
      nameOf n = .ok (nameFor indeps deps p n)) (n : Nat) (hq : n ∈ p.queue) :
    ∃ s, nodeStmt G p.vid nameOf fuel n = .ok s ∧ StmtOk G indeps deps p n s := by
  have hr := pf.qreach n hq
  have hnm := hname n hr (pf.qvid n hq)
  have hni := pf.qop n hq
  by_cases hcond : ∃ c, (G n).op = .cond c
  · obtain ⟨c, hc⟩ := hcond
    have hsh := wf.shape n hr
    unfold Shape at hsh
    rw [hc] at hsh
    obtain ⟨l, r, t, f, ha⟩ := hsh
    have harg : ∀ a ∈ (G n).args, ∃ e, argExpr p.vid nameOf (nodeExpr G p.vid nameOf fuel) a = .ok e ∧
        ExprOk G indeps deps p e (Reads G p.vid n) (fun val _ => argVal val a) := by
      intro a ha
      obtain ⟨e, he, hok⟩ := argExpr_ok (G := G) (p := p) (indeps := indeps) (deps := deps) hname
        (rec := nodeExpr G p.vid nameOf fuel) a
        (by rintro m rfl; exact .kid hr (mem_argNodes.2 ha))
        (by rintro m rfl hv
            have hm : m ∈ kids G n := mem_argNodes.2 ha
            have hmr : Reach G (argNodes deps) m := .kid hr hm
            obtain ⟨h1, h2, _⟩ := pf.inl m hmr hv
            exact nodeExpr_ok wf pf hname fuel m hmr (rank_lt wf m hmr) h1 h2)
      refine ⟨e, he, hok.mono ?_⟩
      intro t ht
      cases a with
      | param v => exact absurd ht (by simp [ArgReads])
      | node m => exact ⟨m, mem_argNodes.2 ha, ht⟩
    obtain ⟨le, hle, hlok⟩ := harg l (by simp [ha])
    obtain ⟨re, hre, hrok⟩ := harg r (by simp [ha])
    obtain ⟨te, hte, htok⟩ := harg t (by simp [ha])
    obtain ⟨fe, hfe, hfok⟩ := harg f (by simp [ha])
    have hsem : ∀ (I : Interp α) (x val : Nat → α), IsValuation I G indeps (argNodes deps) x val →
        (if I.cmp c (argVal val l) (argVal val r) then argVal val t else argVal val f) = val n := by
      intro I x val hv
      have := hv.2 n hr hni
      rw [hc, ha] at this
      simpa [opSem] using this
    unfold nodeStmt
    simp only [hc, ha]
    by_cases hs : sameArg t f = true
    · rw [if_pos hs]
      have htf : t = f := by
        cases t <;> cases f <;> simp [sameArg] at hs ⊢ <;> exact hs
      refine ⟨.assign (nameFor indeps deps p n) te, by rw [hnm, hte]; rfl, rfl, htok.reads, ?_⟩
      intro I x val hv env henv
      have h1 := hsem I x val hv
      rw [← htf] at h1
      simp only [ite_self] at h1
      simp only [Stmt.exec, htok.eval I x val hv env henv, Option.map_some, h1]
    · rw [if_neg hs]
      refine ⟨.ite c le re (nameFor indeps deps p n) te fe, by rw [hnm, hle, hre, hte, hfe]; rfl,
        rfl, ?_, ?_⟩
      · intro r' hr'
        simp only [Stmt.reads, List.mem_append] at hr'
        rcases hr' with ((h | h) | h) | h
        · exact hlok.reads r' h
        · exact hrok.reads r' h
        · exact htok.reads r' h
        · exact hfok.reads r' h
      · intro I x val hv env henv
        have h1 := hsem I x val hv
        simp only [Stmt.exec, hlok.eval I x val hv env henv, hrok.eval I x val hv env henv,
          htok.eval I x val hv env henv, hfok.eval I x val hv env henv, Option.map_some,
          Option.bind_eq_bind, Option.bind_some]
        by_cases hcmp : I.cmp c (argVal val l) (argVal val r) = true
        · simp only [hcmp, if_true] at h1 ⊢; rw [h1]
        · simp only [hcmp, if_false] at h1 ⊢
          simp only [Bool.false_eq_true, if_false] at h1 ⊢
          rw [h1]
  · have hnc : ∀ c, (G n).op ≠ .cond c := fun c h => hcond ⟨c, h⟩
    obtain ⟨e, he, hok⟩ := nodeExpr_ok wf pf hname fuel n hr (rank_lt wf n hr) hni hnc
    refine ⟨.assign (nameFor indeps deps p n) e, ?_, rfl, hok.reads, ?_⟩
    · unfold nodeStmt
      split
      · rename_i c _ _ _ _ h _; exact absurd h (hnc c)
      · rw [hnm, he]; rfl
    · intro I x val hv env henv
      simp only [Stmt.exec, hok.eval I x val hv env henv, Option.map_some]

end
end Verif.Codegen
