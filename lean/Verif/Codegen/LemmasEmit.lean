import Verif.Codegen.LemmasNames
/- The generated function as a whole. -/
namespace Verif.Codegen
variable {α : Type}

theorem mapE_ok {β γ : Type} {f : β → Except Err γ} {P : β → γ → Prop} (l : List β)
    (h : ∀ b ∈ l, ∃ c, f b = .ok c ∧ P b c) : ∃ cs, mapE f l = .ok cs ∧ List.Forall₂ P l cs := by
  induction l with
  | nil => exact ⟨[], rfl, .nil⟩
  | cons b l ih =>
    obtain ⟨c, hc, hp⟩ := h b (by simp)
    obtain ⟨cs, hcs, hps⟩ := ih (fun b hb => h b (List.mem_cons_of_mem _ hb))
    exact ⟨c :: cs, by simp only [mapE, hc, hcs]; rfl, .cons hp hps⟩

theorem execAll_append {I : Interp α} (a b : List (Stmt α)) : ∀ env,
    execAll I env (a ++ b) = (execAll I env a).bind fun e => execAll I e b := by
  induction a with
  | nil => intro env; rfl
  | cons s a ih =>
    intro env
    simp only [List.cons_append, execAll]
    cases s.exec I env with
    | none => rfl
    | some e => simp [ih]

theorem DefBeforeUse.append {n : Nat} (a b : List (Stmt α)) : ∀ (defs : List Name),
    DefBeforeUse n defs a → DefBeforeUse n ((a.map Stmt.lhs).reverse ++ defs) b →
    DefBeforeUse n defs (a ++ b) := by
  induction a with
  | nil => intro defs _ h; simpa using h
  | cons s a ih =>
    intro defs h1 h2
    refine ⟨h1.1, ih _ h1.2 ?_⟩
    simpa using h2

theorem DefBeforeUse.mono {n : Nat} (a : List (Stmt α)) : ∀ (d d' : List Name),
    (∀ r ∈ d, r ∈ d') → DefBeforeUse n d a → DefBeforeUse n d' a := by
  induction a with
  | nil => intro _ _ _ _; trivial
  | cons s a ih =>
    intro d d' hd h
    refine ⟨?_, ih _ _ ?_ h.2⟩
    · intro r hr
      rcases h.1 r hr with h | h
      · exact Or.inl h
      · exact Or.inr (hd r h)
    · intro r hr
      rcases List.mem_cons.1 hr with rfl | hr
      · simp
      · exact List.mem_cons_of_mem _ (hd r hr)

theorem DefBeforeUse.of_all {n : Nat} (a : List (Stmt α)) : ∀ (d : List Name),
    (∀ s ∈ a, ∀ r ∈ s.reads, (∃ j, j < n ∧ r = .x j) ∨ r ∈ d) → DefBeforeUse n d a := by
  induction a with
  | nil => intro _ _; trivial
  | cons s a ih =>
    intro d h
    refine ⟨h s (by simp), ih _ ?_⟩
    intro s' hs' r hr
    rcases h s' (List.mem_cons_of_mem _ hs') r hr with h | h
    · exact Or.inl h
    · exact Or.inr (List.mem_cons_of_mem _ h)

section
variable [DecidableEq α] {G : Graph α} {rank : Nat → Nat} {fuel : Nat} {indeps : List Nat}
  {deps : List (Arg α)} {p : Plan}

/-! ### duplicated dependents -/

theorem depIds_spec {vid : Nat → Nat}
    (hpos : ∀ n ∈ argNodes deps, 0 < vid n)
    (hinj : ∀ n ∈ argNodes deps, ∀ m ∈ argNodes deps, vid n = vid m → n = m) :
    ∀ (ds : List (Arg α)) (i : Nat) (ids : List (Nat × Nat)) (dup : List Nat), deps.drop i = ds →
    (∀ n ∈ argNodes deps, (G n).op ≠ .inv →
      ((ids.lookup (vid n)).isSome ↔ Arg.node n ∈ deps.take i)) →
    (∀ k ∈ dup, ∃ n, deps[k]? = some (.node n) ∧ (G n).op ≠ .inv ∧ deps.idxOf (.node n) < k) →
    (∀ k n, k < i → deps[k]? = some (.node n) → (G n).op ≠ .inv → deps.idxOf (.node n) < k → k ∈ dup) →
    dup.Pairwise (· < ·) → (∀ k ∈ dup, k < i) →
    (∀ k ∈ (depIds G vid i ds ids dup).2, ∃ n, deps[k]? = some (.node n) ∧ (G n).op ≠ .inv ∧
      deps.idxOf (.node n) < k) ∧
    (∀ k n, deps[k]? = some (.node n) → (G n).op ≠ .inv → deps.idxOf (.node n) < k →
      k ∈ (depIds G vid i ds ids dup).2) ∧ (depIds G vid i ds ids dup).2.Pairwise (· < ·) := by
  intro ds
  induction ds with
  | nil =>
    intro i ids dup hd hids h1 h2 h3 h4
    refine ⟨h1, ?_, h3⟩
    intro k n hk hop hlt
    have hi : deps.length ≤ i := by rw [List.drop_eq_nil_iff] at hd; exact hd
    have := (List.getElem?_eq_some_iff.1 hk).1
    exact h2 k n (by omega) hk hop hlt
  | cons d ds ih =>
    intro i ids dup hd hids h1 h2 h3 h4
    have hi : i < deps.length := by
      apply Classical.byContradiction
      intro hge
      rw [List.drop_eq_nil_of_le (by omega)] at hd; cases hd
    have hdrop := List.drop_eq_getElem_cons hi
    rw [hd] at hdrop
    obtain ⟨hde, hle⟩ := List.cons.inj hdrop
    have hdi : deps[i]? = some d := by rw [List.getElem?_eq_getElem hi, hde]
    have htake : ∀ a, a ∈ deps.take (i + 1) ↔ a ∈ deps.take i ∨ a = d := by
      intro a
      rw [List.take_succ_eq_append_getElem hi, List.mem_append, List.mem_singleton, hde]
    have hidx : ∀ a, a ∈ deps.take i ↔ a ∈ deps ∧ deps.idxOf a < i := by
      intro a
      constructor
      · intro ha
        have hm := List.mem_of_mem_take ha
        exact ⟨hm, (List.mem_take_iff_idxOf_lt hm).1 ha⟩
      · rintro ⟨ha, hlt⟩
        exact (List.mem_take_iff_idxOf_lt ha).2 hlt
    cases d with
    | param v =>
      unfold depIds
      apply ih (i + 1) ids dup hle.symm
      · intro n hn hop
        rw [hids n hn hop, htake]; simp
      · exact h1
      · intro k n hk hkn hop hlt
        by_cases hki : k = i
        · subst hki; rw [hdi] at hkn; simp at hkn
        · exact h2 k n (by omega) hkn hop hlt
      · exact h3
      · intro k hk; have := h4 k hk; omega
    | node a =>
      have ham : a ∈ argNodes deps := mem_argNodes.2 (List.mem_of_getElem? hdi)
      unfold depIds
      by_cases hop : (G a).op ≠ .inv ∧ 0 < vid a
      · rw [if_pos hop]
        cases hl : ids.lookup (vid a) with
        | none =>
          simp only
          have hnot : Arg.node a ∉ deps.take i := by
            rw [← hids a ham hop.1, hl]; simp
          apply ih (i + 1) (ids ++ [(vid a, i)]) dup hle.symm
          · intro n hn hnop
            rw [htake, ← hids n hn hnop, List.lookup_append]
            by_cases hna : n = a
            · subst hna; simp [hl, List.lookup]
            · have : vid n ≠ vid a := fun h => hna (hinj n hn a ham h)
              have hb : (vid n == vid a) = false := by simpa using this
              simp [List.lookup, hb, hna]
          · exact h1
          · intro k n hk hkn hnop hlt
            by_cases hki : k = i
            · subst hki
              rw [hdi] at hkn
              simp only [Option.some.injEq, Arg.node.injEq] at hkn
              subst hkn
              exact absurd ((hidx _).2 ⟨mem_argNodes.1 ham, hlt⟩) hnot
            · exact h2 k n (by omega) hkn hnop hlt
          · exact h3
          · intro k hk; have := h4 k hk; omega
        | some j =>
          simp only
          have hin : Arg.node a ∈ deps.take i := by
            rw [← hids a ham hop.1, hl]; simp
          apply ih (i + 1) ids (dup ++ [i]) hle.symm
          · intro n hn hnop
            rw [htake, hids n hn hnop]
            constructor
            · exact Or.inl
            · rintro (h | h)
              · exact h
              · simp only [Arg.node.injEq] at h; subst h; exact hin
          · intro k hk
            rcases List.mem_append.1 hk with hk | hk
            · exact h1 k hk
            · rw [List.mem_singleton] at hk; subst hk
              exact ⟨a, hdi, hop.1, ((hidx _).1 hin).2⟩
          · intro k n hk hkn hnop hlt
            by_cases hki : k = i
            · subst hki; simp
            · exact List.mem_append_left _ (h2 k n (by omega) hkn hnop hlt)
          · rw [List.pairwise_append]
            refine ⟨h3, by simp, ?_⟩
            intro k hk j hj
            rw [List.mem_singleton] at hj
            have := h4 k hk
            omega
          · intro k hk
            rcases List.mem_append.1 hk with hk | hk
            · have := h4 k hk; omega
            · rw [List.mem_singleton] at hk; omega
      · rw [if_neg hop]
        have hinv : (G a).op = .inv := by
          apply Classical.byContradiction
          intro h
          exact hop ⟨h, hpos a ham⟩
        apply ih (i + 1) ids dup hle.symm
        · intro n hn hnop
          rw [htake, ← hids n hn hnop]
          constructor
          · exact Or.inl
          · rintro (h | h)
            · exact h
            · simp only [Arg.node.injEq] at h; subst h; exact absurd hinv hnop
        · exact h1
        · intro k n hk hkn hnop hlt
          by_cases hki : k = i
          · subst hki
            rw [hdi] at hkn
            simp only [Option.some.injEq, Arg.node.injEq] at hkn
            subst hkn; exact absurd hinv hnop
          · exact h2 k n (by omega) hkn hnop hlt
        · exact h3
        · intro k hk; have := h4 k hk; omega

/-! ### the closing assignments -/

/-- an assignment of a dependent after the operations -/
inductive TailOk (G : Graph α) (indeps : List Nat) (deps : List (Arg α)) (p : Plan) :
    Nat → Stmt α → Prop
  | const {i : Nat} {v : α} : deps[i]? = some (.param v) →
      TailOk G indeps deps p i (.assign (.y i) (.const v))
  | copy {i n : Nat} : deps[i]? = some (.node n) → p.vid n ≠ 0 →
      TailOk G indeps deps p i (.assign (.y i) (.var (nameFor indeps deps p n)))

theorem constStmts_ok {nameOf : Nat → Except Err Name} (pf : PlanFacts G indeps deps p)
    (wf : WF G rank fuel indeps deps)
    (hname : ∀ n, Reach G (argNodes deps) n → p.vid n ≠ 0 →
      nameOf n = .ok (nameFor indeps deps p n)) (ignoreZero : Bool) (zero : α) :
    ∀ (ds : List (Arg α)) (i : Nat), deps.drop i = ds →
    ∃ is ss, constStmts G ignoreZero zero nameOf i ds = .ok ss ∧
      List.Forall₂ (TailOk G indeps deps p) is ss ∧
      is.Pairwise (· < ·) ∧
      ∀ k, k ∈ is ↔ i ≤ k ∧ ((∃ v, deps[k]? = some (.param v) ∧ (ignoreZero = true → v ≠ zero)) ∨
        (∃ n, deps[k]? = some (.node n) ∧ (G n).op = .inv)) := by
  intro ds
  induction ds with
  | nil =>
    intro i hd
    have hi : deps.length ≤ i := by rw [List.drop_eq_nil_iff] at hd; exact hd
    refine ⟨[], [], rfl, .nil, by simp, ?_⟩
    intro k
    simp only [List.not_mem_nil, false_iff, not_and]
    intro hk
    rw [List.getElem?_eq_none (by omega)]
    simp
  | cons d ds ih =>
    intro i hd
    have hi : i < deps.length := by
      apply Classical.byContradiction
      intro hge
      rw [List.drop_eq_nil_of_le (by omega)] at hd; cases hd
    have hdrop := List.drop_eq_getElem_cons hi
    rw [hd] at hdrop
    obtain ⟨hde, hle⟩ := List.cons.inj hdrop
    have hdi : deps[i]? = some d := by rw [List.getElem?_eq_getElem hi, hde]
    obtain ⟨is, ss, e, hf, hnd, hmem⟩ := ih (i + 1) hle.symm
    have hlt : ∀ k ∈ is, i < k := by
      intro k h; have := ((hmem k).1 h).1; omega
    have hcons : ∀ (P : Nat → Prop), P i → (∀ k, k ∈ is ↔ i + 1 ≤ k ∧ P k) →
        ∀ k, k ∈ i :: is ↔ i ≤ k ∧ P k := by
      intro P hP hm k
      rw [List.mem_cons, hm]
      constructor
      · rintro (rfl | h)
        · exact ⟨Nat.le_refl _, hP⟩
        · exact ⟨by omega, h.2⟩
      · rintro ⟨h1, h2⟩
        by_cases hki : k = i
        · exact Or.inl hki
        · exact Or.inr ⟨by omega, h2⟩
    have hskip : ∀ (P : Nat → Prop), ¬ P i → (∀ k, k ∈ is ↔ i + 1 ≤ k ∧ P k) →
        ∀ k, k ∈ is ↔ i ≤ k ∧ P k := by
      intro P hP hm k
      rw [hm]
      constructor
      · rintro ⟨h1, h2⟩; exact ⟨by omega, h2⟩
      · rintro ⟨h1, h2⟩
        refine ⟨?_, h2⟩
        by_cases hki : k = i
        · subst hki; exact absurd h2 hP
        · omega
    cases d with
    | param v =>
      unfold constStmts
      rw [e]
      by_cases hz : (!ignoreZero || !decide (v = zero)) = true
      · refine ⟨i :: is, .assign (.y i) (.const v) :: ss, ?_, .cons (.const hdi) hf, ?_, ?_⟩
        · simp only [bind, Except.bind, hz, if_true]; rfl
        · exact List.pairwise_cons.2 ⟨hlt, hnd⟩
        · apply hcons _ _ hmem
          left
          refine ⟨v, hdi, ?_⟩
          intro hig
          simpa [hig] using hz
      · refine ⟨is, ss, ?_, hf, hnd, ?_⟩
        · simp only [bind, Except.bind, hz]; rfl
        · apply hskip _ _ hmem
          rintro (⟨w, hw, hig⟩ | ⟨n, hn, _⟩)
          · rw [hdi] at hw
            simp only [Option.some.injEq, Arg.param.injEq] at hw
            subst hw
            simp only [Bool.or_eq_true, Bool.not_eq_true', decide_eq_false_iff_not, not_or,
              Bool.not_eq_false, Classical.not_not] at hz
            exact hig hz.1 hz.2
          · rw [hdi] at hn; simp at hn
    | node n =>
      have hnr : n ∈ argNodes deps := mem_argNodes.2 (List.mem_of_getElem? hdi)
      unfold constStmts
      by_cases hinv : (G n).op = .inv
      · rw [if_pos hinv]
        have hin := wf.declared n (.root hnr) hinv
        have hv : p.vid n ≠ 0 := by rw [pf.indep n hin]; omega
        rw [hname n (.root hnr) hv, e]
        refine ⟨i :: is, .assign (.y i) (.var (nameFor indeps deps p n)) :: ss, rfl,
          .cons (.copy hdi hv) hf, ?_, ?_⟩
        · exact List.pairwise_cons.2 ⟨hlt, hnd⟩
        · apply hcons _ _ hmem
          exact Or.inr ⟨n, hdi, hinv⟩
      · rw [if_neg hinv]
        refine ⟨is, ss, e, hf, hnd, ?_⟩
        apply hskip _ _ hmem
        rintro (⟨w, hw, hig⟩ | ⟨m, hm, hop⟩)
        · rw [hdi] at hw; simp at hw
        · rw [hdi] at hm
          simp only [Option.some.injEq, Arg.node.injEq] at hm
          subst hm; exact hinv hop

/-- the generated function, in pieces: initialisation, operations, duplicates, constants -/
structure EmitOk (G : Graph α) (indeps : List Nat) (deps : List (Arg α)) (cfg : Cfg) (zero : α)
    (p : Plan) (prog : List (Stmt α)) : Prop where
  pieces : ∃ (body dups consts : List (Stmt α)) (ds cs : List Nat),
    prog = (if cfg.zeroDeps && !p.queue.isEmpty then
        (List.range deps.length).map (fun i => Stmt.assign (.y i) (.const zero)) else []) ++
        (body ++ (dups ++ consts)) ∧
    List.Forall₂ (StmtOk G indeps deps p) p.queue body ∧
    List.Forall₂ (TailOk G indeps deps p) ds dups ∧
    List.Forall₂ (TailOk G indeps deps p) cs consts ∧
    ds.Pairwise (· < ·) ∧ cs.Pairwise (· < ·) ∧
    (∀ k, k ∈ ds ↔ ∃ n, deps[k]? = some (.node n) ∧ (G n).op ≠ .inv ∧ deps.idxOf (.node n) < k) ∧
    ∀ k, k ∈ cs ↔ ((∃ v, deps[k]? = some (.param v) ∧ (cfg.ignoreZero = true → v ≠ zero)) ∨
        (∃ n, deps[k]? = some (.node n) ∧ (G n).op = .inv))

theorem emit_ok (wf : WF G rank fuel indeps deps) (pf : PlanFacts G indeps deps p) (cfg : Cfg)
    (zero : α) {names : Nat → Option Name} (hn : NamesOk G indeps deps p names) :
    ∃ g nm, emit G fuel cfg zero indeps deps p names = .ok (g, nm) ∧
      g.tempCount = p.idCount - p.minTemp ∧ EmitOk G indeps deps cfg zero p g.prog := by
  have hname := emitName_ok wf pf hn
  have hrv : ∀ n ∈ argNodes deps, 0 < p.vid n := by
    intro n hn
    by_cases hi : n ∈ indeps
    · rw [pf.indep n hi]; omega
    · have := pf.dep n hn hi; omega
  unfold emit
  simp only
  obtain ⟨body, hb, hbf⟩ := mapE_ok p.queue
    (fun n hq => nodeStmt_ok (nameOf := emitName G indeps deps p names) wf pf hname n hq)
  obtain ⟨d1, d2, d3⟩ := depIds_spec (G := G) (vid := p.vid) hrv pf.depInj deps 0 [] [] (by simp)
    (by simp) (by simp) (by simp) (by simp) (by simp)
  obtain ⟨dups, hd, hdf⟩ := mapE_ok (f := dupStmt deps (emitName G indeps deps p names))
    (P := TailOk G indeps deps p) (depIds G p.vid 0 deps [] []).2 (by
      intro k hk
      obtain ⟨n, hkn, hop, _⟩ := d1 k hk
      have hnr : n ∈ argNodes deps := mem_argNodes.2 (List.mem_of_getElem? hkn)
      have hv : p.vid n ≠ 0 := by have := hrv n hnr; omega
      refine ⟨_, ?_, .copy hkn hv⟩
      unfold dupStmt
      rw [hkn]
      simp only [hname n (.root hnr) hv]; rfl)
  obtain ⟨is, consts, hc, hcf, hnd, hmem⟩ := constStmts_ok (nameOf := emitName G indeps deps p names)
    pf wf hname cfg.ignoreZero zero deps 0 (by simp)
  simp only [emitName] at hb hd hc
  rw [hb]
  simp only
  rw [hd]
  simp only
  rw [hc]
  refine ⟨_, _, rfl, rfl, ⟨body, dups, consts, (depIds G p.vid 0 deps [] []).2, is, ?_, hbf,
    hdf, hcf, d3, hnd, ?_, ?_⟩⟩
  · simp only [List.append_assoc]
  · intro k
    exact ⟨d1 k, fun ⟨n, h1, h2, h3⟩ => d2 k n h1 h2 h3⟩
  · intro k
    rw [hmem]
    simp

end
end Verif.Codegen
