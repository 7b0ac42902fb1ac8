import Verif.Codegen.LemmasSim
/- `generateCode` as a whole. -/
namespace Verif.Codegen
variable {α : Type}

section
variable [DecidableEq α] {G : Graph α} {rank : Nat → Nat} {fuel : Nat} {indeps : List Nat}
  {deps : List (Arg α)}

theorem generate_spec (wf : WF G rank fuel indeps deps) (cfg : Cfg) (zero : α) (h : HState)
    (hc : h.Clean) (hn : ∀ n, (n ∈ indeps ∨ Reach G (argNodes deps) n) → h.names n = none) :
    ∃ g h' p, generateCode G fuel cfg zero indeps deps h = .ok (g, h') ∧
      plan G fuel cfg indeps deps h = .ok p ∧ PlanFacts G indeps deps p ∧
      g.tempCount = p.idCount - p.minTemp ∧ EmitOk G indeps deps cfg zero p g.prog := by
  obtain ⟨p, e, pf⟩ := plan_spec wf cfg h hc
  obtain ⟨g, nm, e2, h1, h2⟩ := emit_ok wf pf cfg zero (names := h.names)
    (fun n hr _ => Or.inl (hn n hr))
  exact ⟨g, _, p, by simp only [generateCode, e, e2]; rfl, e, pf, h1, h2⟩

/-- the order of the statements does not depend on the reuse of variables -/
theorem plan_queue (cfg cfg' : Cfg) (hm : cfg.maxOps = cfg'.maxOps) (h : HState) {p p' : Plan}
    (e : plan G fuel cfg indeps deps h = .ok p) (e' : plan G fuel cfg' indeps deps h = .ok p') :
    p.queue = p'.queue := by
  unfold plan at e e'
  simp only [← hm] at e'
  generalize (if h.used then h.resetManagedNodes else h) = hh at e e'
  simp only at e e'
  cases h1 : markAll G fuel (argNodes deps) hh.cnt with
  | error err => rw [h1] at e; cases e
  | ok cnt =>
    rw [h1] at e e'
    simp only at e e'
    split at e
    · cases e
    · rename_i cs h2
      rw [h2] at e'
      simp only at e'
      split at e
      · cases e
      · rename_i ord h3
        rw [h3] at e'
        simp only at e'
        have key : ∀ (b : Bool) (q : Plan), (if b = true then
            match reduce G fuel (idDeps deps (idIndeps indeps (hh.vid, 1))).2 (argNodes deps) cs.queue
              ord cs.vid with
            | .error e => Except.error e
            | .ok (vid, idCount, _) =>
              .ok { minTemp := (idDeps deps (idIndeps indeps (hh.vid, 1))).2, idCount := idCount,
                    vid := vid, cnt := cnt, queue := cs.queue, ord := ord, opCount := cs.opCount }
            else .ok { minTemp := (idDeps deps (idIndeps indeps (hh.vid, 1))).2, idCount := cs.idCount,
                       vid := cs.vid, cnt := cnt, queue := cs.queue, ord := ord,
                       opCount := cs.opCount }) = Except.ok q → q.queue = cs.queue := by
          intro b q hq
          split at hq
          · split at hq
            · cases hq
            · cases hq; rfl
          · cases hq; rfl
        rw [key _ _ e, key _ _ e']

theorem sorted_ext {a b : List Nat} (ha : a.Pairwise (· < ·)) (hb : b.Pairwise (· < ·))
    (h : ∀ k, k ∈ a ↔ k ∈ b) : a = b := by
  induction a generalizing b with
  | nil =>
    cases b with
    | nil => rfl
    | cons c b => exact absurd ((h c).2 (by simp)) (by simp)
  | cons c a ih =>
    cases b with
    | nil => exact absurd ((h c).1 (by simp)) (by simp)
    | cons d b =>
      rw [List.pairwise_cons] at ha hb
      have hcd : c = d := by
        have h1 := (h c).1 (by simp)
        have h2 := (h d).2 (by simp)
        rcases List.mem_cons.1 h1 with h1 | h1
        · exact h1
        · rcases List.mem_cons.1 h2 with h2 | h2
          · exact h2.symm
          · have := ha.1 d h2
            have := hb.1 c h1
            omega
      subst hcd
      congr 1
      apply ih ha.2 hb.2
      intro k
      constructor
      · intro hk
        rcases List.mem_cons.1 ((h k).1 (List.mem_cons_of_mem _ hk)) with h' | h'
        · have := ha.1 k hk; omega
        · exact h'
      · intro hk
        rcases List.mem_cons.1 ((h k).2 (List.mem_cons_of_mem _ hk)) with h' | h'
        · have := hb.1 k hk; omega
        · exact h'

/-- the emitted program only depends on names through `emitName` -/
theorem emit_congr (cfg : Cfg) (zero : α) (p : Plan) (n1 n2 : Nat → Option Name)
    (h : emitName G indeps deps p n1 = emitName G indeps deps p n2) {g : Gen α}
    {m : Nat → Option Name} (e : emit G fuel cfg zero indeps deps p n1 = .ok (g, m)) :
    ∃ m', emit G fuel cfg zero indeps deps p n2 = .ok (g, m') := by
  unfold emit at e ⊢
  unfold emitName at h
  simp only at e ⊢
  rw [h] at e
  generalize varName (nameTemps G p.cnt p.vid indeps.length p.minTemp p.queue
    (nameDeps 0 deps (nameIndeps p.vid indeps n2))) p.vid indeps.length p.minTemp
    (depIds G p.vid 0 deps [] []).1 = f at e ⊢
  cases h1 : mapE (nodeStmt G p.vid f fuel) p.queue with
  | error x => rw [h1] at e; cases e
  | ok body =>
    rw [h1] at e
    simp only at e ⊢
    cases h2 : mapE (dupStmt deps f) (depIds G p.vid 0 deps [] []).2 with
    | error x => rw [h2] at e; cases e
    | ok dups =>
      rw [h2] at e
      simp only at e ⊢
      cases h3 : constStmts G cfg.ignoreZero zero f 0 deps with
      | error x => rw [h3] at e; cases e
      | ok consts =>
        rw [h3] at e
        cases e
        exact ⟨_, rfl⟩

/-- names left in the nodes after a generation -/
theorem emit_names (wf : WF G rank fuel indeps deps) {p : Plan} (pf : PlanFacts G indeps deps p)
    (cfg : Cfg) (zero : α) {names : Nat → Option Name} (hn : NamesOk G indeps deps p names)
    {g : Gen α} {m : Nat → Option Name}
    (e : emit G fuel cfg zero indeps deps p names = .ok (g, m)) : NamesOk G indeps deps p m := by
  intro n hr hv
  have hok : emitName G indeps deps p names n = .ok (nameFor indeps deps p n) := by
    rw [emitName_eq wf pf hn]; simp [hv]
  have hm : m n = (if n ∈ p.queue then some (nameFor indeps deps p n)
      else nameTemps G p.cnt p.vid indeps.length p.minTemp p.queue
          (nameDeps 0 deps (nameIndeps p.vid indeps names)) n) := by
    unfold emit at e
    unfold emitName at hok
    simp only at e
    split at e
    · cases e
    · split at e
      · cases e
      · split at e
        · cases e
        · cases e
          simp only [hok]
  rw [hm]
  split
  · exact Or.inr rfl
  · rename_i hq
    -- only independents are left, they keep or get their name
    have hin : n ∈ indeps := by
      rcases hr with h | h
      · exact h
      · rcases pf.var n h hv with h' | h'
        · exact wf.declared n h h'
        · exact absurd h' hq
    rw [nameTemps_spec, nameDeps_spec, nameIndeps_spec]
    have hf : nameFor indeps deps p n = .x (p.vid n - 1) := by
      simp [nameFor, hin, pf.indep n hin]
    rcases hn n hr hv with h | h
    · simp [hq, h, hin, hf]
    · simp [hq, h]

/-- evaluation of the graph with a recursion bound; `default` where the graph is not well formed -/
def evalNode [Inhabited α] (I : Interp α) (G : Graph α) (indeps : List Nat) (x : Nat → α) :
    Nat → Nat → α
  | 0, _ => default
  | k + 1, n =>
    if n ∈ indeps then x (indeps.idxOf n)
    else (opSem I (G n).op ((G n).args.map (argVal (evalNode I G indeps x k)))).getD default

theorem valuation_exists [Inhabited α] (wf : WF G rank fuel indeps deps) (I : Interp α) (x : Nat → α) :
    ∃ val, IsValuation I G indeps (argNodes deps) x val := by
  -- enough fuel: the value does not change any more
  have hstable : ∀ k n, Reach G (argNodes deps) n → rank n < k →
      evalNode I G indeps x k n = evalNode I G indeps x (k + 1) n := by
    intro k
    induction k with
    | zero => intro n _ h; omega
    | succ k ih =>
      intro n hr hk
      rw [evalNode, evalNode]
      split
      · rfl
      · congr 2
        apply List.map_congr_left
        intro a ha
        cases a with
        | param v => rfl
        | node m =>
          have hm : m ∈ kids G n := mem_argNodes.2 ha
          have := wf.acyclic n hr m hm
          exact ih m (.kid hr hm) (by omega)
  refine ⟨evalNode I G indeps x (fuel + 1), ?_, ?_⟩
  · intro j n hj
    have hn := List.mem_of_getElem? hj
    have hl := List.idxOf_lt_length_of_mem hn
    rw [evalNode, if_pos hn]
    have hg : indeps[indeps.idxOf n]? = some n := by
      rw [List.getElem?_eq_getElem hl, List.getElem_idxOf]
    have : indeps.idxOf n = j := (List.getElem?_inj hl wf.indeps_nodup).1 (hg.trans hj.symm)
    rw [this]
  · intro n hr hop
    have hni : n ∉ indeps := fun h => hop (wf.indeps_inv n h)
    rw [evalNode, if_neg hni]
    have hargs : (G n).args.map (argVal (evalNode I G indeps x fuel)) =
        (G n).args.map (argVal (evalNode I G indeps x (fuel + 1))) := by
      apply List.map_congr_left
      intro a ha
      cases a with
      | param v => rfl
      | node m =>
        have hm : m ∈ kids G n := mem_argNodes.2 ha
        have hmr : Reach G (argNodes deps) m := .kid hr hm
        exact hstable fuel m hmr (rank_lt wf m hmr)
    rw [hargs]
    have hsh := wf.shape n hr
    unfold Shape at hsh
    cases ho : (G n).op <;> rw [ho] at hsh <;> simp only at hsh
    case inv => exact absurd ho hop
    case assign => obtain ⟨a, ha⟩ := hsh; rw [ha]; rfl
    case «alias» => obtain ⟨a, ha⟩ := hsh; rw [ha]; rfl
    case un f => obtain ⟨a, ha⟩ := hsh; rw [ha]; rfl
    case neg => obtain ⟨a, ha⟩ := hsh; rw [ha]; rfl
    case sign => obtain ⟨a, ha, _⟩ := hsh; rw [ha]; rfl
    case add => obtain ⟨a, b, ha⟩ := hsh; rw [ha]; rfl
    case sub => obtain ⟨a, b, ha⟩ := hsh; rw [ha]; rfl
    case mul => obtain ⟨a, b, ha⟩ := hsh; rw [ha]; rfl
    case div => obtain ⟨a, b, ha⟩ := hsh; rw [ha]; rfl
    case pow => obtain ⟨a, b, ha⟩ := hsh; rw [ha]; rfl
    case cond c => obtain ⟨l, r, t, f, ha⟩ := hsh; rw [ha]; rfl

end
end Verif.Codegen
