import Verif.Scopes.LemmasEnter

/-
Lemmas: the scopes made at the first visit of a node.
-/
namespace Verif.Scopes

open Verif.Ranges

/-- the state after the first visit of a node and before those of its arguments in scope `c` -/
structure Entered (nd0 : Nat → Node) (N : Nat) (S : List Nat) (n cur c : Nat) (st st1 : St) : Prop where
  ok : EnterOk st n cur st1
  base : Base nd0 N st1
  le : c ≤ st1.colors
  use : st1.use n = c
  args : ∀ a ∈ (nd0 n).args, At nd0 (n :: S) st1 a c
  flat : (nd0 n).op.ctrl = false → c = cur
  start : (nd0 n).op = .loopStart → c = 0
  loop : (nd0 n).op = .loopEnd → InL st1.nd st1.path c n c
  branch : (nd0 n).op.ends = true → ∀ L e, InL st.nd st.path L e cur → InL st1.nd st1.path L e c

section
variable {nd0 : Nat → Node} {N : Nat} {S : List Nat} {st : St} {n cur : Nat}

/-- the scope of a node at the end of a scope which is being visited -/
theorem Inv.inner_loop (hi : Inv nd0 N S st) {e : Nat} (he : e ∈ S) (h : (nd0 e).op = .loopEnd) :
    InL st.nd st.path (st.inner e) e (st.inner e) := by
  have h1 := hi.opened e he
  have h2 := hi.base.sameEnd h1.1 (by rw [h]; rfl)
  exact (hi.base.loopEnd e h1.2 (by rw [h2]; exact h)).2

theorem Inv.inner_branch (hi : Inv nd0 N S st) {e : Nat} (he : e ∈ S) (h : (nd0 e).op.ends = true) :
    ∃ L el, InL st.nd st.path L el (st.inner e) ∧ st.inner e ≠ L ∧ st.path (st.inner e) = [(L, el), (st.inner e, e)] := by
  have h1 := hi.opened e he
  have h2 := hi.base.sameEnd h1.1 (ends_isEnd h)
  obtain ⟨L, el, h3, h4, h5, _⟩ := hi.base.branch e h1.2 (by rw [h2]; exact h)
  exact ⟨L, el, h3, h4, h5⟩

/-- nodes which do not begin or end a scope -/
theorem enter_flat (hg : LoopGraph nd0 N) (hi : Inv nd0 N S st) (hn : n < N) (h0 : st.count n = 0) (hcur : cur ≤ st.colors)
    (hc : (nd0 n).op.ctrl = false) (oRes : (nd0 n).op = .condRes → ∃ e, 1 ≤ st.count e ∧ (st.nd e).op.isEnd = true ∧
      (st.nd e).args.head? = (st.nd n).args.head? ∧ cur = st.inner e) (oMulti : (nd0 n).op = .multi → cur = 0) :
    let st1 : St := { st with count := set1 st.count n (st.count n + 1), scope := set1 st.scope n cur }
    EnterOk st n cur st1 ∧ Base nd0 N st1 ∧ cur ≤ st1.colors ∧ st1.use n = cur := by
  intro st1
  have hb := hi.base
  have hnd := hb.unv n hn h0
  have ho : EnterOk st n cur st1 := ⟨rfl, rfl, rfl, rfl, le_refl _, fun _ _ => rfl, fun _ _ => rfl⟩
  simp only [Op.ctrl, Bool.or_eq_false_iff] at hc
  have hne : (st.nd n).op.isEnd = false := by rw [hnd]; exact hc.1
  have hnb : (st.nd n).op.begins = false := by rw [hnd]; exact hc.2
  refine ⟨ho, ?_, hcur, ?_⟩
  · refine ho.base hb hn h0 hcur (hg.original n hn).1 hb.beyond ?_ (hb.inners n) ?_ ?_ ?_ ?_ ?_ ?_
    · intro c h1 h2
      have : st1.colors = st.colors := rfl
      omega
    · intro h; rw [h] at hne; cases hne
    · intro h; rw [ends_isEnd h] at hne; cases hne
    · intro h; rw [h] at hnb; cases hnb
    · rintro (h | ⟨rs, h⟩) <;> rw [h] at hnb <;> cases hnb
    · intro h; exact oRes (by rw [← hnd]; exact h)
    · intro h; exact oMulti (by rw [← hnd]; exact h)
  · have h1 : st1.use n = st1.scope n := St.use_value (st := st1) (by show (st.nd n).op.ctrl = false; simp [Op.ctrl, hne, hnb])
    rw [h1]
    exact ho.scopeN

/-- the first node of a scope -/
theorem enter_open (hg : LoopGraph nd0 N) (hi : Inv nd0 N S st) (hn : n < N) (h0 : st.count n = 0) (hcur : cur ≤ st.colors)
    (hop : (nd0 n).op = .loopStart ∨ ∃ rs, (nd0 n).op = .startIf rs) {e : Nat} (hes : e ∈ S) (he : (nd0 e).op.isEnd = true)
    (hh : (nd0 e).args.head? = some n) (hce : cur = st.inner e) {c : Nat} (hcc : c ≤ st.colors) (hpc : st.path c = (st.path cur).dropLast) :
    let st1 : St := { st with count := set1 st.count n (st.count n + 1), scope := set1 st.scope n cur, inner := set1 st.inner n c }
    EnterOk st n cur st1 ∧ Base nd0 N st1 ∧ c ≤ st1.colors ∧ st1.use n = c := by
  intro st1
  have hb := hi.base
  have hnd := hb.unv n hn h0
  have hes1 := hi.opened e hes
  have hend := hb.sameEnd hes1.1 he
  have hne : (st.nd n).op.isEnd = false := by rw [hnd]; rcases hop with h | ⟨rs, h⟩ <;> rw [h] <;> rfl
  have hbg : (st.nd n).op.begins = true := by rw [hnd]; rcases hop with h | ⟨rs, h⟩ <;> rw [h] <;> rfl
  have hin : st1.inner n = c := by show set1 st.inner n c n = c; simp [set1]
  have ho : EnterOk st n cur st1 := ⟨rfl, rfl, rfl, rfl, le_refl _, fun _ _ => rfl, fun m hm => by show set1 st.inner n c m = _; simp [set1, hm]⟩
  refine ⟨ho, ?_, hcc, ?_⟩
  · refine ho.base hb hn h0 hcur (hg.original n hn).1 hb.beyond ?_ (by rw [hin]; exact hcc) ?_ ?_ ?_ ?_ ?_ ?_
    · intro c h1 h2
      have : st1.colors = st.colors := rfl
      omega
    · intro h; rw [h] at hne; cases hne
    · intro h; rw [ends_isEnd h] at hne; cases hne
    · intro _; exact ⟨e, hes1.2, by rw [hend]; exact he, by rw [hend]; exact hh, hce⟩
    · intro _; rw [hin]; exact hpc
    · intro h; rw [h] at hbg; cases hbg
    · intro h; rw [h] at hbg; cases hbg
  · show (if (st.nd n).op.ctrl then st1.inner n else st1.scope n) = c
    simp [Op.ctrl, hbg, hin]

/-- the last node of a scope -/
theorem enter_close (hg : LoopGraph nd0 N) (hi : Inv nd0 N S st) (hn : n < N) (h0 : st.count n = 0) (hcur : cur ≤ st.colors)
    (he : (nd0 n).op.isEnd = true) {p : List (Nat × Nat)}
    (hp : ((nd0 n).op = .loopEnd ∧ cur = 0 ∧ p = []) ∨ ((nd0 n).op.ends = true ∧ ∃ L el, InL st.nd st.path L el L ∧ L ≤ st.colors ∧ p = [(L, el)] ∧
      ((nd0 n).op = .endIf → cur = L)))
    (oBg : (nd0 n).op.begins = true → ∃ e, 1 ≤ st.count e ∧ (st.nd e).op.isEnd = true ∧ (st.nd e).args.head? = some n ∧ cur = st.inner e) :
    let c := st.colors + 1
    let st1 : St := { st with count := set1 st.count n (st.count n + 1), scope := set1 st.scope n cur, path := set1 st.path c (p ++ [(c, n)]),
                              colors := c, inner := set1 st.inner n c }
    EnterOk st n cur st1 ∧ Base nd0 N st1 ∧ c ≤ st1.colors ∧ st1.use n = c ∧ ((nd0 n).op = .loopEnd → InL st1.nd st1.path c n c) ∧
      ((nd0 n).op.ends = true → ∃ L el, p = [(L, el)] ∧ InL st1.nd st1.path L el c) := by
  intro c st1
  have hc : c = st.colors + 1 := rfl
  have hb := hi.base
  have hnd := hb.unv n hn h0
  have hin : st1.inner n = c := by show set1 st.inner n c n = c; simp [set1]
  have hpath : st1.path c = p ++ [(c, n)] := by show set1 st.path c _ c = _; simp [set1]
  have hpo : ∀ d, d ≠ c → st1.path d = st.path d := fun d hd => by show set1 st.path c _ d = _; simp [set1, hd]
  have hcol : st1.colors = c := rfl
  have ho : EnterOk st n cur st1 := ⟨rfl, rfl, rfl, rfl, by rw [hcol, hc]; omega, fun d hd => hpo d (by omega),
    fun m hm => by show set1 st.inner n c m = _; simp [set1, hm]⟩
  have hloop : (nd0 n).op = .loopEnd → cur = 0 ∧ InL st1.nd st1.path c n c := by
    intro h
    rcases hp with ⟨_, h1, h2⟩ | ⟨h1, _⟩
    · refine ⟨h1, ?_, by show (st.nd n).op = _; rw [hnd]; exact h, by omega, Or.inl rfl⟩
      rw [hpath, h2]; rfl
    · exact absurd h (ends_ne_loopEnd h1)
  have hbr : (nd0 n).op.ends = true → ∃ L el, InL st1.nd st1.path L el c ∧ c ≠ L ∧ st1.path c = [(L, el), (c, n)] ∧ ((nd0 n).op = .endIf → cur = L) := by
    intro h
    rcases hp with ⟨h1, _⟩ | ⟨_, L, el, h1, h2, h3, h4⟩
    · exact absurd h1 (ends_ne_loopEnd h)
    · have h5 : st1.path c = [(L, el), (c, n)] := by rw [hpath, h3]; rfl
      refine ⟨L, el, ⟨by rw [hpo L (by omega)]; exact h1.1, h1.2.1, h1.2.2.1, Or.inr ⟨by omega, by omega, n, h5, ?_⟩⟩, by omega, h5, h4⟩
      show (st.nd n).op.ends = true
      rw [hnd]; exact h
  refine ⟨ho, ?_, le_refl _, ?_, fun h => (hloop h).2, fun h => by
    obtain ⟨L, el, h1, h2, h3, h4⟩ := hbr h
    refine ⟨L, el, ?_, h1⟩
    rw [hpath] at h3
    exact List.append_cancel_right (h3 : p ++ [(c, n)] = [(L, el)] ++ [(c, n)])⟩
  · refine ho.base hb hn h0 hcur (hg.original n hn).1 ?_ ?_ (by rw [hin]) ?_ ?_ ?_ ?_ ?_ ?_
    · intro d hd
      rw [hpo d (by omega)]
      exact hb.beyond d (by omega)
    · intro d h1 h2
      have : d = c := by omega
      subst this
      refine ⟨?_, by rw [hnd]; exact he, hin⟩
      rcases isEnd_cases he with h | h
      · exact Or.inr ⟨_, _, (hloop h).2⟩
      · obtain ⟨L, el, h3, _⟩ := hbr h
        exact Or.inr ⟨_, _, h3⟩
    · intro h; rw [hin]; exact hloop (by rw [← hnd]; exact h)
    · intro h
      rw [hin]
      obtain ⟨L, el, h1, h2, h3, h4⟩ := hbr (by rw [← hnd]; exact h)
      exact ⟨L, el, h1, h2, h3, fun h5 => h4 (by rw [← hnd]; exact h5)⟩
    · intro h; exact oBg (by rw [← hnd]; exact h)
    · rw [hnd]; rintro (h | ⟨rs, h⟩) <;> rw [h] at he <;> cases he
    · rw [hnd]; intro h; rw [h] at he; cases he
    · rw [hnd]; intro h; rw [h] at he; cases he
  · show (if (st.nd n).op.ctrl then st1.inner n else st1.scope n) = c
    rw [hnd]
    simp [Op.ctrl, he, hin]

theorem At.endIf {st1 : St} {a e : Nat} (h : (nd0 a).op = .endIf) (hin : InL st1.nd st1.path cur e cur) : At nd0 S st1 a cur := by
  unfold At; rw [h]; exact ⟨e, hin⟩

theorem At.condRes {st1 : St} {a e : Nat} (h : (nd0 a).op = .condRes) (h1 : e ∈ S) (h2 : (nd0 e).op.ends = true)
    (h3 : (nd0 e).args.head? = (nd0 a).args.head?) (h4 : cur = st1.inner e) : At nd0 S st1 a cur := by
  unfold At; rw [h]; exact ⟨e, h1, h2, h3, h4⟩

theorem branch_args (hg : LoopGraph nd0 N) (hn : n < N) {st1 : St} {c : Nat} (he : (nd0 n).op.ends = true) (hc : c = st1.inner n) :
    ∀ a ∈ (nd0 n).args, At nd0 (n :: S) st1 a c := by
  obtain ⟨b, as, h1, ⟨h2, h3⟩, h4⟩ := hg.branch n hn he
  intro a ha
  rw [h1, List.mem_cons] at ha
  rcases ha with h | h
  · subst h
    exact At.begins h2 h3 (by simp) he (by rw [h1]; rfl) hc
  · obtain ⟨v, hv⟩ := h4 a h
    exact At.condRes (e := n) (by rw [hv]) (by simp) he (by rw [h1, hv]; rfl) hc

theorem enter_ok (hg : LoopGraph nd0 N) (hi : Inv nd0 N S st) (hn : n < N) (h0 : st.count n = 0) (hS : n ∉ S) (hcur : cur ≤ st.colors)
    (hat : At nd0 S st n cur) {c : Nat} {st1 : St}
    (h : enter n cur { st with count := set1 st.count n (st.count n + 1) } = .ok (c, st1)) : Entered nd0 N S n cur c st st1 := by
  have hb := hi.base
  have hnd := hb.unv n hn h0
  have hcl := hg.closed n hn
  unfold enter at h
  simp only [hnd] at h
  have flat : (nd0 n).op.ctrl = false → ((nd0 n).op = .condRes → ∃ e, 1 ≤ st.count e ∧ (st.nd e).op.isEnd = true ∧
      (st.nd e).args.head? = (st.nd n).args.head? ∧ cur = st.inner e) → ((nd0 n).op = .multi → cur = 0) →
      (c = cur ∧ st1 = { st with count := set1 st.count n (st.count n + 1), scope := set1 st.scope n cur }) →
      (∀ a ∈ (nd0 n).args, At nd0 (n :: S) st1 a c) → Entered nd0 N S n cur c st st1 := by
    intro h1 h2 h3 h4 h5
    obtain ⟨k1, k2, k3, k4⟩ := enter_flat hg hi hn h0 hcur h1 h2 h3
    rw [h4.1, h4.2] at *
    exact ⟨k1, k2, k3, k4, h5, fun _ => rfl, fun h => (by rw [h] at h1; cases h1), fun h => (by rw [h] at h1; cases h1),
      fun h => (by simp [Op.ctrl, ends_isEnd h] at h1)⟩
  cases ho : (nd0 n).op <;> rw [ho] at h <;> simp only at h
  case indep =>
    simp only [Except.ok.injEq, Prod.mk.injEq] at h
    refine flat (by rw [ho]; rfl) (by rw [ho]; intro h; cases h) (by rw [ho]; intro h; cases h) ⟨h.1.symm, h.2.symm⟩ ?_
    rw [hg.leaf n hn (Or.inl ho)]
    intro a ha; cases ha
  case indexed =>
    simp only [Except.ok.injEq, Prod.mk.injEq] at h
    refine flat (by rw [ho]; rfl) (by rw [ho]; intro h; cases h) (by rw [ho]; intro h; cases h) ⟨h.1.symm, h.2.symm⟩ ?_
    rw [hg.leaf n hn (Or.inr (Or.inl ho))]
    intro a ha; cases ha
  case plain =>
    simp only [Except.ok.injEq, Prod.mk.injEq] at h
    refine flat (by rw [ho]; rfl) (by rw [ho]; intro h; cases h) (by rw [ho]; intro h; cases h) ⟨h.1.symm, h.2.symm⟩ ?_
    exact fun a ha => At.value (hg.plain n hn ho a ha)
  case multi =>
    simp only [Except.ok.injEq, Prod.mk.injEq] at h
    have h1 : cur = 0 := by unfold At at hat; rw [ho] at hat; exact hat
    refine flat (by rw [ho]; rfl) (by rw [ho]; intro h; cases h) (fun _ => h1) ⟨h.1.symm, h.2.symm⟩ ?_
    intro a ha
    rcases hg.multi n hn ho a ha with h2 | h2
    · exact At.value h2
    · unfold At; rw [h2]; rw [← h.1]; exact h1
  case condRes =>
    simp only [Except.ok.injEq, Prod.mk.injEq] at h
    unfold At at hat
    rw [ho] at hat
    obtain ⟨e, h1, h2, h3, h4⟩ := hat
    have h5 := hi.opened e h1
    have h6 := hb.sameEnd h5.1 (ends_isEnd h2)
    refine flat (by rw [ho]; rfl) (fun _ => ⟨e, h5.2, by rw [h6]; exact ends_isEnd h2, by rw [h6, hnd]; exact h3, h4⟩) (by rw [ho]; intro h; cases h)
      ⟨h.1.symm, h.2.symm⟩ ?_
    obtain ⟨b, v, k1, ⟨k2, k3⟩, k4⟩ := hg.condRes n hn ho
    intro a ha
    rw [k1] at ha
    simp only [List.mem_cons, List.not_mem_nil, or_false] at ha
    rcases ha with ha | ha
    · subst ha
      refine At.begins (e := e) k2 k3 (by simp [h1]) h2 (by rw [h3, k1]; rfl) ?_
      rw [← h.1, ← h.2]; exact h4
    · subst ha; exact At.value k4
  case loopStart =>
    unfold At at hat
    rw [ho] at hat
    obtain ⟨e, h1, h2, h3, h4⟩ := hat
    have h5 := hi.inner_loop h1 h2
    rw [← h4] at h5
    have hpar : St.parent { st with count := set1 st.count n (st.count n + 1), scope := set1 st.scope n cur } cur = 0 := by
      simp only [St.parent, h5.1]; rfl
    rw [hpar] at h
    split at h
    · cases h
    · simp only [Except.ok.injEq, Prod.mk.injEq] at h
      obtain ⟨k1, k2, k3, k4⟩ := enter_open hg hi hn h0 hcur (Or.inl ho) h1 (by rw [h2]; rfl) h3 h4 (Nat.zero_le _) (by rw [hb.zero, h5.1]; rfl)
      obtain ⟨ha, hb1⟩ := h
      subst ha
      rw [hb1] at k1 k2 k3 k4
      exact ⟨k1, k2, k3, k4, fun a ha => At.value (hg.loopStart n hn ho a ha), (by rw [ho]; intro h; cases h), fun _ => rfl, (by rw [ho]; intro h; cases h), (by rw [ho]; intro h; cases h)⟩
  case startIf rs =>
    unfold At at hat
    rw [ho] at hat
    obtain ⟨e, h1, h2, h3, h4⟩ := hat
    obtain ⟨L, el, h5, h6, h7⟩ := hi.inner_branch h1 h2
    rw [← h4] at h5 h6 h7
    have hpar : St.parent { st with count := set1 st.count n (st.count n + 1), scope := set1 st.scope n cur } cur = L := by
      simp only [St.parent, h7]; rfl
    rw [hpar] at h
    split at h
    · cases h
    · simp only [Except.ok.injEq, Prod.mk.injEq] at h
      obtain ⟨k1, k2, k3, k4⟩ := enter_open hg hi hn h0 hcur (Or.inr ⟨rs, ho⟩) h1 (ends_isEnd h2) h3 h4 (hb.inLe h5) (by rw [h5.1, h7]; rfl)
      obtain ⟨ha, hb1⟩ := h
      subst ha
      rw [hb1] at k1 k2 k3 k4
      refine ⟨k1, k2, k3, k4, fun a ha => ?_, (by rw [ho]; intro h; cases h), (by rw [ho]; intro h; cases h), (by rw [ho]; intro h; cases h), (by rw [ho]; intro h; cases h)⟩
      rw [hg.leaf n hn (Or.inr (Or.inr ⟨rs, ho⟩))] at ha
      cases ha
  case loopEnd =>
    have h1 : cur = 0 := by unfold At at hat; rw [ho] at hat; exact hat
    split at h
    · cases h
    · simp only [Except.ok.injEq, Prod.mk.injEq] at h
      obtain ⟨k1, k2, k3, k4, k5, k6⟩ := enter_close hg hi hn h0 hcur (by rw [ho]; rfl) (Or.inl ⟨ho, h1, rfl⟩) (by rw [ho]; intro h; cases h)
      obtain ⟨ha, hb1⟩ := h
      subst ha
      rw [h1, hb.zero] at hb1
      rw [h1] at k1 k2 k3 k4 k5 k6 ⊢
      rw [hb1] at k1 k2 k3 k4 k5 k6
      refine ⟨k1, k2, k3, k4, ?_, (by rw [ho]; intro h; cases h), (by rw [ho]; intro h; cases h), k5, (by rw [ho]; intro h; cases h)⟩
      obtain ⟨s, as, m1, m2, m3⟩ := hg.loopEnd n hn ho
      intro a ha
      rw [m1, List.mem_cons] at ha
      rcases ha with ha | ha
      · subst ha
        unfold At
        rw [m2]
        refine ⟨n, by simp, ho, by rw [m1]; rfl, ?_⟩
        rw [← hb1]; simp [set1]
      · rcases m3 a ha with m4 | m4
        · exact At.value m4
        · exact At.endIf m4 (k5 ho)
  case endIf =>
    unfold At at hat
    rw [ho] at hat
    obtain ⟨e, h1⟩ := hat
    have hbr := fun {st1 : St} {c : Nat} (k6 : (nd0 n).op.ends = true → ∃ L el, [(cur, e)] = [(L, el)] ∧ InL st1.nd st1.path L el c)
        (hh : (nd0 n).op.ends = true) (L' e' : Nat) (hL : InL st.nd st.path L' e' cur) => (show InL st1.nd st1.path L' e' c by
      obtain ⟨L, el, h2, h3⟩ := k6 hh
      simp only [List.cons.injEq, Prod.mk.injEq, and_true] at h2
      obtain ⟨h4, h5⟩ := h1.unique hL
      rw [← h4, ← h5, h2.1, h2.2]; exact h3)
    split at h
    · cases h
    · simp only [Except.ok.injEq, Prod.mk.injEq] at h
      obtain ⟨k1, k2, k3, k4, k5, k6⟩ := enter_close hg hi hn h0 hcur (by rw [ho]; rfl)
        (Or.inr ⟨by rw [ho]; rfl, cur, e, h1, hcur, rfl, fun _ => rfl⟩) (by rw [ho]; intro h; cases h)
      obtain ⟨ha, hb1⟩ := h
      subst ha
      rw [h1.1] at hb1
      rw [hb1] at k1 k2 k3 k4 k5 k6
      exact ⟨k1, k2, k3, k4, branch_args hg hn (by rw [ho]; rfl) (by rw [← hb1]; simp [set1]), (by rw [ho]; intro h; cases h), (by rw [ho]; intro h; cases h), k5, hbr k6⟩
  case elseIf rs =>
    unfold At at hat
    rw [ho] at hat
    obtain ⟨e, h1, h2, h3, h4⟩ := hat
    obtain ⟨L, el, h5, h6, h7⟩ := hi.inner_branch h1 h2
    have hes := hi.opened e h1
    have hend := hb.sameEnd hes.1 (ends_isEnd h2)
    rw [← h4] at h5 h6 h7
    have hbr := fun {st1 : St} {c : Nat} (k6 : (nd0 n).op.ends = true → ∃ L' el', [(L, el)] = [(L', el')] ∧ InL st1.nd st1.path L' el' c)
        (hh : (nd0 n).op.ends = true) (L' e' : Nat) (hL : InL st.nd st.path L' e' cur) => (show InL st1.nd st1.path L' e' c by
      obtain ⟨L2, el2, m2, m3⟩ := k6 hh
      simp only [List.cons.injEq, Prod.mk.injEq, and_true] at m2
      obtain ⟨m4, m5⟩ := h5.unique hL
      rw [← m4, ← m5, m2.1, m2.2]; exact m3)
    split at h
    · cases h
    · split at h
      · cases h
      · simp only [Except.ok.injEq, Prod.mk.injEq] at h
        obtain ⟨k1, k2, k3, k4, k5, k6⟩ := enter_close hg hi hn h0 hcur (by rw [ho]; rfl)
          (Or.inr ⟨by rw [ho]; rfl, L, el, h5.loop, hb.inLe h5, rfl, by rw [ho]; intro h; cases h⟩)
          (fun _ => ⟨e, hes.2, by rw [hend]; exact ends_isEnd h2, by rw [hend]; exact h3, h4⟩)
        obtain ⟨ha, hb1⟩ := h
        subst ha
        rw [h7] at hb1
        simp only [List.dropLast_cons_cons, List.dropLast_singleton] at hb1
        rw [hb1] at k1 k2 k3 k4 k5 k6
        exact ⟨k1, k2, k3, k4, branch_args hg hn (by rw [ho]; rfl) (by rw [← hb1]; simp [set1]), (by rw [ho]; intro h; cases h), (by rw [ho]; intro h; cases h), k5, hbr k6⟩
  case els =>
    unfold At at hat
    rw [ho] at hat
    obtain ⟨e, h1, h2, h3, h4⟩ := hat
    obtain ⟨L, el, h5, h6, h7⟩ := hi.inner_branch h1 h2
    have hes := hi.opened e h1
    have hend := hb.sameEnd hes.1 (ends_isEnd h2)
    rw [← h4] at h5 h6 h7
    have hbr := fun {st1 : St} {c : Nat} (k6 : (nd0 n).op.ends = true → ∃ L' el', [(L, el)] = [(L', el')] ∧ InL st1.nd st1.path L' el' c)
        (hh : (nd0 n).op.ends = true) (L' e' : Nat) (hL : InL st.nd st.path L' e' cur) => (show InL st1.nd st1.path L' e' c by
      obtain ⟨L2, el2, m2, m3⟩ := k6 hh
      simp only [List.cons.injEq, Prod.mk.injEq, and_true] at m2
      obtain ⟨m4, m5⟩ := h5.unique hL
      rw [← m4, ← m5, m2.1, m2.2]; exact m3)
    split at h
    · cases h
    · split at h
      · cases h
      · simp only [Except.ok.injEq, Prod.mk.injEq] at h
        obtain ⟨k1, k2, k3, k4, k5, k6⟩ := enter_close hg hi hn h0 hcur (by rw [ho]; rfl)
          (Or.inr ⟨by rw [ho]; rfl, L, el, h5.loop, hb.inLe h5, rfl, by rw [ho]; intro h; cases h⟩)
          (fun _ => ⟨e, hes.2, by rw [hend]; exact ends_isEnd h2, by rw [hend]; exact h3, h4⟩)
        obtain ⟨ha, hb1⟩ := h
        subst ha
        rw [h7] at hb1
        simp only [List.dropLast_cons_cons, List.dropLast_singleton] at hb1
        rw [hb1] at k1 k2 k3 k4 k5 k6
        exact ⟨k1, k2, k3, k4, branch_args hg hn (by rw [ho]; rfl) (by rw [← hb1]; simp [set1]), (by rw [ho]; intro h; cases h), (by rw [ho]; intro h; cases h), k5, hbr k6⟩
  all_goals (unfold At at hat; rw [ho] at hat; exact hat.elim)

end

end Verif.Scopes
