import Verif.Scopes.LemmasVisit

/-
Lemmas: the first visit of a node.
-/
namespace Verif.Scopes

open Verif.Ranges

/-- where a node is visited: nodes at the beginning of a scope are reached from the node at its end, which is being visited -/
def At (nd0 : Nat → Node) (S : List Nat) (st : St) (n cur : Nat) : Prop :=
  match (nd0 n).op with
  | .plain | .indep | .indexed => True
  | .multi | .loopEnd => cur = 0
  | .endIf => ∃ e, InL st.nd st.path cur e cur
  | .loopStart => ∃ e ∈ S, (nd0 e).op = .loopEnd ∧ (nd0 e).args.head? = some n ∧ cur = st.inner e
  | .startIf _ | .elseIf _ | .els => ∃ e ∈ S, (nd0 e).op.ends = true ∧ (nd0 e).args.head? = some n ∧ cur = st.inner e
  | .condRes => ∃ e ∈ S, (nd0 e).op.ends = true ∧ (nd0 e).args.head? = (nd0 n).args.head? ∧ cur = st.inner e
  | _ => False

section
variable {nd0 : Nat → Node} {N : Nat} {R : Nat → Nat} {S : List Nat} {st st1 : St} {n cur : Nat}

theorem At.value (h : (nd0 n).op.isValue = true) : At nd0 S st n cur := by
  unfold At
  rcases value_cases h with h1 | h1 | h1 <;> rw [h1] <;> trivial

theorem At.begins {e : Nat} (h : (nd0 n).op.begins = true) (hl : (nd0 n).op ≠ .loopStart) (he : e ∈ S) (h1 : (nd0 e).op.ends = true)
    (h2 : (nd0 e).args.head? = some n) (h3 : cur = st.inner e) : At nd0 S st n cur := by
  unfold At
  cases ho : (nd0 n).op <;> simp_all [Op.begins]
  all_goals exact ⟨e, he, h1, h2, rfl⟩

theorem At.begin {h : (nd0 n).op.begins = true} (hl : (nd0 n).op ≠ .loopStart) (hat : At nd0 S st n cur) :
    ∃ e ∈ S, (nd0 e).op.ends = true ∧ (nd0 e).args.head? = some n ∧ cur = st.inner e := by
  unfold At at hat
  cases ho : (nd0 n).op <;> rw [ho] at hat h hl
  all_goals first
    | exact hat
    | exact absurd rfl hl
    | cases h

theorem Base.same (hb : Base nd0 N st) (hn : n < N) (h : (nd0 n).op ≠ .plain) : st.nd n = nd0 n := by
  rcases hb.orig n hn with h1 | h1
  · exact h1
  · exact absurd h1.1 h

theorem Base.sameEnd (hb : Base nd0 N st) (hn : n < N) (h : (nd0 n).op.isEnd = true) : st.nd n = nd0 n :=
  hb.same hn (fun h' => Op.isEnd_pt h (Or.inl h'))

theorem ends_isEnd {o : Op} (h : o.ends = true) : o.isEnd = true := by simp [Op.isEnd, h]

theorem Base.needed (hb : Base nd0 N st) (hn : n < N) : (st.nd n).op.needed = (nd0 n).op.needed := by
  rcases hb.orig n hn with h1 | h1
  · rw [h1]
  · rw [h1.1, h1.2]; rfl

/-- places are not affected by other visits -/
theorem At.ext {st' : St} (hb : Base nd0 N st) (hS : ∀ s ∈ S, s < N ∧ 1 ≤ st.count s) (he : Ext st st') (hc : cur ≤ st.colors)
    (h : At nd0 S st n cur) : At nd0 S st' n cur := by
  have key : ∀ e ∈ S, (nd0 e).op.isEnd = true → st'.inner e = st.inner e := by
    intro e hes h1
    have h2 := hb.sameEnd (hS e hes).1 h1
    exact he.inner e (hS e hes).2 (by rw [h2]; simp [Op.ctrl, h1])
  unfold At at h ⊢
  cases ho : (nd0 n).op <;> rw [ho] at h <;> simp only at h ⊢
  case loopStart =>
    obtain ⟨e, h1, h2, h3, h4⟩ := h
    exact ⟨e, h1, h2, h3, by rw [key e h1 (by rw [h2]; rfl)]; exact h4⟩
  case loopEnd => exact h
  case multi => exact h
  case startIf =>
    obtain ⟨e, h1, h2, h3, h4⟩ := h
    exact ⟨e, h1, h2, h3, by rw [key e h1 (ends_isEnd h2)]; exact h4⟩
  case elseIf =>
    obtain ⟨e, h1, h2, h3, h4⟩ := h
    exact ⟨e, h1, h2, h3, by rw [key e h1 (ends_isEnd h2)]; exact h4⟩
  case els =>
    obtain ⟨e, h1, h2, h3, h4⟩ := h
    exact ⟨e, h1, h2, h3, by rw [key e h1 (ends_isEnd h2)]; exact h4⟩
  case condRes =>
    obtain ⟨e, h1, h2, h3, h4⟩ := h
    exact ⟨e, h1, h2, h3, by rw [key e h1 (ends_isEnd h2)]; exact h4⟩
  case endIf =>
    obtain ⟨e, h1⟩ := h
    exact ⟨e, inL_ext hb he.ctl he.path hc h1⟩

/-- the changes at the first visit -/
structure EnterOk (st : St) (n cur : Nat) (st1 : St) : Prop where
  nd : st1.nd = st.nd
  size : st1.size = st.size
  scope : st1.scope = set1 st.scope n cur
  count : st1.count = set1 st.count n (st.count n + 1)
  colors : st.colors ≤ st1.colors
  path : ∀ c ≤ st.colors, st1.path c = st.path c
  inner : ∀ m, m ≠ n → st1.inner m = st.inner m

section
variable (ho : EnterOk st n cur st1)
include ho

theorem EnterOk.scopeN : st1.scope n = cur := by rw [ho.scope]; simp [set1]

theorem EnterOk.scopeO {m : Nat} (h : m ≠ n) : st1.scope m = st.scope m := by rw [ho.scope]; simp [set1, h]

theorem EnterOk.countN : 1 ≤ st1.count n := by rw [ho.count]; simp [set1]

theorem EnterOk.countO {m : Nat} (h : m ≠ n) : st1.count m = st.count m := by rw [ho.count]; simp [set1, h]

theorem EnterOk.ctl : SameCtl st.nd st1.nd st.size := by rw [ho.nd]; exact SameCtl.refl _ _

theorem EnterOk.ext (hb : Base nd0 N st) (h0 : st.count n = 0) : Ext st st1 := by
  have hne : ∀ m, 1 ≤ st.count m → m ≠ n := by intro m hm h; subst h; omega
  refine ⟨by rw [ho.size], ho.colors, ho.path, ho.ctl, fun m hm => by rw [ho.countO (hne m hm)]; exact hm,
    fun m hm _ => ho.inner m (hne m hm), fun m hm _ => ho.scopeO (hne m hm), fun m hm _ => by rw [ho.scopeO (hne m hm)]; exact W.refl _⟩

theorem EnterOk.avail (hb : Base nd0 N st) (h0 : st.count n = 0) (ha : Avail S st) : Avail (n :: S) st1 := by
  intro u hu hS a hau
  simp only [List.mem_cons, not_or] at hS
  rw [ho.countO hS.1] at hu
  rw [ho.nd] at hau
  obtain ⟨h1, h2, h3⟩ := ha u hu hS.2 a hau
  have han : a ≠ n := by intro h; subst h; omega
  refine ⟨by rw [ho.countO han]; exact h1, by simp [han, h2], fun hna => ?_⟩
  have huse : st1.use u = st.use u := by
    simp only [St.use, ho.nd, ho.inner u hS.1, ho.scopeO hS.1]
  have hle : st.use u ≤ st.colors := by
    unfold St.use
    split
    · exact hb.inners u
    · exact hb.scopes u
  rw [huse, ho.scopeO han]
  rw [ho.nd] at hna
  exact w_ext hb ho.ctl ho.path hle (hb.scopes a) (h3 hna)

theorem EnterOk.base (hb : Base nd0 N st) (hn : n < N) (h0 : st.count n = 0) (hcur : cur ≤ st.colors) (hnt : (nd0 n).op ≠ .tmp)
    (hbey : ∀ c, st1.colors < c → st1.path c = [])
    (hnew : ∀ c, st.colors < c → c ≤ st1.colors → PathOk st1.nd st1.path c ∧ (st.nd n).op.isEnd = true ∧ st1.inner n = c)
    (hin : st1.inner n ≤ st1.colors)
    (oLE : (st.nd n).op = .loopEnd → cur = 0 ∧ InL st1.nd st1.path (st1.inner n) n (st1.inner n))
    (oBr : (st.nd n).op.ends = true → ∃ L el, InL st1.nd st1.path L el (st1.inner n) ∧ st1.inner n ≠ L ∧
      st1.path (st1.inner n) = [(L, el), (st1.inner n, n)] ∧ ((st.nd n).op = .endIf → cur = L))
    (oBg : (st.nd n).op.begins = true → ∃ e, 1 ≤ st.count e ∧ (st.nd e).op.isEnd = true ∧ (st.nd e).args.head? = some n ∧ cur = st.inner e)
    (oOp : ((st.nd n).op = .loopStart ∨ ∃ rs, (st.nd n).op = .startIf rs) → st1.path (st1.inner n) = (st1.path cur).dropLast)
    (oRes : (st.nd n).op = .condRes → ∃ e, 1 ≤ st.count e ∧ (st.nd e).op.isEnd = true ∧ (st.nd e).args.head? = (st.nd n).args.head? ∧ cur = st.inner e)
    (oMulti : (st.nd n).op = .multi → cur = 0) : Base nd0 N st1 := by
  have hsz := hb.size
  have hcn := ho.countN
  have inl : ∀ {L e c}, c ≤ st.colors → InL st.nd st.path L e c → InL st1.nd st1.path L e c := fun hc h => inL_ext hb ho.ctl ho.path hc h
  have old : ∀ m, m ≠ n → 1 ≤ st1.count m → 1 ≤ st.count m := fun m hm h => by rw [ho.countO hm] at h; exact h
  have vis : ∀ m, 1 ≤ st.count m → m ≠ n ∧ 1 ≤ st1.count m := by
    intro m hm
    have : m ≠ n := by intro h; subst h; omega
    exact ⟨this, by rw [ho.countO this]; exact hm⟩
  refine ⟨by rw [ho.size]; exact hsz, by rw [ho.nd]; exact hb.orig, ?_, ?_, by rw [ho.nd, ho.size]; exact hb.closed, ?_, ?_, hbey, ?_, ?_,
    by rw [ho.nd, ho.size]; exact hb.conds, by rw [ho.nd, ho.size]; exact hb.uniq, ?_, ?_, ?_, ?_, ?_, ?_, ?_, by rw [ho.nd, ho.size]; exact hb.head,
    by rw [ho.nd, ho.size]; exact hb.small,
    by rw [ho.nd, ho.size]; exact hb.rest⟩
  · intro m hm hc
    have hmn : m ≠ n := by intro h; subst h; omega
    rw [ho.countO hmn] at hc
    rw [ho.nd]
    exact hb.unv m hm hc
  · intro m hm
    rw [ho.size] at hm
    rw [ho.countO (by omega)]
    exact hb.big m hm
  · intro m hm h
    rw [ho.nd] at h
    have hmn : m ≠ n := by
      intro h'
      subst h'
      rw [hb.unv m hm h0] at h
      exact hnt h
    obtain ⟨d, e, x, r, t, k, L, el, h1, h2, h3, h4, h5, h6, h7, h8, h9, h10, h11⟩ := hb.tmp m hm h
    have hk : k ≠ n := by omega
    exact ⟨d, e, x, r, t, k, L, el, by rw [ho.nd]; exact h1, by rw [ho.nd]; exact h2, by rw [ho.nd]; exact h3, by rw [ho.nd]; exact h4,
      by rw [ho.nd]; exact h5, h6, by rw [ho.size]; exact h7, by rw [ho.countO hk]; exact h8, by rw [ho.scopeO hmn]; exact h9,
      by rw [ho.scopeO hk]; exact inl (hb.scopes k) h10, by rw [ho.scopeO hk]; exact h11⟩
  · intro c hc
    by_cases h : c ≤ st.colors
    · exact pathOk_ext hb ho.ctl ho.path h
    · exact (hnew c (by omega) hc).1
  · intro m
    have := ho.colors
    by_cases h : m = n
    · subst h; rw [ho.scopeN]; omega
    · rw [ho.scopeO h]; have := hb.scopes m; omega
  · intro m
    have := ho.colors
    by_cases h : m = n
    · subst h; exact hin
    · rw [ho.inner m h]; have := hb.inners m; omega
  · intro e hv h
    rw [ho.nd] at h
    by_cases hen : e = n
    · subst hen; rw [ho.scopeN]; exact oLE h
    · obtain ⟨h1, h2⟩ := hb.loopEnd e (old e hen hv) h
      rw [ho.scopeO hen, ho.inner e hen]
      exact ⟨h1, inl (hb.inners e) h2⟩
  · intro e hv h
    rw [ho.nd] at h
    by_cases hen : e = n
    · subst hen
      obtain ⟨L, el, h1, h2, h3, h4⟩ := oBr h
      exact ⟨L, el, h1, h2, h3, fun h5 => by rw [ho.scopeN]; rw [ho.nd] at h5; exact h4 h5⟩
    · obtain ⟨L, el, h1, h2, h3, h4⟩ := hb.branch e (old e hen hv) h
      rw [ho.scopeO hen, ho.inner e hen]
      exact ⟨L, el, inl (hb.inners e) h1, h2, by rw [ho.path _ (hb.inners e)]; exact h3, fun h5 => by rw [ho.nd] at h5; exact h4 h5⟩
  · intro b hv h
    rw [ho.nd] at h
    by_cases hbn : b = n
    · subst hbn
      obtain ⟨e, h1, h2, h3, h4⟩ := oBg h
      exact ⟨e, (vis e h1).2, by rw [ho.nd]; exact h2, by rw [ho.nd]; exact h3, by rw [ho.scopeN, ho.inner e (vis e h1).1]; exact h4⟩
    · obtain ⟨e, h1, h2, h3, h4⟩ := hb.begins b (old b hbn hv) h
      exact ⟨e, (vis e h1).2, by rw [ho.nd]; exact h2, by rw [ho.nd]; exact h3, by rw [ho.scopeO hbn, ho.inner e (vis e h1).1]; exact h4⟩
  · intro b hv h
    rw [ho.nd] at h
    by_cases hbn : b = n
    · subst hbn; rw [ho.scopeN]; exact oOp h
    · rw [ho.scopeO hbn, ho.inner b hbn, ho.path _ (hb.inners b), ho.path _ (hb.scopes b)]
      exact hb.opens b (old b hbn hv) h
  · intro r hv h
    rw [ho.nd] at h
    by_cases hrn : r = n
    · subst hrn
      obtain ⟨e, h1, h2, h3, h4⟩ := oRes h
      exact ⟨e, (vis e h1).2, by rw [ho.nd]; exact h2, by rw [ho.nd]; exact h3, by rw [ho.scopeN, ho.inner e (vis e h1).1]; exact h4⟩
    · obtain ⟨e, h1, h2, h3, h4⟩ := hb.res r (old r hrn hv) h
      exact ⟨e, (vis e h1).2, by rw [ho.nd]; exact h2, by rw [ho.nd]; exact h3, by rw [ho.scopeO hrn, ho.inner e (vis e h1).1]; exact h4⟩
  · intro m hv h
    rw [ho.nd] at h
    by_cases hmn : m = n
    · subst hmn; rw [ho.scopeN]; exact oMulti h
    · rw [ho.scopeO hmn]; exact hb.multi m (old m hmn hv) h
  · intro c h1 h2
    by_cases h : c ≤ st.colors
    · obtain ⟨e, h3, h4, h5⟩ := hb.color c h1 h
      exact ⟨e, (vis e h3).2, by rw [ho.nd]; exact h4, by rw [ho.inner e (vis e h3).1]; exact h5⟩
    · obtain ⟨_, h3, h4⟩ := hnew c (by omega) h2
      exact ⟨n, hcn, by rw [ho.nd]; exact h3, h4⟩

end

end

end Verif.Scopes
