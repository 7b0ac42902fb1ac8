import Verif.Scopes.LemmasFirst

/-
Lemmas: all visits.
-/
namespace Verif.Scopes

open Verif.Ranges

section
variable {nd0 : Nat → Node} {N : Nat} {R : Nat → Nat} {S : List Nat} {st st' : St}

/-- counting one more use of a node which does not use others or was visited before -/
theorem Inv.use (hi : Inv nd0 N S st) {n : Nat} (hn : n < N) (hc : 1 ≤ st.count n ∨ ((nd0 n).op = .indep ∧ (nd0 n).args = [])) :
    Inv nd0 N S { st with count := set1 st.count n (st.count n + 1) } := by
  have hb := hi.base
  have vis : ∀ m, 1 ≤ st.count m → 1 ≤ set1 st.count n (st.count n + 1) m := by
    intro m hm
    unfold set1
    split
    · omega
    · exact hm
  have back : ∀ m, 1 ≤ set1 st.count n (st.count n + 1) m → 1 ≤ st.count m ∨ (m = n ∧ (st.nd n).op = .indep ∧ (st.nd n).args = []) := by
    intro m hm
    unfold set1 at hm
    split at hm
    · rename_i h
      rcases hc with h1 | ⟨h1, h2⟩
      · left; rw [h]; exact h1
      · have := hb.same hn (by rw [h1]; intro h; cases h)
        right; rw [this]; exact ⟨h, h1, h2⟩
    · exact Or.inl hm
  have old : ∀ m, 1 ≤ set1 st.count n (st.count n + 1) m → (st.nd m).op ≠ .indep → 1 ≤ st.count m := by
    intro m hm h
    rcases back m hm with h1 | ⟨h1, h2, _⟩
    · exact h1
    · subst h1; exact absurd h2 h
  refine ⟨⟨hb.size, hb.orig, ?_, ?_, hb.closed, ?_, hb.paths, hb.beyond, hb.scopes, hb.inners, hb.conds, hb.uniq, ?_, ?_, ?_, ?_, ?_, ?_, ?_, hb.head, hb.small, hb.rest⟩, ?_, ?_⟩
  · intro m hm h
    apply hb.unv m hm
    by_contra h1
    have := vis m (by omega)
    have h : set1 st.count n (st.count n + 1) m = 0 := h
    omega
  · intro m hm
    show set1 st.count n (st.count n + 1) m = 0
    have h1 : st.size ≤ m := hm
    have h2 := hb.size
    rw [set1, if_neg (by omega)]
    exact hb.big m h1
  · intro m hm h
    obtain ⟨d, e, x, r, t, k, L, el, h1, h2, h3, h4, h5, h6, h7, h8, h9⟩ := hb.tmp m hm h
    exact ⟨d, e, x, r, t, k, L, el, h1, h2, h3, h4, h5, h6, h7, vis k h8, h9⟩
  · intro e hv h; exact hb.loopEnd e (old e hv (by intro h'; rw [h] at h'; cases h')) h
  · intro e hv h; exact hb.branch e (old e hv (by intro h'; rw [h'] at h; cases h)) h
  · intro b hv h
    obtain ⟨e, h1, h2⟩ := hb.begins b (old b hv (by intro h'; rw [h'] at h; cases h)) h
    exact ⟨e, vis e h1, h2⟩
  · intro b hv h; exact hb.opens b (old b hv (by intro h'; rcases h with h | ⟨rs, h⟩ <;> rw [h'] at h <;> cases h)) h
  · intro r hv h
    obtain ⟨e, h1, h2⟩ := hb.res r (old r hv (by intro h'; rw [h] at h'; cases h')) h
    exact ⟨e, vis e h1, h2⟩
  · intro m hv h; exact hb.multi m (old m hv (by intro h'; rw [h] at h'; cases h')) h
  · intro c h1 h2
    obtain ⟨e, h3, h4⟩ := hb.color c h1 h2
    exact ⟨e, vis e h3, h4⟩
  · intro u hu hS a ha
    rcases back u hu with h1 | ⟨h1, _, h2⟩
    · obtain ⟨k1, k2, k3⟩ := hi.avail u h1 hS a ha
      exact ⟨vis a k1, k2, k3⟩
    · subst h1
      have ha : a ∈ (st.nd u).args := ha
      rw [h2] at ha
      cases ha
  · intro s hs; exact ⟨(hi.opened s hs).1, vis s (hi.opened s hs).2⟩

theorem Ext.count {n k : Nat} (hk : st.count n ≤ k) : Ext st { st with count := set1 st.count n k } := by
  refine ⟨le_refl _, le_refl _, fun _ _ => rfl, SameCtl.refl _ _, fun m hm => ?_, fun _ _ _ => rfl, fun _ _ _ => rfl, fun _ _ _ => W.refl _⟩
  show 1 ≤ set1 st.count n k m
  unfold set1
  split
  · rename_i h; subst h; omega
  · exact hm

/-! ### moving values does not visit nodes -/

theorem update_count : ∀ (f x usage old : Nat) (st st' : St), update f x usage old st = .ok st' → st'.count = st.count
  | 0, _, _, _, _, _, h => by simp [update] at h
  | f + 1, x, usage, old, st, st', h => by
    have fold : ∀ (as : List Nat) (u o : Nat) (s s' : St), as.foldlM (fun s a => update f a u o s) s = .ok s' → s'.count = s.count := by
      intro as u o
      induction as with
      | nil =>
        intro s s' h
        simp only [List.foldlM_nil, pure, Except.pure, Except.ok.injEq] at h
        rw [h]
      | cons a as ih =>
        intro s s' h
        rw [List.foldlM_cons] at h
        cases hx : update f a u o s with
        | error x => rw [hx] at h; simp only [bind, Except.bind] at h; cases h
        | ok s1 =>
          rw [hx] at h
          simp only [bind, Except.bind] at h
          rw [ih s1 s' h, update_count f a u o s s1 hx]
    unfold update at h
    split at h
    · simp only [Except.ok.injEq] at h; rw [h]
    · simp only at h
      generalize (if st.scope x = old then usage else st.common (st.scope x) usage) = new at h
      split at h
      · simp only [Except.ok.injEq] at h; rw [h]
      · rw [fold _ _ _ _ _ h]

theorem foldl_update_count {f u o : Nat} : ∀ (as : List Nat) (s s' : St), as.foldlM (fun s a => update f a u o s) s = .ok s' →
    s'.count = s.count
  | [], s, s', h => by
    simp only [List.foldlM_nil, pure, Except.pure, Except.ok.injEq] at h
    rw [h]
  | a :: as, s, s', h => by
    rw [List.foldlM_cons] at h
    cases hx : update f a u o s with
    | error x => rw [hx] at h; simp only [bind, Except.bind] at h; cases h
    | ok s1 =>
      rw [hx] at h
      simp only [bind, Except.bind] at h
      rw [foldl_update_count as s1 s' h, update_count f a u o s s1 hx]

theorem move_count {f n old new : Nat} {st st' : St} (h : move f n old new st = .ok st') : st'.count = st.count := by
  unfold move at h
  rw [foldl_update_count _ _ _ h]

theorem alter_count {f n old new : Nat} {rs : List (Nat × Nat)} {st st' : St} (h : alter f n rs old new st = .ok st') :
    ∀ m < st.size, st'.count m = st.count m := by
  unfold alter at h
  split at h
  · cases h
  · intro m hm
    rw [foldl_update_count _ _ _ h]
    simp only [altered]
    rw [if_neg (by omega)]

theorem restore_count {f n cur : Nat} {st st' : St} (h : restore f n cur st = .ok st') : st'.count = st.count := by
  unfold restore at h
  split at h
  · split at h
    · split at h
      · split at h
        · rw [foldl_update_count _ _ _ h]
        · cases h
      · cases h
    · cases h
  · cases h

theorem handle_count {f n cur old new : Nat} {st st' : St} (h : handle f n cur old new st = .ok st') : ∀ m < st.size, st'.count m = st.count m := by
  unfold handle at h
  split at h
  · rw [move_count h]; intros; rfl
  · split at h
    · split at h
      · split at h
        · split at h
          · split at h
            · cases h
            · split at h
              · rw [move_count h]; intros; rfl
              · exact alter_count h
          · cases h
        · cases h
      · rw [move_count h]; intros; rfl
    · cases h

theorem revisit_count {f n cur : Nat} {st st' : St} (h : revisit f n cur st = .ok st') : ∀ m < st.size, st'.count m = st.count m := by
  unfold revisit at h
  split at h
  · split at h
    · rw [restore_count h]; intros; rfl
    · simp only [Except.ok.injEq] at h
      rw [h]; intros; rfl
  · simp only [Except.ok.injEq] at h
    rw [h]; intros; rfl
  · split at h
    · simp only [Except.ok.injEq] at h
      rw [h]; intros; rfl
    · simp only at h
      split at h
      · simp only [Except.ok.injEq] at h
        rw [h]; intros; rfl
      · exact handle_count h

/-! ### values stay in their loop -/

/-- the scope of a visited node is in its loop -/
def OwnAt (own : Nat → Option Nat) (st : St) (n : Nat) : Prop :=
  match own n with
  | none => st.scope n = 0
  | some e => st.scope n = 0 ∨ ∃ L, InL st.nd st.path L e (st.scope n)

def Own (nd0 : Nat → Node) (N : Nat) (own : Nat → Option Nat) (st : St) : Prop :=
  ∀ n < N, 1 ≤ st.count n → (nd0 n).op.needed = true → OwnAt own st n

/-- a node is visited in its loop, after the values outside of the loop -/
def Ready (nd0 : Nat → Node) (own : Nat → Option Nat) (st : St) (n cur : Nat) : Prop :=
  match own n with
  | none => cur = 0 ∨ 1 ≤ st.count n
  | some e => (∃ L, InL st.nd st.path L e cur) ∧
    ((nd0 n).op = .loopStart ∨ ∀ s, (nd0 e).args.head? = some s → ∀ a ∈ (nd0 s).args, 1 ≤ st.count a)

theorem w_from_zero (hb : Base nd0 N st) {d : Nat} (hd : d ≤ st.colors) (h : W st.nd st.path 0 d) : d = 0 := by
  rcases hb.paths d hd with h1 | ⟨L, e, h1⟩
  · exact h1.1
  · have h2 := InL.loops (P := ⟨st.nd, fun _ => 0, st.path⟩) h1
    have h3 := h.1.1
    rw [h2] at h3
    have h4 : Placed.loops ⟨st.nd, fun _ => 0, st.path⟩ 0 = [] := by
      unfold Placed.loops
      simp only [hb.zero]
      rfl
    rw [h4] at h3
    exact absurd (List.eq_nil_of_prefix_nil h3) (by simp)

theorem OwnAt.ext {own : Nat → Option Nat} (hb : Base nd0 N st) (hb' : Base nd0 N st') (he : Ext st st') {n : Nat} (hn : n < N) (hv : 1 ≤ st.count n)
    (hne : (nd0 n).op.needed = true) (h : OwnAt own st n) : OwnAt own st' n := by
  have hw := he.up n hv (by rw [hb.needed hn]; exact hne)
  unfold OwnAt at h ⊢
  cases ho : own n with
  | none =>
    rw [ho] at h
    simp only at h ⊢
    rw [h] at hw
    exact w_from_zero hb' (hb'.scopes n) hw
  | some e =>
    rw [ho] at h
    simp only at h ⊢
    rcases h with h | ⟨L, h⟩
    · rw [h] at hw
      exact Or.inl (w_from_zero hb' (hb'.scopes n) hw)
    · have h1 := inL_ext hb he.ctl he.path (hb.scopes n) h
      rcases w_head h1 (hb'.paths _ (hb'.scopes n)) hw with h2 | h2
      · exact Or.inl h2
      · exact Or.inr ⟨L, h2⟩

theorem Ready.ext {own : Nat → Option Nat} (hb : Base nd0 N st) (he : Ext st st') {n cur : Nat} (hc : cur ≤ st.colors)
    (h : Ready nd0 own st n cur) : Ready nd0 own st' n cur := by
  unfold Ready at h ⊢
  cases ho : own n with
  | none =>
    rw [ho] at h
    rcases h with h | h
    · exact Or.inl h
    · exact Or.inr (he.vis n h)
  | some e =>
    rw [ho] at h
    obtain ⟨⟨L, h1⟩, h2⟩ := h
    refine ⟨⟨L, inL_ext hb he.ctl he.path hc h1⟩, ?_⟩
    rcases h2 with h2 | h2
    · exact Or.inl h2
    · exact Or.inr fun s hs a ha => he.vis a (h2 s hs a ha)

/-- a loop has one scope -/
theorem InL.same (hb : Base nd0 N st) {L L' e c d : Nat} (h : InL st.nd st.path L e c) (h' : InL st.nd st.path L' e d) : L = L' := by
  have h1 := (hb.pathEnd (hb.inLe h) (el := (L, e)) (by rw [h.1]; simp)).2.2.2
  have h2 := (hb.pathEnd (hb.inLe h') (el := (L', e)) (by rw [h'.1]; simp)).2.2.2
  exact h1.symm.trans h2

/-- the place of a value which is visited again -/
theorem own_place {own : Nat → Option Nat} (hb : Base nd0 N st) {n cur : Nat} (h : OwnAt own st n) (hr : Ready nd0 own st n cur) :
    st.scope n = 0 ∨ ∃ L e, InL st.nd st.path L e (st.scope n) ∧ InL st.nd st.path L e cur := by
  unfold OwnAt at h
  unfold Ready at hr
  cases ho : own n with
  | none =>
    rw [ho] at h
    exact Or.inl h
  | some e =>
    rw [ho] at h hr
    simp only at h hr
    rcases h with h | ⟨L, h⟩
    · exact Or.inl h
    · obtain ⟨⟨L', h1⟩, _⟩ := hr
      have := h.same hb h1
      subst this
      exact Or.inr ⟨L, e, h, h1⟩

/-- nodes of the original graph at the beginning or the end of a scope are always used in the same scope -/
theorem revisit_control (hi : Inv nd0 N S st) {f n cur : Nat} (hn : n < N) (hv : 1 ≤ st.count n) (hval : (nd0 n).op.isValue = false)
    (hat : At nd0 S st n cur)
    (hpl : st.scope n = 0 ∨ ∃ L e, InL st.nd st.path L e (st.scope n) ∧ InL st.nd st.path L e cur)
    (h : revisit f n cur st = .ok st') : Done nd0 N R S n cur st st' := by
  have hb := hi.base
  have hnp : (nd0 n).op ≠ .plain := by intro h'; rw [h'] at hval; cases hval
  have hni : (nd0 n).op ≠ .indexed := by intro h'; rw [h'] at hval; cases hval
  have hnd := hb.same hn hnp
  have hnt : (nd0 n).op ≠ .tmp := by intro h'; unfold At at hat; rw [h'] at hat; exact hat
  have hrev : revisit f n cur st = if st.scope n = cur then .ok st else
      if st.scope n = st.common (st.scope n) cur then .ok st else handle f n cur (st.scope n) (st.common (st.scope n) cur) st := by
    unfold revisit
    rw [hnd]
    cases ho : (nd0 n).op <;> simp only
    · exact absurd ho hni
    · exact absurd ho hnt
  have same : st.scope n = cur → Done nd0 N R S n cur st st' := by
    intro h1
    rw [hrev, if_pos h1] at h
    simp only [Except.ok.injEq] at h
    subst h
    exact Done.of_same hi hv (fun _ => by rw [h1]; exact W.refl _)
  have begins : ∀ {e}, e ∈ S → (nd0 e).op.isEnd = true → (nd0 e).args.head? = some n → cur = st.inner e → (nd0 n).op.begins = true →
      Done nd0 N R S n cur st st' := by
    intro e h1 h2 h3 h4 h5
    have h6 := hi.opened e h1
    have h7 := hb.sameEnd h6.1 h2
    obtain ⟨e', k1, k2, k3, k4⟩ := hb.begins n hv (by rw [hnd]; exact h5)
    have := hb.uniq e (hb.visLt h6.2) e' (hb.visLt k1) (by rw [h7]; exact h2) k2 (by rw [h7, h3, k3])
    subst this
    exact same (by rw [k4, h4])
  cases ho : (nd0 n).op
  case indep => rw [ho] at hval; cases hval
  case plain => exact absurd ho hnp
  case indexed => exact absurd ho hni
  case multi =>
    have h1 : cur = 0 := by unfold At at hat; rw [ho] at hat; exact hat
    exact same (by rw [h1]; exact hb.multi n hv (by rw [hnd]; exact ho))
  case loopEnd =>
    have h1 : cur = 0 := by unfold At at hat; rw [ho] at hat; exact hat
    exact same (by rw [h1]; exact (hb.loopEnd n hv (by rw [hnd]; exact ho)).1)
  case loopStart =>
    unfold At at hat; rw [ho] at hat
    obtain ⟨e, h1, h2, h3, h4⟩ := hat
    exact begins h1 (by rw [h2]; rfl) h3 h4 (by rw [ho]; rfl)
  case startIf rs =>
    unfold At at hat; rw [ho] at hat
    obtain ⟨e, h1, h2, h3, h4⟩ := hat
    exact begins h1 (ends_isEnd h2) h3 h4 (by rw [ho]; rfl)
  case elseIf rs =>
    unfold At at hat; rw [ho] at hat
    obtain ⟨e, h1, h2, h3, h4⟩ := hat
    exact begins h1 (ends_isEnd h2) h3 h4 (by rw [ho]; rfl)
  case els =>
    unfold At at hat; rw [ho] at hat
    obtain ⟨e, h1, h2, h3, h4⟩ := hat
    exact begins h1 (ends_isEnd h2) h3 h4 (by rw [ho]; rfl)
  case condRes =>
    unfold At at hat; rw [ho] at hat
    obtain ⟨e, h1, h2, h3, h4⟩ := hat
    have h6 := hi.opened e h1
    have h7 := hb.sameEnd h6.1 (ends_isEnd h2)
    obtain ⟨e', k1, k2, k3, k4⟩ := hb.res n hv (by rw [hnd]; exact ho)
    have := hb.uniq e (hb.visLt h6.2) e' (hb.visLt k1) (by rw [h7]; exact ends_isEnd h2) k2 (by rw [h7, h3, k3, hnd])
    subst this
    exact same (by rw [k4, h4])
  case endIf =>
    unfold At at hat; rw [ho] at hat
    obtain ⟨e, h1⟩ := hat
    obtain ⟨L, el, k1, k2, k3, k4⟩ := hb.branch n hv (by rw [hnd, ho]; rfl)
    have k5 := k4 (by rw [hnd]; exact ho)
    rcases hpl with h2 | ⟨L', e', h2, h3⟩
    · rw [k5] at h2
      exact absurd h2 k1.2.2.1
    · rw [k5] at h2
      have h4 := k1.loop.unique h2
      have h5 := h1.unique h3
      exact same (by rw [k5, h4.1, h5.1])
  all_goals (unfold At at hat; rw [ho] at hat; exact hat.elim)

/-- what is shown about a visit -/
def VisitOk (nd0 : Nat → Node) (N : Nat) (R : Nat → Nat) (own : Nat → Option Nat) (f : Nat) : Prop :=
  ∀ n cur S st st', visit f n cur st = .ok st' → Inv nd0 N S st → Own nd0 N own st → n < N → (∀ s ∈ S, R n < R s) → cur ≤ st.colors →
    At nd0 S st n cur → ((nd0 n).op.needed = true → Ready nd0 own st n cur) → Done nd0 N R S n cur st st' ∧ Own nd0 N own st'

variable {own : Nat → Option Nat}

theorem foldl_visit {f r c : Nat} (hv : VisitOk nd0 N R own f) (hS : ∀ s ∈ S, r ≤ R s) :
    ∀ (as : List Nat) (st st' : St), as.foldlM (fun s a => visit f a c s) st = .ok st' → Inv nd0 N S st → Own nd0 N own st →
      c ≤ st.colors → (∀ a ∈ as, a < N ∧ R a < r ∧ At nd0 S st a c ∧ ((nd0 a).op.needed = true → Ready nd0 own st a c)) →
      Inv nd0 N S st' ∧ Ext st st' ∧ (∀ m < N, r ≤ R m → st'.nd m = st.nd m ∧ st'.scope m = st.scope m) ∧
        (∀ a ∈ as, 1 ≤ st'.count a ∧ a ∉ S ∧ ((st'.nd a).op.needed = true → W st'.nd st'.path c (st'.scope a))) ∧ Own nd0 N own st'
  | [], st, st', h, hi, hw, _, _ => by
    simp only [List.foldlM_nil, pure, Except.pure, Except.ok.injEq] at h
    subst h
    refine ⟨hi, ?_, fun _ _ _ => ⟨rfl, rfl⟩, by simp, hw⟩
    exact ⟨le_refl _, le_refl _, fun _ _ => rfl, SameCtl.refl _ _, fun _ h => h, fun _ _ _ => rfl, fun _ _ _ => rfl, fun _ _ _ => W.refl _⟩
  | a :: as, st, st', h, hi, hw, hc, ha => by
    rw [List.foldlM_cons] at h
    cases hx : visit f a c st with
    | error x => rw [hx] at h; simp only [bind, Except.bind] at h; cases h
    | ok s1 =>
      rw [hx] at h
      simp only [bind, Except.bind] at h
      obtain ⟨a1, a2, a3, a4⟩ := ha a (by simp)
      have haS : a ∉ S := fun h => by have := hS a h; omega
      obtain ⟨d, hw1⟩ := hv a c S st s1 hx hi hw a1 (fun s hs => by have := hS s hs; omega) hc a3 a4
      obtain ⟨k1, k2, k3, k4, k5⟩ := foldl_visit hv hS as s1 st' h d.inv hw1 (hc.trans d.ext.colors) (fun x hx => by
        obtain ⟨b1, b2, b3, b4⟩ := ha x (List.mem_cons_of_mem _ hx)
        exact ⟨b1, b2, b3.ext hi.base hi.opened d.ext hc, fun hne => (b4 hne).ext hi.base d.ext hc⟩)
      refine ⟨k1, d.ext.trans hi.base d.inv.base k2, ?_, ?_, k5⟩
      · intro m hm hr
        obtain ⟨e1, e2⟩ := k3 m hm hr
        obtain ⟨e3, e4⟩ := d.below m hm (by omega)
        exact ⟨e1.trans e3, e2.trans e4⟩
      · intro x hx
        rcases List.mem_cons.mp hx with h1 | h1
        · subst h1
          refine ⟨k2.vis _ d.vis, haS, fun hne => ?_⟩
          have hn0 : (nd0 x).op.needed = true := by rw [← k1.base.needed a1]; exact hne
          have w1 := w_ext d.inv.base k2.ctl k2.path (hc.trans d.ext.colors) (d.inv.base.scopes x) (d.within hn0)
          exact w1.trans (k2.up x d.vis (by rw [d.inv.base.needed a1]; exact hn0))
        · exact k4 x h1

/-- the arguments of the last node of a loop: the first node of the loop and then the others -/
theorem foldl_loop (hg : LoopGraph nd0 N) {f r c : Nat} (hv : VisitOk nd0 N R own f) (hS : ∀ s ∈ S, r ≤ R s) {n b : Nat} {as : List Nat} (hn : n < N)
    (hop : (nd0 n).op = .loopEnd) (hargs : (nd0 n).args = b :: as) {st st' : St}
    (h : (b :: as).foldlM (fun s a => visit f a c s) st = .ok st') (hi : Inv nd0 N S st) (hw : Own nd0 N own st) (hc : c ≤ st.colors)
    (ha : ∀ a ∈ b :: as, a < N ∧ R a < r ∧ At nd0 S st a c) (hbr : (nd0 b).op.needed = true → Ready nd0 own st b c) (hrest : ∀ st1, Ext st st1 → (∀ a ∈ (nd0 b).args, 1 ≤ st1.count a) →
      ∀ a ∈ as, (nd0 a).op.needed = true → Ready nd0 own st1 a c) :
      Inv nd0 N S st' ∧ Ext st st' ∧ (∀ m < N, r ≤ R m → st'.nd m = st.nd m ∧ st'.scope m = st.scope m) ∧
        (∀ a ∈ b :: as, 1 ≤ st'.count a ∧ a ∉ S ∧ ((st'.nd a).op.needed = true → W st'.nd st'.path c (st'.scope a))) ∧ Own nd0 N own st' := by
  rw [List.foldlM_cons] at h
  cases hx : visit f b c st with
  | error x => rw [hx] at h; simp only [bind, Except.bind] at h; cases h
  | ok s1 =>
    rw [hx] at h
    simp only [bind, Except.bind] at h
    obtain ⟨a1, a2, a3⟩ := ha b (by simp)
    have h0 : [b].foldlM (fun s a => visit f a c s) st = .ok s1 := by
      rw [List.foldlM_cons, hx]
      rfl
    obtain ⟨k1, k2, k3, k4, k5⟩ := foldl_visit hv hS [b] st s1 h0 hi hw hc (fun a ha => by
      rw [List.mem_singleton] at ha
      subst ha
      exact ⟨a1, a2, a3, hbr⟩)
    obtain ⟨b1, b2, _⟩ := k4 b (by simp)
    have hbop : (nd0 b).op = .loopStart := by
      obtain ⟨s, as', m1, m2, _⟩ := hg.loopEnd n hn hop
      rw [hargs] at m1
      simp only [List.cons.injEq] at m1
      rw [m1.1]; exact m2
    have hbnd : s1.nd b = nd0 b := k1.base.same a1 (by rw [hbop]; intro h; cases h)
    have hvis : ∀ a ∈ (nd0 b).args, 1 ≤ s1.count a := by
      intro a ha
      exact (k1.avail b b1 b2 a (by rw [hbnd]; exact ha)).1
    obtain ⟨l1, l2, l3, l4, l5⟩ := foldl_visit hv hS as s1 st' h k1 k5 (hc.trans k2.colors) (fun x hx => by
      obtain ⟨c1, c2, c3⟩ := ha x (List.mem_cons_of_mem _ hx)
      exact ⟨c1, c2, c3.ext hi.base hi.opened k2 hc, hrest s1 k2 hvis x hx⟩)
    refine ⟨l1, k2.trans hi.base k1.base l2, ?_, ?_, l5⟩
    · intro m hm hr
      obtain ⟨e1, e2⟩ := l3 m hm hr
      obtain ⟨e3, e4⟩ := k3 m hm hr
      exact ⟨e1.trans e3, e2.trans e4⟩
    · intro x hx
      rcases List.mem_cons.mp hx with h1 | h1
      · subst h1
        obtain ⟨_, b3, b4⟩ := k4 x (by simp)
        refine ⟨l2.vis _ b1, b3, fun hne => ?_⟩
        have hn1 : (s1.nd x).op.needed = true := by rw [k1.base.needed a1, ← l1.base.needed a1]; exact hne
        have w1 := w_ext k1.base l2.ctl l2.path (hc.trans k2.colors) (k1.base.scopes x) (b4 hn1)
        exact w1.trans (l2.up x b1 hn1)
      · exact l4 x h1

theorem needed_of_not (h : (nd0 n).op ≠ .indep) (h' : (nd0 n).op ≠ .indexed) : (nd0 n).op.needed = true := by
  cases ho : (nd0 n).op <;> simp_all [Op.needed]

theorem visit_ok (hg : LoopGraph nd0 N) {roots : List Nat} (hl : LoopLocal nd0 N roots own) (hR : ∀ n < N, ∀ a ∈ (nd0 n).args, R a < R n) :
    ∀ f, VisitOk nd0 N R own f
  | 0 => by
    intro n cur S st st' h
    simp [visit] at h
  | f + 1 => by
    intro n cur S st st' h hi hw hn hS hcur hat hrd
    have hb := hi.base
    have hnS : n ∉ S := fun h => by have := hS n h; omega
    have hcnt : set1 st.count n (st.count n + 1) n = st.count n + 1 := by simp [set1]
    have hcnto : ∀ m, m ≠ n → set1 st.count n (st.count n + 1) m = st.count m := fun m hm => by simp [set1, hm]
    unfold visit at h
    simp only [hcnt] at h
    split at h
    · rename_i ho
      simp only [Except.ok.injEq] at h
      subst h
      have ho0 : (nd0 n).op = .indep := by
        rcases hb.orig n hn with h1 | h1
        · rw [← h1]; exact ho
        · rw [ho] at h1; cases h1.2
      refine ⟨⟨hi.use hn (Or.inr ⟨ho0, hg.leaf n hn (Or.inl ho0)⟩), Ext.count (by omega), fun _ _ _ => ⟨rfl, rfl⟩, ?_, ?_⟩, ?_⟩
      · show 1 ≤ set1 st.count n (st.count n + 1) n
        omega
      · rw [ho0]; intro h; cases h
      · intro m hm hv hne
        have hmn : m ≠ n := by intro h; subst h; rw [ho0] at hne; cases hne
        have hv : 1 ≤ set1 st.count n (st.count n + 1) m := hv
        rw [hcnto m hmn] at hv
        exact hw m hm hv hne
    · rename_i hni
      split at h
      · rename_i h1
        have h0 : st.count n = 0 := by omega
        have hnd := hb.unv n hn h0
        cases hx : enter n cur { st with count := set1 st.count n (st.count n + 1) } with
        | error x => rw [hx] at h; cases h
        | ok p =>
          obtain ⟨c, st1⟩ := p
          rw [hx] at h
          simp only at h
          obtain ⟨ok, hb1, hle, huse, hargs, hflat, hstart, hloop, hbranch⟩ := enter_ok hg hi hn h0 hnS hcur hat hx
          have hext := ok.ext hb h0
          have hnd1 : st1.nd n = nd0 n := by rw [ok.nd, hnd]
          rw [hnd1] at h
          have hi1 : Inv nd0 N (n :: S) st1 := by
            refine ⟨hb1, ok.avail hb h0 hi.avail, fun s hs => ?_⟩
            rcases List.mem_cons.mp hs with h2 | h2
            · subst h2; exact ⟨hn, ok.countN⟩
            · exact ⟨(hi.opened s h2).1, hext.vis s (hi.opened s h2).2⟩
          have hS1 : ∀ s ∈ n :: S, R n ≤ R s := by
            intro s hs
            rcases List.mem_cons.mp hs with h2 | h2
            · subst h2; omega
            · have := hS s h2; omega
          have hw1 : Own nd0 N own st1 := by
            intro m hm hv hne
            by_cases hmn : m = n
            · subst hmn
              have hr := (hrd hne)
              unfold Ready at hr
              unfold OwnAt
              rw [ok.scopeN]
              cases hom : own m with
              | none =>
                rw [hom] at hr
                rcases hr with hr | hr
                · exact hr
                · omega
              | some e =>
                rw [hom] at hr
                obtain ⟨⟨L, hr⟩, _⟩ := hr
                exact Or.inr ⟨L, inL_ext hb hext.ctl hext.path hcur hr⟩
            · rw [ok.countO hmn] at hv
              exact (hw m hm hv hne).ext hb hb1 hext hm hv hne
          have hcl : ∀ a ∈ (nd0 n).args, a < N ∧ R a < R n ∧ At nd0 (n :: S) st1 a c :=
            fun a ha => ⟨hg.closed n hn a ha, hR n hn a ha, hargs a ha⟩
          have fold : Inv nd0 N (n :: S) st' ∧ Ext st1 st' ∧ (∀ m < N, R n ≤ R m → st'.nd m = st1.nd m ∧ st'.scope m = st1.scope m) ∧
              (∀ a ∈ (nd0 n).args, 1 ≤ st'.count a ∧ a ∉ n :: S ∧ ((st'.nd a).op.needed = true → W st'.nd st'.path c (st'.scope a))) ∧
              Own nd0 N own st' := by
            by_cases hle1 : (nd0 n).op = .loopEnd
            · obtain ⟨b, as, m1, m2, m3⟩ := hg.loopEnd n hn hle1
              rw [m1] at h hcl ⊢
              have hbl : b < N := (hcl b (by simp)).1
              have hul : useLoop nd0 own n = some n := by unfold useLoop; rw [hle1]
              refine foldl_loop hg (visit_ok hg hl hR f) hS1 hn hle1 m1 h hi1 hw1 hle hcl ?_ ?_
              · intro hne
                unfold Ready
                rcases hl.args n hn b (by rw [m1]; simp) hne with m4 | ⟨m4, e, s, m5, m6, m7⟩
                · rw [m4, hul]
                  exact ⟨⟨c, hloop hle1⟩, Or.inl m2⟩
                · -- a first node is not an argument of a first node
                  rw [hul] at m5
                  cases m5
                  rw [m1] at m6
                  cases m6
                  have := hR b hbl b m7
                  omega
              · intro st2 he2 hv2 a ha hne
                unfold Ready
                rcases hl.args n hn a (by rw [m1]; exact List.mem_cons_of_mem _ ha) hne with m4 | ⟨m4, e, s, m5, m6, m7⟩
                · rw [m4, hul]
                  refine ⟨⟨c, inL_ext hb1 he2.ctl he2.path hle (hloop hle1)⟩, Or.inr fun s hs a' ha' => ?_⟩
                  rw [m1] at hs
                  cases hs
                  exact hv2 a' ha'
                · rw [m4]
                  rw [hul] at m5
                  cases m5
                  rw [m1] at m6
                  cases m6
                  exact Or.inr (hv2 a m7)
            · refine foldl_visit (r := R n) (visit_ok hg hl hR f) hS1 _ st1 st' h hi1 hw1 hle (fun a ha => ?_)
              obtain ⟨c1, c2, c3⟩ := hcl a ha
              refine ⟨c1, c2, c3, fun hne => ?_⟩
              have hrule := hl.args n hn a ha hne
              by_cases hls : (nd0 n).op = .loopStart
              · have hul : useLoop nd0 own n = none := by unfold useLoop; rw [hls]
                rw [hul] at hrule
                unfold Ready
                rcases hrule with m4 | ⟨_, e, s, m5, _⟩
                · rw [m4]; exact Or.inl (hstart hls)
                · cases m5
              · have hul : useLoop nd0 own n = own n := by
                  unfold useLoop
                  split
                  · rename_i h'; exact absurd h' hle1
                  · rename_i h'; exact absurd h' hls
                  · rfl
                rw [hul] at hrule
                have hargs0 : (nd0 n).args ≠ [] := by intro h'; rw [h'] at ha; cases ha
                have hnn : (nd0 n).op.needed = true := needed_of_not (fun h' => hargs0 (hg.leaf n hn (Or.inl h')))
                  (fun h' => hargs0 (hg.leaf n hn (Or.inr (Or.inl h'))))
                have hrn := hrd hnn
                unfold Ready at hrn ⊢
                -- the scope for the arguments is in the same loop
                have hcc : ((nd0 n).op.ctrl = false ∧ c = cur) ∨ (nd0 n).op.ends = true := by
                  by_cases hct : (nd0 n).op.ctrl = true
                  · right
                    simp only [Op.ctrl, Bool.or_eq_true] at hct
                    rcases hct with hct | hct
                    · rcases isEnd_cases hct with h' | h'
                      · exact absurd h' hle1
                      · exact h'
                    · cases ho : (nd0 n).op
                      case elseIf => rfl
                      case els => rfl
                      case loopStart => exact absurd ho hls
                      case startIf rs => exact absurd (hg.leaf n hn (Or.inr (Or.inr ⟨rs, ho⟩))) hargs0
                      all_goals (rw [ho] at hct; cases hct)
                  · have : (nd0 n).op.ctrl = false := by simpa using hct
                    exact Or.inl ⟨this, hflat this⟩
                cases hown : own n with
                | none =>
                  rw [hown] at hrule hrn
                  simp only at hrn
                  have hc0 : cur = 0 := by
                    rcases hrn with h' | h'
                    · exact h'
                    · omega
                  rcases hrule with m4 | ⟨_, e, s, m5, _⟩
                  · rw [m4]
                    rcases hcc with ⟨_, h'⟩ | h'
                    · exact Or.inl (by rw [h', hc0])
                    · -- branches are visited in a loop
                      exfalso
                      obtain ⟨L, el, h3, h4, h5, h6⟩ := hb1.branch n ok.countN (by rw [hnd1]; exact h')
                      cases ho : (nd0 n).op
                      case endIf =>
                        have := h6 (by rw [hnd1]; exact ho)
                        rw [ok.scopeN, hc0] at this
                        exact h3.2.2.1 this.symm
                      case elseIf rs =>
                        obtain ⟨e, g1, g2, g3, g4⟩ := hat.begin (h := by rw [ho]; rfl) (by rw [ho]; intro h; cases h)
                        obtain ⟨L', el', g5, _⟩ := hi.inner_branch g1 g2
                        rw [← g4, hc0] at g5
                        exact g5.ne0 rfl
                      case els =>
                        obtain ⟨e, g1, g2, g3, g4⟩ := hat.begin (h := by rw [ho]; rfl) (by rw [ho]; intro h; cases h)
                        obtain ⟨L', el', g5, _⟩ := hi.inner_branch g1 g2
                        rw [← g4, hc0] at g5
                        exact g5.ne0 rfl
                      all_goals (rw [ho] at h'; cases h')
                  · cases m5
                | some e =>
                  rw [hown] at hrule hrn
                  simp only at hrn
                  obtain ⟨⟨L, m1⟩, m2⟩ := hrn
                  have m2 : ∀ s, (nd0 e).args.head? = some s → ∀ a ∈ (nd0 s).args, 1 ≤ st.count a := by
                    rcases m2 with m2 | m2
                    · exact absurd m2 hls
                    · exact m2
                  rcases hrule with m4 | ⟨m4, e', s, m5, m6, m7⟩
                  · rw [m4]
                    refine ⟨⟨L, ?_⟩, Or.inr fun s hs a' ha' => hext.vis a' (m2 s hs a' ha')⟩
                    rcases hcc with ⟨_, h'⟩ | h'
                    · rw [h']; exact inL_ext hb hext.ctl hext.path hcur m1
                    · exact hbranch h' L e m1
                  · rw [m4]
                    cases m5
                    exact Or.inr (hext.vis a (m2 s m6 a m7))
          obtain ⟨k1, k2, k3, k4, k5⟩ := fold
          obtain ⟨e1, e2⟩ := k3 n hn (le_refl _)
          have hsc : st'.scope n = cur := by rw [e2, ok.scopeN]
          have huse' : st'.use n = c := by
            rw [← huse]
            unfold St.use
            rw [e1, e2]
            by_cases hct : (st1.nd n).op.ctrl = true
            · rw [if_pos hct, if_pos hct, k2.inner n ok.countN hct]
            · rw [if_neg hct, if_neg hct]
          refine ⟨⟨⟨k1.base, ?_, fun s hs => k1.opened s (List.mem_cons_of_mem _ hs)⟩, hext.trans hb hb1 k2, ?_, k2.vis n ok.countN, ?_⟩, k5⟩
          · intro u hu huS a ha
            by_cases hun : u = n
            · subst hun
              rw [e1, hnd1] at ha
              obtain ⟨m1, m2, m3⟩ := k4 a ha
              refine ⟨m1, fun h => m2 (List.mem_cons_of_mem _ h), fun hne => ?_⟩
              rw [huse']
              exact m3 hne
            · obtain ⟨m1, m2, m3⟩ := k1.avail u hu (by simp [hun, huS]) a ha
              exact ⟨m1, fun h => m2 (List.mem_cons_of_mem _ h), m3⟩
          · intro m hm hr
            obtain ⟨m1, m2⟩ := k3 m hm (by omega)
            have hmn : m ≠ n := by intro h; subst h; omega
            exact ⟨by rw [m1, ok.nd], by rw [m2, ok.scopeO hmn]⟩
          · intro _; rw [hsc]; exact W.refl _
      · rename_i h1
        have hv : 1 ≤ st.count n := by omega
        have hi' := hi.use hn (Or.inl hv)
        have hv' : 1 ≤ ({ st with count := set1 st.count n (st.count n + 1) } : St).count n := by
          show 1 ≤ set1 st.count n (st.count n + 1) n
          omega
        have hpl : (nd0 n).op.needed = true → st.scope n = 0 ∨ ∃ L e, InL st.nd st.path L e (st.scope n) ∧ InL st.nd st.path L e cur :=
          fun hne => own_place hb (hw n hn hv hne) (hrd hne)
        have d : Done nd0 N R S n cur { st with count := set1 st.count n (st.count n + 1) } st' := by
          cases hval : (nd0 n).op.isValue
          · refine revisit_control hi' hn hv' hval ?_ (hpl (needed_of_not ?_ ?_)) h
            · exact hat.ext hb hi.opened (Ext.count (by omega)) hcur
            · intro h'; rw [h'] at hval; cases hval
            · intro h'; rw [h'] at hval; cases hval
          · refine revisit_value hg hR hi' hn hv' hnS hval hni hcur (fun hnx => hpl (needed_of_not ?_ ?_)) h
            · intro h'
              exact hni (by rw [hb.same hn (by rw [h']; intro h; cases h)]; exact h')
            · intro h'
              exact hnx (by show (st.nd n).op = _; rw [hb.same hn (by rw [h']; intro h; cases h)]; exact h')
        have hext := (Ext.count (st := st) (n := n) (k := st.count n + 1) (by omega)).trans hb hi'.base d.ext
        refine ⟨⟨d.inv, hext, d.below, d.vis, d.within⟩, ?_⟩
        intro m hm hvm hne
        have hsz := hb.size
        have hvm1 : 1 ≤ set1 st.count n (st.count n + 1) m := by
          have := revisit_count h m (by show m < st.size; omega)
          rw [this] at hvm
          exact hvm
        have hvm0 : 1 ≤ st.count m := by
          by_cases hmn : m = n
          · subst hmn; exact hv
          · rw [hcnto m hmn] at hvm1; exact hvm1
        exact (hw m hm hvm0 hne).ext hb d.inv.base hext hm hvm0 hne

theorem base_init (hg : LoopGraph nd0 N) : Base nd0 N (St.init nd0 N) := by
  refine ⟨le_refl _, fun _ _ => Or.inl rfl, fun _ _ _ => rfl, fun _ _ => rfl, hg.closed, ?_, ?_, fun _ _ => rfl, fun _ => le_refl _, fun _ => le_refl _,
    ?_, hg.unique, ?_, ?_, ?_, ?_, ?_, ?_, ?_, ?_, fun _ => rfl, fun _ _ => rfl⟩
  · intro n hn h
    exact absurd h (hg.original n hn).1
  · intro c hc
    have : c ≤ 0 := hc
    exact Or.inl ⟨by omega, rfl⟩
  · exact hg.conds
  case refine_11 =>
    intro e he h
    rcases isEnd_cases h with h1 | h1
    · obtain ⟨s, as, h2, h3, _⟩ := hg.loopEnd e he h1
      exact ⟨s, as, h2, by show (nd0 s).op.begins = true; rw [h3]; rfl⟩
    · obtain ⟨b, as, h2, h3, _⟩ := hg.branch e he h1
      exact ⟨b, as, h2, h3.1⟩
  all_goals intro n h
  all_goals first
    | (have h1 : 1 ≤ 0 := h
       omega)
    | (intro h1
       have h1 : n ≤ 0 := h1
       omega)

theorem mark_ok_own (hg : LoopGraph nd0 N) {roots : List Nat} (hr : Roots nd0 N roots) (hl : LoopLocal nd0 N roots own) {fuel : Nat}
    (h : mark fuel nd0 N roots = .ok st) : (Inv nd0 N [] st ∧ ∀ r ∈ roots, 1 ≤ st.count r) ∧ Own nd0 N own st := by
  obtain ⟨R, hR⟩ := hg.acyclic
  have hi : Inv nd0 N [] (St.init nd0 N) := by
    refine ⟨base_init hg, ?_, by simp⟩
    intro u hu
    have : 1 ≤ 0 := hu
    omega
  have key : ∀ (as : List Nat) (s s' : St), as.foldlM (fun s a => visit fuel a 0 s) s = .ok s' → Inv nd0 N [] s → Own nd0 N own s →
      (∀ a ∈ as, a < N ∧ ((nd0 a).op.isValue = true ∨ (nd0 a).op = .multi) ∧ own a = none) →
      (Inv nd0 N [] s' ∧ (∀ m, 1 ≤ s.count m → 1 ≤ s'.count m) ∧ ∀ a ∈ as, 1 ≤ s'.count a) ∧ Own nd0 N own s' := by
    intro as
    induction as with
    | nil =>
      intro s s' h hi hw _
      simp only [List.foldlM_nil, pure, Except.pure, Except.ok.injEq] at h
      subst h
      exact ⟨⟨hi, fun _ h => h, by simp⟩, hw⟩
    | cons a as ih =>
      intro s s' h hi hw ha
      rw [List.foldlM_cons] at h
      cases hx : visit fuel a 0 s with
      | error x => rw [hx] at h; simp only [bind, Except.bind] at h; cases h
      | ok s1 =>
        rw [hx] at h
        simp only [bind, Except.bind] at h
        obtain ⟨a1, a2, a3⟩ := ha a (by simp)
        obtain ⟨d, hw1⟩ := visit_ok hg hl hR fuel a 0 [] s s1 hx hi hw a1 (by simp) (Nat.zero_le _) (by
          rcases a2 with a2 | a2
          · exact At.value a2
          · unfold At; rw [a2]) (fun _ => by unfold Ready; rw [a3]; exact Or.inl rfl)
        obtain ⟨⟨k1, k2, k3⟩, k4⟩ := ih s1 s' h d.inv hw1 (fun x hx => ha x (List.mem_cons_of_mem _ hx))
        refine ⟨⟨k1, fun m hm => k2 m (d.ext.vis m hm), fun x hx => ?_⟩, k4⟩
        rcases List.mem_cons.mp hx with h1 | h1
        · subst h1; exact k2 _ d.vis
        · exact k3 x h1
  have hw : Own nd0 N own (St.init nd0 N) := by
    intro n _ hv
    have : 1 ≤ 0 := hv
    omega
  obtain ⟨⟨k1, _, k3⟩, k4⟩ := key roots _ st h hi hw (fun r hr' => ⟨(hr r hr').1, (hr r hr').2, hl.roots r hr'⟩)
  exact ⟨⟨k1, k3⟩, k4⟩

theorem mark_ok (hg : LoopGraph nd0 N) {roots : List Nat} (hr : Roots nd0 N roots) (hl : LoopLocal nd0 N roots own) {fuel : Nat}
    (h : mark fuel nd0 N roots = .ok st) : Inv nd0 N [] st ∧ ∀ r ∈ roots, 1 ≤ st.count r := (mark_ok_own hg hr hl h).1

end

end Verif.Scopes
