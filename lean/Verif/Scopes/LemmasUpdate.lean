import Verif.Scopes.Lemmas

/-
Lemmas: moving values to other scopes (`updateVarScopeUsage`).
-/
namespace Verif.Scopes

open Verif.Ranges

/-- no conditional temporary was made -/
def NoTmp (nd : Nat → Node) : Prop := ∀ n, (nd n).op ≠ .loopTmp

/-- Code of scope `c` runs only when code of scope `d` runs. Without conditional temporaries `d` is around `c`. -/
def W (nd : Nat → Node) (path : Nat → List (Nat × Nat)) (c d : Nat) : Prop :=
  Placed.Within ⟨nd, fun _ => 0, path⟩ c d ∧ (NoTmp nd → path d <+: path c)

section
variable {nd : Nat → Node} {path : Nat → List (Nat × Nat)} {L e c d : Nat}

theorem W.refl (c : Nat) : W nd path c c := ⟨within_refl _ c, fun _ => List.prefix_rfl⟩

theorem W.trans {a b c : Nat} (h : W nd path a b) (h' : W nd path b c) : W nd path a c :=
  ⟨within_trans h.1 h'.1, fun hn => (h'.2 hn).trans (h.2 hn)⟩

theorem InL.w (h : InL nd path L e c) : W nd path c L := by
  refine ⟨InL.within (P := ⟨nd, fun _ => 0, path⟩) h, fun _ => ?_⟩
  rcases h.2.2.2 with h1 | ⟨_, _, e', h1, _⟩
  · rw [h1]; exact List.prefix_rfl
  · rw [h.1, h1]; exact ⟨[(c, e')], rfl⟩

theorem w_zero (h : path d = []) : W nd path c d :=
  ⟨within_zero (P := ⟨nd, fun _ => 0, path⟩) h, fun _ => by rw [h]; exact List.nil_prefix⟩

theorem w_head (h : InL nd path L e c) (hd : PathOk nd path d) (hw : W nd path c d) : d = 0 ∨ InL nd path L e d :=
  within_head (P := ⟨nd, fun _ => 0, path⟩) h hd hw.1

theorem InL.ne0 (h : InL nd path L e c) : c ≠ 0 := InL.ne (P := ⟨nd, fun _ => 0, path⟩) h

theorem InL.loop (h : InL nd path L e c) : InL nd path L e L := InL.self (P := ⟨nd, fun _ => 0, path⟩) h

theorem InL.unique {L' e' : Nat} (h : InL nd path L e c) (h' : InL nd path L' e' c) : L = L' ∧ e = e' := by
  have h1 := InL.loops (P := ⟨nd, fun _ => 0, path⟩) h
  have h2 := InL.loops (P := ⟨nd, fun _ => 0, path⟩) h'
  have := h1.symm.trans h2
  simpa using this

end

def Op.ctrl (o : Op) : Bool := o.isEnd || o.begins

/-- the scope in which the arguments of a node are used -/
def St.use (st : St) (n : Nat) : Nat := if (st.nd n).op.ctrl then st.inner n else st.scope n

/-- conditional temporaries: the nodes made by `replaceWithConditionalTempVar` -/
def TmpOk (nd0 : Nat → Node) (N : Nat) (st : St) (n : Nat) : Prop :=
  ∃ d e s r t k L el, st.nd n = ⟨.tmp, [d, e]⟩ ∧ st.nd e = ⟨.endIf, [s, r]⟩ ∧ st.nd r = ⟨.condRes, [s, t]⟩ ∧ st.nd t = ⟨.loopTmp, [d, k]⟩ ∧
    st.nd k = nd0 n ∧ N ≤ k ∧ k < st.size ∧ 1 ≤ st.count k ∧ st.scope n = L ∧ InL st.nd st.path L el (st.scope k) ∧ st.scope k ≠ L

structure Base (nd0 : Nat → Node) (N : Nat) (st : St) : Prop where
  size : N ≤ st.size
  orig : ∀ n < N, st.nd n = nd0 n ∨ ((nd0 n).op = .plain ∧ (st.nd n).op = .tmp)
  unv : ∀ n < N, st.count n = 0 → st.nd n = nd0 n
  big : ∀ n, st.size ≤ n → st.count n = 0
  closed : ∀ n < st.size, ∀ a ∈ (st.nd n).args, a < st.size
  tmp : ∀ n < N, (st.nd n).op = .tmp → TmpOk nd0 N st n
  paths : ∀ c ≤ st.colors, PathOk st.nd st.path c
  beyond : ∀ c, st.colors < c → st.path c = []
  scopes : ∀ n, st.scope n ≤ st.colors
  inners : ∀ n, st.inner n ≤ st.colors
  conds : Conds st.nd st.size
  uniq : ∀ e < st.size, ∀ e' < st.size, (st.nd e).op.isEnd = true → (st.nd e').op.isEnd = true →
    (st.nd e).args.head? = (st.nd e').args.head? → e = e'
  loopEnd : ∀ e, 1 ≤ st.count e → (st.nd e).op = .loopEnd → st.scope e = 0 ∧ InL st.nd st.path (st.inner e) e (st.inner e)
  branch : ∀ e, 1 ≤ st.count e → (st.nd e).op.ends = true → ∃ L el, InL st.nd st.path L el (st.inner e) ∧ st.inner e ≠ L ∧
    st.path (st.inner e) = [(L, el), (st.inner e, e)] ∧ ((st.nd e).op = .endIf → st.scope e = L)
  begins : ∀ b, 1 ≤ st.count b → (st.nd b).op.begins = true → ∃ e, 1 ≤ st.count e ∧ (st.nd e).op.isEnd = true ∧
    (st.nd e).args.head? = some b ∧ st.scope b = st.inner e
  opens : ∀ b, 1 ≤ st.count b → ((st.nd b).op = .loopStart ∨ ∃ rs, (st.nd b).op = .startIf rs) →
    st.path (st.inner b) = (st.path (st.scope b)).dropLast
  res : ∀ r, 1 ≤ st.count r → (st.nd r).op = .condRes → ∃ e, 1 ≤ st.count e ∧ (st.nd e).op.isEnd = true ∧
    (st.nd e).args.head? = (st.nd r).args.head? ∧ st.scope r = st.inner e
  multi : ∀ n, 1 ≤ st.count n → (st.nd n).op = .multi → st.scope n = 0
  color : ∀ c, 1 ≤ c → c ≤ st.colors → ∃ e, 1 ≤ st.count e ∧ (st.nd e).op.isEnd = true ∧ st.inner e = c
  head : ∀ e < st.size, (st.nd e).op.isEnd = true → ∃ b as, (st.nd e).args = b :: as ∧ (st.nd b).op.begins = true
  small : NoTmp st.nd → st.size = N
  rest : ∀ n, st.size ≤ n → st.nd n = nd0 n

theorem Base.zero {nd0 : Nat → Node} {N : Nat} {st : St} (hb : Base nd0 N st) : st.path 0 = [] := by
  rcases hb.paths 0 (Nat.zero_le _) with h | ⟨L, e, h⟩
  · exact h.2
  · exact absurd rfl h.ne0

theorem Base.inLe {nd0 : Nat → Node} {N : Nat} {st : St} (hb : Base nd0 N st) {L e c : Nat} (h : InL st.nd st.path L e c) :
    L ≤ st.colors := by
  by_contra hn
  have := hb.beyond L (by omega)
  rw [h.1] at this
  cases this

theorem value_ctrl {o : Op} (h : o.isValue = true) : o.ctrl = false := by cases o <;> simp_all [Op.isValue, Op.ctrl, Op.isEnd, Op.ends, Op.begins]

theorem St.use_value {st : St} {n : Nat} (h : (st.nd n).op.ctrl = false) : st.use n = st.scope n := by
  simp [St.use, h]

/-- only values of the original graph are moved -/
theorem base_scope {nd0 : Nat → Node} {N : Nat} {st : St} (hb : Base nd0 N st) {s : Nat → Nat} (hle : ∀ m, s m ≤ st.colors)
    (hs : ∀ m, s m ≠ st.scope m → m < N ∧ (st.nd m).op.isValue = true) : Base nd0 N { st with scope := s } := by
  have key : ∀ m, (st.nd m).op.isValue = false → s m = st.scope m := by
    intro m hm
    by_contra hne
    have := (hs m hne).2
    rw [hm] at this
    cases this
  have big : ∀ m, N ≤ m → s m = st.scope m := by
    intro m hm
    by_contra hne
    have := (hs m hne).1
    omega
  refine ⟨hb.size, hb.orig, hb.unv, hb.big, hb.closed, ?_, hb.paths, hb.beyond, hle, hb.inners, hb.conds, hb.uniq, ?_, ?_, ?_, ?_, ?_, ?_, hb.color, hb.head, hb.small, hb.rest⟩
  · intro n hn h
    obtain ⟨d, e, x, r, t, k, L, el, h1, h2, h3, h4, h5, h6, h7, h8, h9, h10, h11⟩ := hb.tmp n hn h
    refine ⟨d, e, x, r, t, k, L, el, h1, h2, h3, h4, h5, h6, h7, h8, ?_, ?_, ?_⟩
    · show s n = L
      rw [key n (by rw [h1]; rfl)]
      exact h9
    · show InL st.nd st.path L el (s k)
      rw [big k h6]
      exact h10
    · show s k ≠ L
      rw [big k h6]
      exact h11
  · intro e he h
    obtain ⟨h1, h2⟩ := hb.loopEnd e he h
    refine ⟨?_, h2⟩
    show s e = 0
    rw [key e (by rw [show (st.nd e).op = .loopEnd from h]; rfl)]
    exact h1
  · intro e he h
    obtain ⟨L, el, h1, h2, h3, h4⟩ := hb.branch e he h
    refine ⟨L, el, h1, h2, h3, fun h' => ?_⟩
    show s e = L
    rw [key e (by rw [show (st.nd e).op = .endIf from h']; rfl)]
    exact h4 h'
  · intro b hv h
    obtain ⟨e, h1, h2, h3, h4⟩ := hb.begins b hv h
    refine ⟨e, h1, h2, h3, ?_⟩
    show s b = _
    have h' : (st.nd b).op.begins = true := h
    rw [key b (by revert h'; cases (st.nd b).op <;> simp [Op.begins, Op.isValue])]
    exact h4
  · intro b hv h
    have h' : (st.nd b).op = .loopStart ∨ ∃ rs, (st.nd b).op = .startIf rs := h
    show st.path (st.inner b) = (st.path (s b)).dropLast
    rw [key b (by rcases h' with h' | ⟨rs, h'⟩ <;> rw [h'] <;> rfl)]
    exact hb.opens b hv h
  · intro r hv h
    obtain ⟨e, h1, h2, h3, h4⟩ := hb.res r hv h
    refine ⟨e, h1, h2, h3, ?_⟩
    show s r = _
    rw [key r (by rw [show (st.nd r).op = .condRes from h]; rfl)]
    exact h4
  · intro n hv h
    show s n = 0
    rw [key n (by rw [show (st.nd n).op = .multi from h]; rfl)]
    exact hb.multi n hv h

/-- the arguments of these nodes are available -/
def AvailQ (Q : Nat → Prop) (st : St) : Prop :=
  ∀ u, Q u → ∀ a ∈ (st.nd u).args, (st.nd a).op.needed = true → W st.nd st.path (st.use u) (st.scope a)

/-- values with a rank below `r` were moved to enclosing scopes -/
structure Moved (N : Nat) (R : Nat → Nat) (r : Nat) (st : St) (s : Nat → Nat) : Prop where
  only : ∀ m, s m ≠ st.scope m → m < N ∧ R m < r ∧ (st.nd m).op.isValue = true
  le : ∀ m, s m ≤ st.colors
  up : ∀ m, (st.nd m).op.needed = true → W st.nd st.path (st.scope m) (s m)

theorem Moved.base {nd0 : Nat → Node} {N : Nat} {R : Nat → Nat} {r : Nat} {st : St} {s : Nat → Nat} (h : Moved N R r st s)
    (hb : Base nd0 N st) : Base nd0 N { st with scope := s } :=
  base_scope hb h.le fun m hm => ⟨(h.only m hm).1, (h.only m hm).2.2⟩

theorem Moved.refl {nd0 : Nat → Node} {N : Nat} {st : St} (hb : Base nd0 N st) (R : Nat → Nat) (r : Nat) : Moved N R r st st.scope :=
  ⟨fun _ h => absurd rfl h, hb.scopes, fun _ _ => W.refl _⟩

theorem Moved.trans {N : Nat} {R : Nat → Nat} {r : Nat} {st : St} {s s' : Nat → Nat} (h : Moved N R r st s)
    (h' : Moved N R r { st with scope := s } s') : Moved N R r st s' := by
  refine ⟨fun m hm => ?_, h'.le, fun m hm => (h.up m hm).trans (h'.up m hm)⟩
  by_cases h1 : s' m = s m
  · exact h.only m (by rw [← h1]; exact hm)
  · exact h'.only m h1

theorem Moved.mono {N : Nat} {R : Nat → Nat} {r r' : Nat} {st : St} {s : Nat → Nat} (h : Moved N R r st s) (hr : r ≤ r') : Moved N R r' st s :=
  ⟨fun m hm => ⟨(h.only m hm).1, by have := (h.only m hm).2.1; omega, (h.only m hm).2.2⟩, h.le, h.up⟩

section
variable {nd0 : Nat → Node} {N : Nat} {R : Nat → Nat} {P : Nat → Prop}

/-- a single call -/
def UpdateSpec (nd0 : Nat → Node) (N : Nat) (R : Nat → Nat) (P : Nat → Prop) (f : Nat) : Prop :=
  ∀ (x usage old : Nat) (st st' : St) (Q : Nat → Prop) (L e : Nat), update f x usage old st = .ok st' → Base nd0 N st →
    (∀ u < N, P u → (st.nd u).op = .plain → ∀ a ∈ (st.nd u).args, P a) → AvailQ Q st → (∀ m < N, P m → R m ≤ R x → Q m) →
    x < N → P x → (nd0 x).op.isValue = true → InL st.nd st.path L e usage → InL st.nd st.path L e old → old ≠ L →
    usage ≤ st.colors → W st.nd st.path old usage → ((st.nd x).op.needed = true → W st.nd st.path old (st.scope x)) →
    ∃ s, st' = { st with scope := s } ∧ Moved N R (R x + 1) st s ∧ AvailQ Q { st with scope := s } ∧
      ((st.nd x).op.needed = true → W st.nd st.path usage (s x))

theorem foldl_update {f : Nat} (hu : UpdateSpec nd0 N R P f) {usage old L e r : Nat} :
    ∀ (as : List Nat) (st st' : St) (Q : Nat → Prop), as.foldlM (fun s a => update f a usage old s) st = .ok st' → Base nd0 N st →
      (∀ u < N, P u → (st.nd u).op = .plain → ∀ a ∈ (st.nd u).args, P a) → AvailQ Q st → (∀ m < N, P m → R m < r → Q m) →
      (∀ a ∈ as, a < N ∧ P a ∧ (nd0 a).op.isValue = true ∧ R a < r) → InL st.nd st.path L e usage → InL st.nd st.path L e old → old ≠ L →
      usage ≤ st.colors → W st.nd st.path old usage → (∀ a ∈ as, (st.nd a).op.needed = true → W st.nd st.path old (st.scope a)) →
      ∃ s, st' = { st with scope := s } ∧ Moved N R r st s ∧ AvailQ Q { st with scope := s } ∧
        ∀ a ∈ as, (st.nd a).op.needed = true → W st.nd st.path usage (s a)
  | [], st, st', Q, h, hb, hP, hQ, hall, has, h1, h2, h3, h4, h5, h6 => by
    simp only [List.foldlM_nil, pure, Except.pure, Except.ok.injEq] at h
    subst h
    exact ⟨st.scope, rfl, Moved.refl hb _ _, hQ, by simp⟩
  | a :: as, st, st', Q, h, hb, hP, hQ, hall, has, h1, h2, h3, h4, h5, h6 => by
    rw [List.foldlM_cons] at h
    obtain ⟨ha1, ha2, ha3, ha4⟩ := has a (by simp)
    cases hx : update f a usage old st with
    | error x => rw [hx] at h; simp only [bind, Except.bind] at h; cases h
    | ok st1 =>
      rw [hx] at h
      simp only [bind, Except.bind] at h
      obtain ⟨s1, e1, m1, q1, w1⟩ := hu a usage old st st1 Q L e hx hb hP hQ (fun m hm hp hr => hall m hm hp (by omega)) ha1 ha2 ha3 h1 h2 h3 h4
        h5 (h6 a (by simp))
      subst e1
      have m1' := m1.mono (r' := r) (by omega)
      obtain ⟨s2, e2, m2, q2, w2⟩ := foldl_update hu as { st with scope := s1 } st' Q h (m1.base hb) hP q1 hall
        (fun b hb => has b (List.mem_cons_of_mem _ hb)) h1 h2 h3 h4 h5
        (fun b hb hn => (h6 b (List.mem_cons_of_mem _ hb) hn).trans (m1.up b hn))
      refine ⟨s2, e2, m1'.trans m2, q2, ?_⟩
      intro b hb hn
      rcases List.mem_cons.mp hb with h' | h'
      · subst h'
        exact (w1 hn).trans (m2.up b hn)
      · exact w2 b h' hn

theorem value_cases {o : Op} (h : o.isValue = true) : o = .plain ∨ o = .indep ∨ o = .indexed := by
  cases o <;> simp_all [Op.isValue]

theorem common_le {st : St} (hb : Base nd0 N st) {o u : Nat} (hu : u ≤ st.colors) : st.common o u ≤ st.colors := by
  rcases hb.paths u hu with ⟨rfl, h⟩ | ⟨L, e, h⟩
  · unfold St.common
    rw [h]
    cases hp : st.path o <;> simp [commonLen]
  · have hL := hb.inLe h
    unfold St.common
    split
    · exact Nat.zero_le _
    · rename_i d hd
      rcases h.2.2.2 with h1 | ⟨_, _, e', h1, _⟩
      · subst h1
        rw [h.1]
        cases d with
        | zero => exact hL
        | succ d => simp
      · rw [h1]
        cases d with
        | zero => exact hL
        | succ d =>
          cases d with
          | zero => exact hu
          | succ d => simp

theorem update_ok (hg : LoopGraph nd0 N) (hR : ∀ n < N, ∀ a ∈ (nd0 n).args, R a < R n) : ∀ f, UpdateSpec nd0 N R P f
  | 0 => by
    intro x usage old st st' Q L e h
    simp [update] at h
  | f + 1 => by
    intro x usage old st st' Q L e h hb hP hQ hall hx hpx hval hu ho hoL huc hw hwx
    have ih := update_ok hg hR f
    unfold update at h
    split at h
    · rename_i heq
      simp only [Except.ok.injEq] at h
      subst h
      exact ⟨st.scope, rfl, Moved.refl hb _ _, hQ, fun _ => by rw [heq]; exact W.refl _⟩
    · rename_i hne
      simp only at h
      -- the new scope
      generalize hnew : (if st.scope x = old then usage else st.common (st.scope x) usage) = new at h
      have hnewle : new ≤ st.colors := by
        rw [← hnew]
        split
        · exact huc
        · exact common_le hb huc
      have hz := hb.zero
      -- needed values
      have hpos : (st.nd x).op.needed = true → st.scope x = 0 ∨ InL st.nd st.path L e (st.scope x) :=
        fun hn => w_head ho (hb.paths _ (hb.scopes x)) (hwx hn)
      have h0 : st.scope x = 0 → new = st.scope x := by
        intro h0
        rw [← hnew, if_neg (by rw [h0]; exact fun h => ho.ne0 h.symm), h0, common_zero hz]
      have hL : InL st.nd st.path L e (st.scope x) → new = if st.scope x = old then usage else L := by
        intro h1
        rw [← hnew, common_in h1 hu hne]
      split at h
      · rename_i heq
        simp only [Except.ok.injEq] at h
        subst h
        refine ⟨st.scope, rfl, Moved.refl hb _ _, hQ, fun hn => ?_⟩
        rcases hpos hn with h1 | h1
        · rw [h1]
          exact w_zero hz
        · have h2 := hL h1
          by_cases h3 : st.scope x = old
          · rw [if_pos h3] at h2
            exact absurd (heq.symm.trans h2) hne
          · rw [if_neg h3] at h2
            rw [← heq, h2]
            exact hu.w
      · rename_i hmove
        have hval' : (st.nd x).op.isValue = true ∨ (st.nd x).op = .tmp := by
          rcases hb.orig x hx with h1 | h1
          · left; rw [h1]; exact hval
          · exact Or.inr h1.2
        rcases hval' with hv | hv
        · have hxs : ∀ m, set1 st.scope x new m ≠ st.scope m → m = x := by
            intro m hm
            by_contra h1
            exact hm (by simp [set1, h1])
          have hxx : set1 st.scope x new x = new := by simp [set1]
          rcases value_cases hv with hv1 | hv1
          · -- an operation
            have hnd : st.nd x = nd0 x := by
              rcases hb.orig x hx with h1 | h1
              · exact h1
              · rw [hv1] at h1; cases h1.2
            have hn : (st.nd x).op.needed = true := by rw [hv1]; rfl
            have hin : InL st.nd st.path L e (st.scope x) := by
              rcases hpos hn with h1 | h1
              · exact absurd (h0 h1) hmove
              · exact h1
            have hnew' := hL hin
            have hoxL : st.scope x ≠ L := by
              intro h1
              rw [h1, if_neg (by exact fun h => hoL h.symm)] at hnew'
              exact hmove (by rw [hnew', h1])
            have hnin : InL st.nd st.path L e new := by
              rw [hnew']
              split
              · exact hu
              · exact hu.loop
            have hwn : W st.nd st.path (st.scope x) new := by
              rw [hnew']
              split
              · rename_i h1; rw [h1]; exact hw
              · exact hin.w
            have hargs : ∀ a ∈ (st.nd x).args, a < N ∧ P a ∧ (nd0 a).op.isValue = true ∧ R a < R x := by
              intro a ha
              have ha' : a ∈ (nd0 x).args := by rw [← hnd]; exact ha
              exact ⟨hg.closed x hx a ha', hP x hx hpx hv1 a ha, hg.plain x hx (by rw [← hnd]; exact hv1) a ha', hR x hx a ha'⟩
            have hb1 : Base nd0 N { st with scope := set1 st.scope x new } := base_scope hb
              (fun m => by
                by_cases h1 : m = x
                · subst h1; rw [hxx]; exact hnewle
                · simp only [set1, h1, if_false]; exact hb.scopes m)
              (fun m hm => by rw [hxs m hm]; exact ⟨hx, hv⟩)
            have huse : ∀ u, u ≠ x → St.use { st with scope := set1 st.scope x new } u = st.use u := by
              intro u hu
              simp [St.use, set1, hu]
            have hq1 : AvailQ (fun m => Q m ∧ m ≠ x) { st with scope := set1 st.scope x new } := by
              intro u hqu a ha hna
              rw [huse u hqu.2]
              have h1 := hQ u hqu.1 a ha hna
              by_cases h2 : a = x
              · subst h2
                show W st.nd st.path _ (set1 st.scope a new a)
                rw [hxx]
                exact h1.trans hwn
              · show W st.nd st.path _ (set1 st.scope x new a)
                simp only [set1, h2, if_false]
                exact h1
            obtain ⟨s, e1, m1, q1, w1⟩ := foldl_update ih (L := L) (e := e) (r := R x) _ _ _ _ h hb1 hP hq1
              (fun m hm hp hr => ⟨hall m hm hp (by omega), by intro h1; subst h1; omega⟩) hargs hnin hin hoxL hnewle hwn
              (by
                intro a ha hna
                have h1 := hQ x (hall x hx hpx (le_refl _)) a ha hna
                rw [St.use_value (value_ctrl hv)] at h1
                have h2 : a ≠ x := by intro h2; have := (hargs a ha).2.2.2; subst h2; omega
                show W st.nd st.path _ (set1 st.scope x new a)
                simp only [set1, h2, if_false]
                exact h1)
            have hsx : s x = new := by
              by_contra h1
              have := (m1.only x (by show s x ≠ set1 st.scope x new x; rw [hxx]; exact h1)).2.1
              omega
            refine ⟨s, e1, ⟨?_, m1.le, ?_⟩, ?_, ?_⟩
            · intro m hm
              by_cases h1 : m = x
              · subst h1; exact ⟨hx, by omega, hv⟩
              · obtain ⟨h2, h3, h4⟩ := m1.only m (by show s m ≠ set1 st.scope x new m; simp only [set1, h1, if_false]; exact hm)
                exact ⟨h2, by omega, h4⟩
            · intro m hm
              by_cases h1 : m = x
              · subst h1; rw [hsx]; exact hwn
              · have := m1.up m hm
                simp only [set1, h1, if_false] at this
                exact this
            · intro u hqu a ha hna
              by_cases h1 : u = x
              · subst h1
                rw [St.use_value (st := { st with scope := s }) (value_ctrl hv)]
                show W st.nd st.path (s u) (s a)
                rw [hsx]
                exact w1 a ha hna
              · exact q1 u ⟨hqu, h1⟩ a ha hna
            · intro _
              rw [hsx, hnew']
              split
              · exact W.refl _
              · exact hu.w
          · -- independent variables
            have hargs : (st.nd x).args = [] := by
              have hnd : st.nd x = nd0 x := by
                rcases hb.orig x hx with h1 | h1
                · exact h1
                · rw [h1.2] at hv; cases hv
              rw [hnd]
              apply hg.leaf x hx
              rw [← hnd]
              rcases hv1 with h1 | h1
              · exact Or.inl h1
              · exact Or.inr (Or.inl h1)
            rw [hargs] at h
            simp only [List.foldlM_nil, pure, Except.pure, Except.ok.injEq] at h
            have hnn : (st.nd x).op.needed = false := by rcases hv1 with h1 | h1 <;> rw [h1] <;> rfl
            refine ⟨set1 st.scope x new, h.symm, ⟨?_, ?_, ?_⟩, ?_, ?_⟩
            · intro m hm
              rw [hxs m hm]
              exact ⟨hx, by omega, hv⟩
            · intro m
              by_cases h1 : m = x
              · subst h1; rw [hxx]; exact hnewle
              · simp only [set1, h1, if_false]; exact hb.scopes m
            · intro m hm
              have h1 : m ≠ x := by intro h1; subst h1; rw [hnn] at hm; cases hm
              simp only [set1, h1, if_false]
              exact W.refl _
            · intro u hqu a ha hna
              have h1 : a ≠ x := by intro h1; subst h1; simp only at hna; rw [hnn] at hna; cases hna
              have h2 := hQ u hqu a ha hna
              have h3 : u ≠ x := by intro h3; subst h3; simp only at ha; rw [hargs] at ha; cases ha
              have h4 : St.use { st with scope := set1 st.scope x new } u = st.use u := by
                simp [St.use, set1, h3]
              rw [h4]
              show W st.nd st.path _ (set1 st.scope x new a)
              simp only [set1, h1, if_false]
              exact h2
            · intro h1
              rw [hnn] at h1
              cases h1
        · -- conditional temporaries do not move
          exfalso
          obtain ⟨d, e', y, r, t, k, L', el, t1, t2, t3, t4, t5, t6, t7, t8, t9, t10, t11⟩ := hb.tmp x hx hv
          have hn : (st.nd x).op.needed = true := by rw [hv]; rfl
          rcases hpos hn with h1 | h1
          · exact hmove (h0 h1)
          · have h2 := hL h1
            have h3 : st.scope x = L := by
              have h4 := t10.loop
              rw [← t9] at h4
              exact (h1.unique h4).1.symm ▸ t9.symm ▸ rfl
            rw [if_neg (by rw [h3]; exact fun h => hoL h.symm)] at h2
            exact hmove (h2.trans h3.symm)

end

end Verif.Scopes
