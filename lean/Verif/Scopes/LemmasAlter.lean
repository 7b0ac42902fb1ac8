import Verif.Scopes.LemmasExt

/-
Lemmas: conditional temporaries.
-/
namespace Verif.Scopes

open Verif.Ranges

section
variable {nd0 : Nat → Node} {N : Nat} {R : Nat → Nat} {S : List Nat} {st st' : St}

/-- a conditional temporary becomes an operation again -/
theorem base_restore (hb : Base nd0 N st) {n : Nat} (hn : n < N) (hop : (st.nd n).op = .tmp) (hpl : (nd0 n).op = .plain)
    (hcl : ∀ a ∈ (nd0 n).args, a < N) : Base nd0 N { st with nd := set1 st.nd n (nd0 n) } := by
  have hne : ∀ m, m ≠ n → set1 st.nd n (nd0 n) m = st.nd m := fun m hm => by simp [set1, hm]
  have hnn : set1 st.nd n (nd0 n) n = nd0 n := by simp [set1]
  have hs : SameCtl st.nd (set1 st.nd n (nd0 n)) st.size := by
    refine ⟨fun m _ hp => hne m ?_, fun m _ hp => ?_, ?_⟩
    · intro h; subst h; exact hp (Or.inr hop)
    · by_cases h : m = n
      · subst h; rw [hnn]; exact Or.inl hpl
      · rw [hne m h]; exact hp
    · intro hq m hm
      by_cases h : m = n
      · subst h; rw [hop] at hm; cases hm
      · exact hq m (by show (set1 st.nd n (nd0 n) m).op = _; rw [hne m h]; exact hm)
  have hs' : SameCtl st.nd ({ st with nd := set1 st.nd n (nd0 n) } : St).nd st.size := hs
  -- nodes which are not operations are the same
  have back : ∀ m, ¬ (set1 st.nd n (nd0 n) m).op.pt → m ≠ n ∧ set1 st.nd n (nd0 n) m = st.nd m := by
    intro m hp
    have h : m ≠ n := by intro h; subst h; rw [hnn] at hp; exact hp (Or.inl hpl)
    exact ⟨h, hne m h⟩
  have fwd : ∀ m, ¬ (st.nd m).op.pt → set1 st.nd n (nd0 n) m = st.nd m := by
    intro m hp
    exact hne m (by intro h; subst h; exact hp (Or.inr hop))
  have inl : ∀ {L e c}, c ≤ st.colors → InL st.nd st.path L e c → InL (set1 st.nd n (nd0 n)) st.path L e c := by
    intro L e c hc h
    exact inL_ext (st' := { st with nd := set1 st.nd n (nd0 n) }) hb hs' (fun _ _ => rfl) hc h
  refine ⟨hb.size, ?_, ?_, hb.big, ?_, ?_, ?_, hb.beyond, hb.scopes, hb.inners, ?_, ?_, ?_, ?_, ?_, ?_, ?_, ?_, ?_, ?_, fun hq => hb.small (hs'.no hq),
    fun m hm => by
      show set1 _ _ _ m = _
      unfold set1
      rw [if_neg (by have := hb.size; simp only at hm; omega)]
      exact hb.rest m hm⟩
  · intro m hm
    by_cases h : m = n
    · subst h; exact Or.inl hnn
    · show set1 st.nd n (nd0 n) m = nd0 m ∨ _ ∧ (set1 st.nd n (nd0 n) m).op = _
      rw [hne m h]; exact hb.orig m hm
  · intro m hm hc
    show set1 st.nd n (nd0 n) m = nd0 m
    by_cases h : m = n
    · subst h; exact hnn
    · rw [hne m h]; exact hb.unv m hm hc
  · intro m hm a ha
    replace ha : a ∈ (set1 st.nd n (nd0 n) m).args := ha
    by_cases h : m = n
    · subst h
      rw [hnn] at ha
      have := hcl a ha
      have := hb.size
      show a < st.size
      omega
    · rw [hne m h] at ha; exact hb.closed m hm a ha
  · intro m hm h
    replace h : (set1 st.nd n (nd0 n) m).op = .tmp := h
    have hmn : m ≠ n := by intro h'; subst h'; rw [hnn, hpl] at h; cases h
    rw [hne m hmn] at h
    obtain ⟨d, e, x, r, t, k, L, el, h1, h2, h3, h4, h5, h6, h7, h8, h9, h10, h11⟩ := hb.tmp m hm h
    refine ⟨d, e, x, r, t, k, L, el, ?_, ?_, ?_, ?_, ?_, h6, h7, h8, h9, inl (hb.scopes k) h10, h11⟩
    · show set1 st.nd n (nd0 n) m = _
      rw [hne m hmn]; exact h1
    · show set1 st.nd n (nd0 n) e = _
      rw [fwd e (by rw [h2]; rintro (h' | h') <;> cases h')]; exact h2
    · show set1 st.nd n (nd0 n) r = _
      rw [fwd r (by rw [h3]; rintro (h' | h') <;> cases h')]; exact h3
    · show set1 st.nd n (nd0 n) t = _
      rw [fwd t (by rw [h4]; rintro (h' | h') <;> cases h')]; exact h4
    · show set1 st.nd n (nd0 n) k = _
      rw [hne k (by omega)]; exact h5
  · intro c hc
    exact pathOk_ext (st' := { st with nd := set1 st.nd n (nd0 n) }) hb hs' (fun _ _ => rfl) hc
  · intro m hm rs h
    replace h : (set1 st.nd n (nd0 n) m).op = .startIf rs ∨ (set1 st.nd n (nd0 n) m).op = .elseIf rs := h
    have := back m (by rcases h with h | h <;> rw [h] <;> rintro (h' | h') <;> cases h')
    rw [this.2] at h
    exact hb.conds m hm rs h
  · intro e he e' he' h h' heq
    have h1 := back e (Op.isEnd_pt h)
    have h2 := back e' (Op.isEnd_pt h')
    simp only [h1.2, h2.2] at h h' heq
    exact hb.uniq e he e' he' h h' heq
  · intro e hv h
    replace h : (set1 st.nd n (nd0 n) e).op = .loopEnd := h
    have h1 := back e (by rw [h]; rintro (h' | h') <;> cases h')
    rw [h1.2] at h
    obtain ⟨h2, h3⟩ := hb.loopEnd e hv h
    exact ⟨h2, inl (hb.inners e) h3⟩
  · intro e hv h
    have h1 := back e (Op.ends_pt h)
    simp only [h1.2] at h ⊢
    obtain ⟨L, el, h2, h3, h4, h5⟩ := hb.branch e hv h
    exact ⟨L, el, inl (hb.inners e) h2, h3, h4, h5⟩
  · intro b hv h
    have h1 := back b (Op.begins_pt h)
    simp only [h1.2] at h
    obtain ⟨e, h2, h3, h4, h5⟩ := hb.begins b hv h
    have h6 := fwd e (Op.isEnd_pt h3)
    exact ⟨e, h2, by simp only [h6]; exact h3, by simp only [h6]; exact h4, h5⟩
  · intro b hv h
    have h1 := back b (by
      replace h : (set1 st.nd n (nd0 n) b).op = .loopStart ∨ ∃ rs, (set1 st.nd n (nd0 n) b).op = .startIf rs := h
      rcases h with h | ⟨rs, h⟩ <;> rw [h] <;> rintro (h' | h') <;> cases h')
    simp only [h1.2] at h
    exact hb.opens b hv h
  · intro r hv h
    have h1 := back r (by
      replace h : (set1 st.nd n (nd0 n) r).op = .condRes := h
      rw [h]; rintro (h' | h') <;> cases h')
    simp only [h1.2] at h ⊢
    obtain ⟨e, h2, h3, h4, h5⟩ := hb.res r hv h
    have h6 := fwd e (Op.isEnd_pt h3)
    exact ⟨e, h2, by simp only [h6]; exact h3, by simp only [h6]; exact h4, h5⟩
  · intro m hv h
    have h1 := back m (by
      replace h : (set1 st.nd n (nd0 n) m).op = .multi := h
      rw [h]; rintro (h' | h') <;> cases h')
    simp only [h1.2] at h
    exact hb.multi m hv h
  · intro c h1 h2
    obtain ⟨e, h3, h4, h5⟩ := hb.color c h1 h2
    have h6 := fwd e (Op.isEnd_pt h4)
    exact ⟨e, h3, by simp only [h6]; exact h4, h5⟩
  · intro e he h
    have h1 := back e (Op.isEnd_pt h)
    simp only [h1.2] at h ⊢
    obtain ⟨b, as, h2, h3⟩ := hb.head e he h
    exact ⟨b, as, h2, by rw [fwd b (Op.begins_pt h3)]; exact h3⟩

theorem restore_ok (hg : LoopGraph nd0 N) (hR : ∀ n < N, ∀ a ∈ (nd0 n).args, R a < R n) (hi : Inv nd0 N S st) {f n cur : Nat}
    (hn : n < N) (hv : 1 ≤ st.count n) (hS : n ∉ S) (hop : (st.nd n).op = .tmp) (hcur : st.scope n = cur)
    (h : restore f n cur st = .ok st') : Done nd0 N R S n cur st st' := by
  have hb := hi.base
  have hpl : (nd0 n).op = .plain := by
    rcases hb.orig n hn with h1 | h1
    · exact absurd (by rw [← h1]; exact hop) (hg.original n hn).1
    · exact h1.1
  obtain ⟨d, e, x, r, t, k, L, el, h1, h2, h3, h4, h5, h6, h7, h8, h9, h10, h11⟩ := hb.tmp n hn hop
  unfold restore at h
  simp only [h1, h2, h3, h4] at h
  have hscope : set1 st.scope n cur = st.scope := by
    funext i
    by_cases hin : i = n
    · subst hin; simp [set1, hcur]
    · simp [set1, hin]
  rw [hscope, h5] at h
  have hLc : cur = L := by rw [← hcur, h9]
  subst hLc
  have hne : ∀ m, m ≠ n → set1 st.nd n (nd0 n) m = st.nd m := fun m hm => by simp [set1, hm]
  have hnn : set1 st.nd n (nd0 n) n = nd0 n := by simp [set1]
  have hb1 := base_restore hb hn hop hpl (hg.closed n hn)
  have hs : SameCtl st.nd ({ st with nd := set1 st.nd n (nd0 n) } : St).nd st.size := by
    refine ⟨fun m _ hp => hne m ?_, fun m _ hp => ?_, ?_⟩
    · intro h; subst h; exact hp (Or.inr hop)
    · show (set1 st.nd n (nd0 n) m).op.pt
      by_cases h : m = n
      · subst h; rw [hnn]; exact Or.inl hpl
      · rw [hne m h]; exact hp
    · intro hq m hm
      by_cases h : m = n
      · subst h; rw [hop] at hm; cases hm
      · exact hq m (by show (set1 st.nd n (nd0 n) m).op = _; rw [hne m h]; exact hm)
  have w1 : ∀ {c d}, c ≤ st.colors → d ≤ st.colors → W st.nd st.path c d → W (set1 st.nd n (nd0 n)) st.path c d := fun hc hd hw =>
    w_ext (st' := { st with nd := set1 st.nd n (nd0 n) }) hb hs (fun _ _ => rfl) hc hd hw
  have hneed : ∀ m, (set1 st.nd n (nd0 n) m).op.needed = (st.nd m).op.needed := by
    intro m
    by_cases h : m = n
    · subst h; rw [hnn, hpl, hop]; rfl
    · rw [hne m h]
  have huse : ∀ u, St.use { st with nd := set1 st.nd n (nd0 n) } u = st.use u := by
    intro u
    by_cases h : u = n
    · subst h
      simp only [St.use, hnn, hpl, hop]
      rfl
    · simp only [St.use, hne u h]
  have husele : ∀ u, st.use u ≤ st.colors := by
    intro u
    unfold St.use
    split
    · exact hb.inners u
    · exact hb.scopes u
  have hkS : k ∉ S := by
    intro h'
    have := (hi.opened k h').1
    omega
  have hkarg : ∀ a ∈ (nd0 n).args, 1 ≤ st.count a ∧ a ∉ S ∧ ((st.nd a).op.needed = true → W st.nd st.path (st.scope k) (st.scope a)) := by
    intro a ha
    have := hi.avail k h8 hkS a (by rw [h5]; exact ha)
    rw [St.use_value (by rw [h5, hpl]; rfl)] at this
    exact this
  have hargs : ∀ a ∈ (nd0 n).args, a < N ∧ (1 ≤ st.count a ∧ a ∉ S) ∧ (nd0 a).op.isValue = true ∧ R a < R n := by
    intro a ha
    exact ⟨hg.closed n hn a ha, ⟨(hkarg a ha).1, (hkarg a ha).2.1⟩, hg.plain n hn hpl a ha, hR n hn a ha⟩
  have hkin := inL_ext (st' := { st with nd := set1 st.nd n (nd0 n) }) hb hs (fun _ _ => rfl) (hb.scopes k) h10
  have hL := hb.inLe h10
  have hq : AvailQ (fun m => (1 ≤ st.count m ∧ m ∉ S) ∧ m ≠ n) { st with nd := set1 st.nd n (nd0 n) } := by
    intro u hqu a ha hna
    rw [huse u]
    simp only [hne u hqu.2, hneed] at ha hna
    exact w1 (husele u) (hb.scopes a) ((hi.avail u hqu.1.1 hqu.1.2 a ha).2.2 hna)
  obtain ⟨s, e1, m1, q1, w2⟩ := foldl_update (update_ok hg hR (P := fun m => 1 ≤ st.count m ∧ m ∉ S) f) (L := cur) (e := el) (r := R n)
    (nd0 n).args { st with nd := set1 st.nd n (nd0 n) } st' _ h hb1
    (by
      intro u hu hp hpl' a ha
      by_cases hun : u = n
      · subst hun
        simp only [hnn] at ha
        exact (hargs a ha).2.1
      · simp only [hne u hun] at ha
        have := hi.avail u hp.1 hp.2 a ha
        exact ⟨this.1, this.2.1⟩)
    hq (fun m hm hp hr => ⟨hp, by intro h1; subst h1; omega⟩) hargs hkin.loop hkin h11 hL hkin.w
    (by
      intro a ha hna
      simp only [hneed] at hna
      exact w1 (hb.scopes k) (hb.scopes a) ((hkarg a ha).2.2 hna))
  have hsn : s n = cur := by
    by_contra h'
    have := (m1.only n (by show s n ≠ st.scope n; rw [hcur]; exact h')).2.1
    omega
  have hext0 : Ext st { st with nd := set1 st.nd n (nd0 n) } :=
    ⟨le_refl _, le_refl _, fun _ _ => rfl, hs, fun _ h => h, fun _ _ _ => rfl, fun _ _ _ => rfl, fun _ _ _ => W.refl _⟩
  subst e1
  refine ⟨⟨m1.base hb1, ?_, hi.opened⟩, hext0.trans hb hb1 m1.ext, ?_, hv, ?_⟩
  · intro u hu hS' a ha
    by_cases hun : u = n
    · subst hun
      replace ha : a ∈ (set1 st.nd u (nd0 u) u).args := ha
      rw [hnn] at ha
      refine ⟨(hkarg a ha).1, (hkarg a ha).2.1, fun hna => ?_⟩
      rw [St.use_value (st := { st with nd := set1 st.nd u (nd0 u), scope := s }) (by simp only [hnn, hpl]; rfl)]
      show W (set1 st.nd u (nd0 u)) st.path (s u) (s a)
      rw [hsn]
      exact w2 a ha hna
    · have ha' := ha
      simp only [hne u hun] at ha'
      have h12 := hi.avail u hu hS' a ha'
      refine ⟨h12.1, h12.2.1, fun hna => ?_⟩
      exact q1 u ⟨⟨hu, hS'⟩, hun⟩ a ha hna
  · intro m hm hr
    refine ⟨hne m (by intro h'; subst h'; omega), ?_⟩
    by_contra hne
    have := (m1.only m hne).2.1
    omega
  · intro _
    show W _ _ cur (s n)
    rw [hsn]
    exact W.refl _

/-! ### new conditional temporaries -/

/-- the changes made for a conditional temporary -/
structure AltOk (st : St) (n : Nat) (rs : List (Nat × Nat)) (L el k : Nat) (st1 : St) : Prop where
  size0 : st.size = k
  e0 : st1.nd n = ⟨.tmp, [k + 1, k + 5]⟩
  e1 : st1.nd k = st.nd n
  e2 : st1.nd (k + 1) = ⟨.tmpDcl, []⟩
  e3 : st1.nd (k + 2) = ⟨.startIf rs, []⟩
  e4 : st1.nd (k + 3) = ⟨.loopTmp, [k + 1, k]⟩
  e5 : st1.nd (k + 4) = ⟨.condRes, [k + 2, k + 3]⟩
  e6 : st1.nd (k + 5) = ⟨.endIf, [k + 2, k + 4]⟩
  eo : ∀ m, m < k → m ≠ n → st1.nd m = st.nd m
  so : ∀ m, m < k → m ≠ n → st1.scope m = st.scope m
  sb : ∀ m, k + 6 ≤ m → st1.scope m = st.scope m
  sn : st1.scope n = L
  s1 : st1.scope (k + 1) = L
  s5 : st1.scope (k + 5) = L
  sc : ∀ m, k ≤ m → m < k + 5 → m ≠ k + 1 → st1.scope m = st.colors + 1
  co : ∀ m, m < k → st1.count m = st.count m
  cn : ∀ m, k ≤ m → m < k + 6 → st1.count m = 1
  cb : ∀ m, k + 6 ≤ m → st1.count m = 0
  po : ∀ c, c ≠ st.colors + 1 → st1.path c = st.path c
  pc : st1.path (st.colors + 1) = [(L, el), (st.colors + 1, k + 5)]
  io : ∀ m, m ≠ k + 2 → m ≠ k + 5 → st1.inner m = st.inner m
  i2 : st1.inner (k + 2) = L
  i5 : st1.inner (k + 5) = st.colors + 1
  col : st1.colors = st.colors + 1
  size1 : st1.size = k + 6
  eb : ∀ m, k + 6 ≤ m → st1.nd m = st.nd m

theorem altered_ok (hb : Base nd0 N st) {n : Nat} (rs : List (Nat × Nat)) {L el : Nat} (hn : n < N) (hL : st.path L = [(L, el)]) :
    AltOk st n rs L el st.size (altered n rs L st) := by
  have hsz := hb.size
  have h1 : n ≠ st.size := by omega
  have h2 : ∀ j, st.size + j ≠ n := by intro j; omega
  constructor
  all_goals first
    | rfl
    | (simp [altered, set1, h1.symm, h2, hL]; done)
    | skip
  · intro m hm hmn
    simp only [altered]
    rw [if_neg hmn, if_neg (by omega), if_neg (by omega), if_neg (by omega), if_neg (by omega), if_neg (by omega), if_neg (by omega)]
  · intro m hm hmn
    simp only [altered]
    rw [if_neg (by omega), if_neg (by omega)]
  · intro m hm
    simp only [altered]
    rw [if_neg (by omega), if_neg (by omega)]
  · intro m h1 h2 h3
    simp only [altered]
    rw [if_neg (by omega), if_pos ⟨h1, h2⟩]
  · intro m hm
    simp only [altered]
    rw [if_neg (by omega)]
  · intro m h1 h2
    simp only [altered]
    rw [if_pos ⟨h1, h2⟩]
  · intro m h1
    simp only [altered]
    rw [if_neg (by omega)]
    exact hb.big m (by omega)
  · intro c hc
    simp [altered, set1, hc]
  · intro m h1 h2
    simp [altered, set1, h1, h2]
  · intro m hm
    simp only [altered]
    rw [if_neg (by omega), if_neg (by omega), if_neg (by omega), if_neg (by omega), if_neg (by omega), if_neg (by omega), if_neg (by omega)]

theorem AltOk.ctl {n : Nat} {rs : List (Nat × Nat)} {L el k : Nat} {st1 : St} (h : AltOk st n rs L el k st1) (hop : (st.nd n).op = .plain) :
    SameCtl st.nd st1.nd st.size := by
  rw [h.size0]
  refine ⟨fun m hm hp => h.eo m hm ?_, fun m hm hp => ?_, fun hq => absurd (by rw [h.e4]) (hq (k + 3))⟩
  · intro h; subst h; exact hp (Or.inl hop)
  · by_cases h' : m = n
    · subst h'; rw [h.e0]; exact Or.inr rfl
    · rw [h.eo m hm h']; exact hp

/-- the new nodes -/
theorem AltOk.cases {n : Nat} {rs : List (Nat × Nat)} {L el k : Nat} {st1 : St} (h : AltOk st n rs L el k st1) (hn : n < k) (m : Nat) (hm : m < k + 6) :
    (m < k ∧ m ≠ n) ∨ m = n ∨ m = k ∨ m = k + 1 ∨ m = k + 2 ∨ m = k + 3 ∨ m = k + 4 ∨ m = k + 5 := by omega

theorem base_alter (hb : Base nd0 N st) {n : Nat} {rs : List (Nat × Nat)} {L el k : Nat} {st1 : St} (ha : AltOk st n rs L el k st1) (hn : n < N)
    (hv : 1 ≤ st.count n) (hop : (st.nd n).op = .plain) (hnd : st.nd n = nd0 n) (hcl : ∀ a ∈ (nd0 n).args, a < N)
    (ho : InL st.nd st.path L el (st.scope n)) (hrs : SeparatedRanges rs) :
    Base nd0 N st1 ∧ InL st1.nd st1.path L el (st.colors + 1) := by
  have hL := hb.inLe ho
  have hsz := hb.size
  rw [ha.size0] at hsz
  have hnk : n < k := by omega
  have hs := ha.ctl hop
  have po : ∀ c ≤ st.colors, st1.path c = st.path c := fun c hc => ha.po c (by omega)
  have inl : ∀ {L e c}, c ≤ st.colors → InL st.nd st.path L e c → InL st1.nd st1.path L e c := fun hc h => inL_ext hb hs po hc h
  have hel := hb.pathEnd hL (el := (L, el)) (by rw [ho.1]; simp)
  have hinc : InL st1.nd st1.path L el (st.colors + 1) := by
    have h1 := inl hL ho.loop
    exact ⟨h1.1, h1.2.1, h1.2.2.1, Or.inr ⟨by omega, by omega, k + 5, ha.pc, by rw [ha.e6]; rfl⟩⟩
  -- nodes which are not operations
  have old : ∀ m, m < k → ¬ (st.nd m).op.pt → m ≠ n ∧ st1.nd m = st.nd m := by
    intro m hm hp
    have h : m ≠ n := by intro h; subst h; exact hp (Or.inl hop)
    exact ⟨h, ha.eo m hm h⟩
  have vis : ∀ m, 1 ≤ st1.count m → m < k + 6 := by
    intro m hm
    by_contra hn
    have := ha.cb m (by omega)
    omega
  have visk : ∀ m, 1 ≤ st.count m → m < k := by
    intro m hm
    have := hb.visLt hm
    rw [ha.size0] at this
    exact this
  have hclk : ∀ m < k, ∀ a ∈ (st.nd m).args, a < k := by
    intro m hm a ham
    have := hb.closed m (by rw [ha.size0]; exact hm) a ham
    rw [ha.size0] at this
    exact this
  -- visited nodes of other kinds
  have split : ∀ m, 1 ≤ st1.count m → ¬ (st1.nd m).op.pt → (m < k ∧ m ≠ n ∧ st1.nd m = st.nd m ∧ 1 ≤ st.count m) ∨ m = k + 1 ∨ m = k + 2 ∨
      m = k + 3 ∨ m = k + 4 ∨ m = k + 5 := by
    intro m hm hp
    rcases ha.cases hnk m (vis m hm) with h | h | h | h
    · left
      have := ha.co m h.1
      exact ⟨h.1, h.2, ha.eo m h.1 h.2, by omega⟩
    · subst h; rw [ha.e0] at hp; exact absurd (Or.inr rfl) hp
    · subst h; rw [ha.e1] at hp; exact absurd (Or.inl hop) hp
    · exact Or.inr h
  refine ⟨⟨?_, ?_, ?_, ?_, ?_, ?_, ?_, ?_, ?_, ?_, ?_, ?_, ?_, ?_, ?_, ?_, ?_, ?_, ?_, ?_,
    fun hq => absurd (by rw [ha.e4]) (hq (k + 3)),
    fun m hm => by rw [ha.size1] at hm; rw [ha.eb m hm]; exact hb.rest m (by rw [ha.size0]; omega)⟩, hinc⟩
  · rw [ha.size1]; omega
  · intro m hm
    by_cases h : m = n
    · subst h
      right
      exact ⟨by rw [← hnd]; exact hop, by rw [ha.e0]⟩
    · rw [ha.eo m (by omega) h]
      exact hb.orig m hm
  · intro m hm hc
    rw [ha.co m (by omega)] at hc
    rw [ha.eo m (by omega) (by intro h; subst h; omega)]
    exact hb.unv m hm hc
  · intro m hm
    rw [ha.size1] at hm
    exact ha.cb m hm
  · intro m hm a ham
    rw [ha.size1] at hm ⊢
    rcases ha.cases hnk m hm with h | h | h | h | h | h | h | h
    · rw [ha.eo m h.1 h.2] at ham
      have := hclk m h.1 a ham
      omega
    · subst h
      rw [ha.e0] at ham
      simp only [List.mem_cons, List.not_mem_nil, or_false] at ham
      omega
    · subst h
      rw [ha.e1, hnd] at ham
      have := hcl a ham
      omega
    · subst h; rw [ha.e2] at ham; cases ham
    · subst h; rw [ha.e3] at ham; cases ham
    · subst h
      rw [ha.e4] at ham
      simp only [List.mem_cons, List.not_mem_nil, or_false] at ham
      omega
    · subst h
      rw [ha.e5] at ham
      simp only [List.mem_cons, List.not_mem_nil, or_false] at ham
      omega
    · subst h
      rw [ha.e6] at ham
      simp only [List.mem_cons, List.not_mem_nil, or_false] at ham
      omega
  · intro m hm h
    by_cases hmn : m = n
    · subst hmn
      refine ⟨k + 1, k + 5, k + 2, k + 4, k + 3, k, L, el, ha.e0, ha.e6, ha.e5, ha.e4, by rw [ha.e1, hnd], hsz, by rw [ha.size1]; omega, ?_, ha.sn, ?_, ?_⟩
      · rw [ha.cn k (by omega) (by omega)]
      · rw [ha.sc k (by omega) (by omega) (by omega)]; exact hinc
      · rw [ha.sc k (by omega) (by omega) (by omega)]; omega
    · rw [ha.eo m (by omega) hmn] at h
      obtain ⟨d, e, x, r, t, j, L', el', h1, h2, h3, h4, h5, h6, h7, h8, h9, h10, h11⟩ := hb.tmp m hm h
      have he : e < k := hclk m (by omega) e (by rw [h1]; simp)
      have hr : r < k := hclk e he r (by rw [h2]; simp)
      have ht : t < k := hclk r hr t (by rw [h3]; simp)
      have hj : j < k := hclk t ht j (by rw [h4]; simp)
      refine ⟨d, e, x, r, t, j, L', el', ?_, ?_, ?_, ?_, ?_, h6, ?_, ?_, ?_, ?_, ?_⟩
      · rw [ha.eo m (by omega) hmn]; exact h1
      · rw [(old e he (by rw [h2]; rintro (h' | h') <;> cases h')).2]; exact h2
      · rw [(old r hr (by rw [h3]; rintro (h' | h') <;> cases h')).2]; exact h3
      · rw [(old t ht (by rw [h4]; rintro (h' | h') <;> cases h')).2]; exact h4
      · rw [ha.eo j hj (by omega)]; exact h5
      · rw [ha.size1]; omega
      · rw [ha.co j hj]; exact h8
      · rw [ha.so m (by omega) hmn]; exact h9
      · rw [ha.so j hj (by omega)]; exact inl (hb.scopes j) h10
      · rw [ha.so j hj (by omega)]; exact h11
  · intro c hc
    rw [ha.col] at hc
    by_cases h : c = st.colors + 1
    · subst h; exact Or.inr ⟨L, el, hinc⟩
    · exact pathOk_ext hb hs po (by omega)
  · intro c hc
    rw [ha.col] at hc
    rw [ha.po c (by omega)]
    exact hb.beyond c (by omega)
  · intro m
    rw [ha.col]
    by_cases h : m < k + 6
    · rcases ha.cases hnk m h with h | h | h | h | h | h | h | h
      · rw [ha.so m h.1 h.2]; have := hb.scopes m; omega
      · subst h; rw [ha.sn]; omega
      · rw [ha.sc m (by omega) (by omega) (by omega)]
      · subst h; rw [ha.s1]; omega
      · rw [ha.sc m (by omega) (by omega) (by omega)]
      · rw [ha.sc m (by omega) (by omega) (by omega)]
      · rw [ha.sc m (by omega) (by omega) (by omega)]
      · subst h; rw [ha.s5]; omega
    · rw [ha.sb m (by omega)]; have := hb.scopes m; omega
  · intro m
    rw [ha.col]
    by_cases h : m = k + 2
    · subst h; rw [ha.i2]; omega
    · by_cases h' : m = k + 5
      · subst h'; rw [ha.i5]
      · rw [ha.io m h h']; have := hb.inners m; omega
  · intro m hm qs h
    rw [ha.size1] at hm
    rcases ha.cases hnk m hm with h1 | h1 | h1 | h1 | h1 | h1 | h1 | h1
    · rw [ha.eo m h1.1 h1.2] at h
      exact hb.conds m (by rw [ha.size0]; exact h1.1) qs h
    · subst h1; rw [ha.e0] at h; rcases h with h | h <;> cases h
    · subst h1; rw [ha.e1, hop] at h; rcases h with h | h <;> cases h
    · subst h1; rw [ha.e2] at h; rcases h with h | h <;> cases h
    · subst h1; rw [ha.e3] at h; rcases h with h | h <;> cases h; exact hrs
    · subst h1; rw [ha.e4] at h; rcases h with h | h <;> cases h
    · subst h1; rw [ha.e5] at h; rcases h with h | h <;> cases h
    · subst h1; rw [ha.e6] at h; rcases h with h | h <;> cases h
  · have key : ∀ m < k + 6, (st1.nd m).op.isEnd = true → (m < k ∧ st1.nd m = st.nd m) ∨ m = k + 5 := by
      intro m hm h
      rcases ha.cases hnk m hm with h1 | h1 | h1 | h1 | h1 | h1 | h1 | h1
      · exact Or.inl ⟨h1.1, ha.eo m h1.1 h1.2⟩
      · subst h1; rw [ha.e0] at h; cases h
      · subst h1; rw [ha.e1, hop] at h; cases h
      · subst h1; rw [ha.e2] at h; cases h
      · subst h1; rw [ha.e3] at h; cases h
      · subst h1; rw [ha.e4] at h; cases h
      · subst h1; rw [ha.e5] at h; cases h
      · exact Or.inr h1
    have hd : ∀ m, m < k → (st.nd m).args.head? ≠ some (k + 2) := by
      intro m hm h
      have := hclk m hm (k + 2) (List.mem_of_mem_head? h)
      omega
    intro e he e' he' h h' heq
    rw [ha.size1] at he he'
    rcases key e he h with h1 | h1
    · rcases key e' he' h' with h2 | h2
      · rw [h1.2] at h heq
        rw [h2.2] at h' heq
        exact hb.uniq e (by rw [ha.size0]; exact h1.1) e' (by rw [ha.size0]; exact h2.1) h h' heq
      · subst h2
        rw [h1.2, ha.e6] at heq
        exact absurd heq (hd e h1.1)
    · subst h1
      rcases key e' he' h' with h2 | h2
      · rw [h2.2, ha.e6] at heq
        exact absurd heq.symm (hd e' h2.1)
      · exact h2.symm
  · intro e hve h
    rcases split e hve (by rw [h]; rintro (h' | h') <;> cases h') with ⟨h1, h2, h3, h4⟩ | h1 | h1 | h1 | h1 | h1
    · rw [h3] at h
      obtain ⟨h5, h6⟩ := hb.loopEnd e h4 h
      rw [ha.so e h1 h2, ha.io e (by omega) (by omega)]
      exact ⟨h5, inl (hb.inners e) h6⟩
    · subst h1; rw [ha.e2] at h; cases h
    · subst h1; rw [ha.e3] at h; cases h
    · subst h1; rw [ha.e4] at h; cases h
    · subst h1; rw [ha.e5] at h; cases h
    · subst h1; rw [ha.e6] at h; cases h
  · intro e hve h
    rcases split e hve (Op.ends_pt h) with ⟨h1, h2, h3, h4⟩ | h1 | h1 | h1 | h1 | h1
    · rw [h3] at h ⊢
      obtain ⟨L', el', h5, h6, h7, h8⟩ := hb.branch e h4 h
      rw [ha.so e h1 h2, ha.io e (by omega) (by omega)]
      exact ⟨L', el', inl (hb.inners e) h5, h6, by rw [po _ (hb.inners e)]; exact h7, h8⟩
    · subst h1; rw [ha.e2] at h; cases h
    · subst h1; rw [ha.e3] at h; cases h
    · subst h1; rw [ha.e4] at h; cases h
    · subst h1; rw [ha.e5] at h; cases h
    · subst h1
      refine ⟨L, el, ?_, ?_, ?_, fun _ => ha.s5⟩
      · rw [ha.i5]; exact hinc
      · rw [ha.i5]; omega
      · rw [ha.i5]; exact ha.pc
  · intro b hvb h
    rcases split b hvb (Op.begins_pt h) with ⟨h1, h2, h3, h4⟩ | h1 | h1 | h1 | h1 | h1
    · rw [h3] at h
      obtain ⟨e, h5, h6, h7, h8⟩ := hb.begins b h4 h
      have he := visk e h5
      have h9 := old e he (Op.isEnd_pt h6)
      exact ⟨e, by rw [ha.co e he]; exact h5, by rw [h9.2]; exact h6, by rw [h9.2]; exact h7,
        by rw [ha.so b h1 h2, ha.io e (by omega) (by omega)]; exact h8⟩
    · subst h1; rw [ha.e2] at h; cases h
    · subst h1
      exact ⟨k + 5, by rw [ha.cn _ (by omega) (by omega)], by rw [ha.e6]; rfl, by rw [ha.e6]; rfl,
        by rw [ha.sc _ (by omega) (by omega) (by omega), ha.i5]⟩
    · subst h1; rw [ha.e4] at h; cases h
    · subst h1; rw [ha.e5] at h; cases h
    · subst h1; rw [ha.e6] at h; cases h
  · intro b hvb h
    rcases split b hvb (by rcases h with h | ⟨_, h⟩ <;> rw [h] <;> rintro (h' | h') <;> cases h') with ⟨h1, h2, h3, h4⟩ | h1 | h1 | h1 | h1 | h1
    · rw [h3] at h
      rw [ha.io b (by omega) (by omega), ha.so b h1 h2, po _ (hb.inners b), po _ (hb.scopes b)]
      exact hb.opens b h4 h
    · subst h1; rw [ha.e2] at h; rcases h with h | ⟨_, h⟩ <;> cases h
    · subst h1
      rw [ha.i2, ha.sc _ (by omega) (by omega) (by omega), ha.pc, po L hL, ho.1]
      rfl
    · subst h1; rw [ha.e4] at h; rcases h with h | ⟨_, h⟩ <;> cases h
    · subst h1; rw [ha.e5] at h; rcases h with h | ⟨_, h⟩ <;> cases h
    · subst h1; rw [ha.e6] at h; rcases h with h | ⟨_, h⟩ <;> cases h
  · intro r hvr h
    rcases split r hvr (by rw [h]; rintro (h' | h') <;> cases h') with ⟨h1, h2, h3, h4⟩ | h1 | h1 | h1 | h1 | h1
    · rw [h3] at h ⊢
      obtain ⟨e, h5, h6, h7, h8⟩ := hb.res r h4 h
      have he := visk e h5
      have h9 := old e he (Op.isEnd_pt h6)
      exact ⟨e, by rw [ha.co e he]; exact h5, by rw [h9.2]; exact h6, by rw [h9.2]; exact h7,
        by rw [ha.so r h1 h2, ha.io e (by omega) (by omega)]; exact h8⟩
    · subst h1; rw [ha.e2] at h; cases h
    · subst h1; rw [ha.e3] at h; cases h
    · subst h1; rw [ha.e4] at h; cases h
    · subst h1
      exact ⟨k + 5, by rw [ha.cn _ (by omega) (by omega)], by rw [ha.e6]; rfl, by rw [ha.e6, ha.e5]; rfl,
        by rw [ha.sc _ (by omega) (by omega) (by omega), ha.i5]⟩
    · subst h1; rw [ha.e6] at h; cases h
  · intro m hvm h
    rcases split m hvm (by rw [h]; rintro (h' | h') <;> cases h') with ⟨h1, h2, h3, h4⟩ | h1 | h1 | h1 | h1 | h1
    · rw [h3] at h
      rw [ha.so m h1 h2]
      exact hb.multi m h4 h
    · subst h1; rw [ha.e2] at h; cases h
    · subst h1; rw [ha.e3] at h; cases h
    · subst h1; rw [ha.e4] at h; cases h
    · subst h1; rw [ha.e5] at h; cases h
    · subst h1; rw [ha.e6] at h; cases h
  · intro c h1 h2
    rw [ha.col] at h2
    by_cases h : c = st.colors + 1
    · exact ⟨k + 5, by rw [ha.cn _ (by omega) (by omega)], by rw [ha.e6]; rfl, by rw [ha.i5, h]⟩
    · obtain ⟨e, h3, h4, h5⟩ := hb.color c h1 (by omega)
      have he := visk e h3
      exact ⟨e, by rw [ha.co e he]; exact h3, by rw [(old e he (Op.isEnd_pt h4)).2]; exact h4, by rw [ha.io e (by omega) (by omega)]; exact h5⟩
  · intro e he h
    rw [ha.size1] at he
    rcases ha.cases hnk e he with h1 | h1 | h1 | h1 | h1 | h1 | h1 | h1
    · rw [ha.eo e h1.1 h1.2] at h ⊢
      obtain ⟨b, as, h2, h3⟩ := hb.head e (by rw [ha.size0]; exact h1.1) h
      exact ⟨b, as, h2, by rw [(old b (hclk e h1.1 b (by rw [h2]; simp)) (Op.begins_pt h3)).2]; exact h3⟩
    · subst h1; rw [ha.e0] at h; cases h
    · subst h1; rw [ha.e1, hop] at h; cases h
    · subst h1; rw [ha.e2] at h; cases h
    · subst h1; rw [ha.e3] at h; cases h
    · subst h1; rw [ha.e4] at h; cases h
    · subst h1; rw [ha.e5] at h; cases h
    · subst h1; rw [ha.e6]; exact ⟨k + 2, [k + 4], rfl, by rw [ha.e3]; rfl⟩

theorem alter_ok (hg : LoopGraph nd0 N) (hR : ∀ n < N, ∀ a ∈ (nd0 n).args, R a < R n) (hi : Inv nd0 N S st) {f n cur L el : Nat}
    {rs : List (Nat × Nat)} (hn : n < N) (hv : 1 ≤ st.count n) (hS : n ∉ S) (hop : (st.nd n).op = .plain)
    (ho : InL st.nd st.path L el (st.scope n)) (hoL : st.scope n ≠ L) (hcc : cur ≤ st.colors) (hcur : InL st.nd st.path L el cur) (hrs : SeparatedRanges rs)
    (hcov : ∀ it ≤ sizeMax, Placed.Runs ⟨st.nd, fun _ => 0, st.path⟩ (st.scope n) it → Covers rs it)
    (h : alter f n rs (st.scope n) L st = .ok st') : Done nd0 N R S n cur st st' := by
  have hb := hi.base
  have hnd : st.nd n = nd0 n := by
    rcases hb.orig n hn with h1 | h1
    · exact h1
    · rw [hop] at h1; cases h1.2
  unfold alter at h
  split at h
  · cases h
  have ha := altered_ok hb rs hn ho.1
  generalize altered n rs L st = st1 at h ha
  generalize st.size = k at ha
  obtain ⟨hb1, hinc⟩ := base_alter hb ha hn hv hop hnd (hg.closed n hn) ho hrs
  have hs := ha.ctl hop
  have hL := hb.inLe ho
  have hsz := hb.size
  rw [ha.size0] at hsz
  have po : ∀ c ≤ st.colors, st1.path c = st.path c := fun c hc => ha.po c (by omega)
  have w1 : ∀ {c d}, c ≤ st.colors → d ≤ st.colors → W st.nd st.path c d → W st1.nd st1.path c d := fun hc hd hw => w_ext hb hs po hc hd hw
  have inl : ∀ {L e c}, c ≤ st.colors → InL st.nd st.path L e c → InL st1.nd st1.path L e c := fun hc h => inL_ext hb hs po hc h
  have ho1 := inl (hb.scopes n) ho
  -- the condition holds in all iterations of the old scope
  have hwc : W st1.nd st1.path (st.scope n) (st.colors + 1) := by
    refine ⟨⟨?_, fun it hit hr => ?_⟩, fun hq => absurd (by rw [ha.e4]) (hq (k + 3))⟩
    · have h1 := InL.loops (P := ⟨st1.nd, fun _ => 0, st1.path⟩) hinc
      have h2 := InL.loops (P := ⟨st1.nd, fun _ => 0, st1.path⟩) ho1
      rw [h1, h2]
      exact List.prefix_refl _
    · have hc := hcov it hit ((runs_iff hb hs (hb.scopes n) (po _ (hb.scopes n)) it).mpr hr)
      intro e' he' hends b as hargs
      replace he' : e' ∈ st1.path (st.colors + 1) := he'
      rw [ha.pc] at he'
      simp only [List.mem_cons, List.not_mem_nil, or_false] at he'
      rcases he' with he' | he'
      · subst he'
        replace hends : (st1.nd el).op.ends = true := hends
        rw [ho1.2.1] at hends
        cases hends
      · subst he'
        replace hargs : (st1.nd (k + 5)).args = b :: as := hargs
        rw [ha.e6] at hargs
        cases hargs
        exact .startIf ha.e3 hc
  have hnk : n < k := by omega
  have visk : ∀ m, 1 ≤ st.count m → m < k := by
    intro m hm
    have := hb.visLt hm
    rw [ha.size0] at this
    exact this
  have hSk : ∀ m, k ≤ m → m ∉ S := by
    intro m hm h'
    have := visk m (hi.opened m h').2
    omega
  have visN : ∀ m, 1 ≤ st1.count m → (m < k ∧ 1 ≤ st.count m) ∨ m = k ∨ m = k + 1 ∨ m = k + 2 ∨ m = k + 3 ∨ m = k + 4 ∨ m = k + 5 := by
    intro m hm
    by_cases h1 : m < k
    · rw [ha.co m h1] at hm; exact Or.inl ⟨h1, hm⟩
    · by_cases h2 : m < k + 6
      · omega
      · have := ha.cb m (by omega); omega
  have hext0 : Ext st st1 := by
    refine ⟨by rw [ha.size0, ha.size1]; omega, by rw [ha.col]; omega, po, hs, fun m hm => by rw [ha.co m (visk m hm)]; exact hm, ?_, ?_, ?_⟩
    · intro m hm _
      have := visk m hm
      exact ha.io m (by omega) (by omega)
    · intro m hm hmv
      exact ha.so m (visk m hm) (by intro h'; subst h'; exact hmv (Or.inl (by rw [hop]; rfl)))
    · intro m hm hne
      by_cases h' : m = n
      · subst h'; rw [ha.sn]; exact ho1.w
      · rw [ha.so m (visk m hm) h']; exact W.refl _
  -- arguments of the operation
  have hargs : ∀ a ∈ (st.nd n).args, a < N ∧ (1 ≤ st1.count a ∧ a ∉ S) ∧ (nd0 a).op.isValue = true ∧ R a < R n := by
    intro a ham
    have ha' : a ∈ (nd0 n).args := by rw [← hnd]; exact ham
    have := hi.avail n hv hS a ham
    exact ⟨hg.closed n hn a ha', ⟨hext0.vis a this.1, this.2.1⟩, hg.plain n hn (by rw [← hnd]; exact hop) a ha', hR n hn a ha'⟩
  have husele : ∀ u, st.use u ≤ st.colors := by
    intro u
    unfold St.use
    split
    · exact hb.inners u
    · exact hb.scopes u
  have huse : ∀ u, 1 ≤ st.count u → u ≠ n → st1.use u = st.use u := by
    intro u hu hun
    have := visk u hu
    simp only [St.use, ha.eo u this hun, ha.io u (by omega) (by omega), ha.so u this hun]
  have hneed : ∀ m, 1 ≤ st.count m → (st1.nd m).op.needed = (st.nd m).op.needed := fun m hm => hext0.needed hb hm
  have usn : st1.use n = L := by rw [St.use_value (by rw [ha.e0]; rfl), ha.sn]
  have us : ∀ m, k ≤ m → m < k + 5 → m ≠ k + 1 → (st1.nd m).op.ctrl = false → st1.use m = st.colors + 1 := by
    intro m h1 h2 h3 h4
    rw [St.use_value h4, ha.sc m h1 h2 h3]
  have us5 : st1.use (k + 5) = st.colors + 1 := by
    simp only [St.use, ha.e6, ha.i5]
    rfl
  have hq : AvailQ (fun m => (1 ≤ st1.count m ∧ m ∉ S) ∧ m ≠ k) st1 := by
    intro u hqu a hau hna
    rcases visN u hqu.1.1 with ⟨h1, h2⟩ | h1 | h1 | h1 | h1 | h1 | h1
    · by_cases hun : u = n
      · subst hun
        rw [ha.e0] at hau
        simp only [List.mem_cons, List.not_mem_nil, or_false] at hau
        rw [usn]
        rcases hau with hau | hau
        · rw [hau, ha.s1]; exact W.refl _
        · rw [hau, ha.s5]; exact W.refl _
      · rw [ha.eo u h1 hun] at hau
        obtain ⟨h3, h4, h5⟩ := hi.avail u h2 hqu.1.2 a hau
        rw [hneed a h3] at hna
        rw [huse u h2 hun]
        exact (w1 (husele u) (hb.scopes a) (h5 hna)).trans (hext0.up a h3 hna)
    · exact absurd h1 hqu.2
    · subst h1; rw [ha.e2] at hau; cases hau
    · subst h1; rw [ha.e3] at hau; cases hau
    · subst h1
      rw [us (k + 3) (by omega) (by omega) (by omega) (by rw [ha.e4]; rfl)]
      rw [ha.e4] at hau
      simp only [List.mem_cons, List.not_mem_nil, or_false] at hau
      rcases hau with hau | hau
      · rw [hau, ha.s1]; exact hinc.w
      · rw [hau, ha.sc k (by omega) (by omega) (by omega)]; exact W.refl _
    · subst h1
      rw [us (k + 4) (by omega) (by omega) (by omega) (by rw [ha.e5]; rfl)]
      rw [ha.e5] at hau
      simp only [List.mem_cons, List.not_mem_nil, or_false] at hau
      rw [ha.sc a (by omega) (by omega) (by omega)]
      exact W.refl _
    · subst h1
      rw [us5]
      rw [ha.e6] at hau
      simp only [List.mem_cons, List.not_mem_nil, or_false] at hau
      rw [ha.sc a (by omega) (by omega) (by omega)]
      exact W.refl _
  obtain ⟨s, e1, m1, q1, w2⟩ := foldl_update (update_ok hg hR (P := fun m => 1 ≤ st1.count m ∧ m ∉ S) f) (L := L) (e := el) (r := R n)
    (st.nd n).args st1 st' _ h hb1
    (by
      intro u hu hp hpl' a hau
      have hun : u ≠ n := by intro h'; subst h'; rw [ha.e0] at hpl'; cases hpl'
      rw [ha.eo u (by omega) hun] at hau
      have h2 : 1 ≤ st.count u := by rw [← ha.co u (by omega)]; exact hp.1
      have := hi.avail u h2 hp.2 a hau
      exact ⟨hext0.vis a this.1, this.2.1⟩)
    hq (fun m hm hp hr => ⟨hp, by omega⟩) hargs hinc ho1 hoL (by rw [ha.col]) hwc
    (by
      intro a ham hna
      obtain ⟨h3, h4, h5⟩ := hi.avail n hv hS a ham
      rw [hneed a h3] at hna
      have h6 := h5 hna
      rw [St.use_value (by rw [hop]; rfl)] at h6
      exact (w1 (hb.scopes n) (hb.scopes a) h6).trans (hext0.up a h3 hna))
  have hsn : s n = L := by
    by_contra h'
    have := (m1.only n (by rw [ha.sn]; exact h')).2.1
    omega
  have hsk : s k = st.colors + 1 := by
    by_contra h'
    have := (m1.only k (by rw [ha.sc k (by omega) (by omega) (by omega)]; exact h')).1
    omega
  subst e1
  refine ⟨⟨m1.base hb1, ?_, fun m hm => ⟨(hi.opened m hm).1, hext0.vis m (hi.opened m hm).2⟩⟩, hext0.trans hb hb1 m1.ext, ?_, hext0.vis n hv, ?_⟩
  · intro u hu hS' a hau
    have hu' : 1 ≤ st1.count u := hu
    replace hau : a ∈ (st1.nd u).args := hau
    have hvis : 1 ≤ st1.count a ∧ a ∉ S := by
      have fresh : ∀ j, j < 6 → 1 ≤ st1.count (k + j) ∧ k + j ∉ S := fun j hj => ⟨by rw [ha.cn _ (by omega) (by omega)], hSk _ (by omega)⟩
      rcases visN u hu' with ⟨h1, h2⟩ | h1 | h1 | h1 | h1 | h1 | h1
      · by_cases hun : u = n
        · subst hun
          rw [ha.e0] at hau
          simp only [List.mem_cons, List.not_mem_nil, or_false] at hau
          rcases hau with hau | hau <;> rw [hau] <;> exact fresh _ (by omega)
        · rw [ha.eo u h1 hun] at hau
          have := hi.avail u h2 hS' a hau
          exact ⟨hext0.vis a this.1, this.2.1⟩
      · subst h1
        rw [ha.e1] at hau
        exact (hargs a hau).2.1
      · subst h1; rw [ha.e2] at hau; cases hau
      · subst h1; rw [ha.e3] at hau; cases hau
      · subst h1
        rw [ha.e4] at hau
        simp only [List.mem_cons, List.not_mem_nil, or_false] at hau
        rcases hau with hau | hau
        · rw [hau]; exact fresh _ (by omega)
        · rw [hau]; exact fresh 0 (by omega)
      · subst h1
        rw [ha.e5] at hau
        simp only [List.mem_cons, List.not_mem_nil, or_false] at hau
        rcases hau with hau | hau <;> rw [hau] <;> exact fresh _ (by omega)
      · subst h1
        rw [ha.e6] at hau
        simp only [List.mem_cons, List.not_mem_nil, or_false] at hau
        rcases hau with hau | hau <;> rw [hau] <;> exact fresh _ (by omega)
    refine ⟨hvis.1, hvis.2, fun hna => ?_⟩
    by_cases huk : u = k
    · subst huk
      rw [St.use_value (st := { st1 with scope := s }) (by show (st1.nd u).op.ctrl = false; rw [ha.e1, hop]; rfl)]
      show W st1.nd st1.path (s u) (s a)
      rw [hsk]
      rw [ha.e1] at hau
      exact w2 a hau hna
    · exact q1 u ⟨⟨hu, hS'⟩, huk⟩ a hau hna
  · intro m hm hr
    have hmn : m ≠ n := by intro h'; subst h'; omega
    refine ⟨ha.eo m (by omega) hmn, ?_⟩
    rw [← ha.so m (by omega) hmn]
    by_contra hne
    have := (m1.only m hne).2.1
    omega
  · intro _
    show W st1.nd st1.path cur (s n)
    rw [hsn]
    exact (inl hcc hcur).w

end

end Verif.Scopes
