import Verif.Scopes.LemmasUpdate

/-
Lemmas: what stays the same when the scopes of other nodes are determined.
-/
namespace Verif.Scopes

open Verif.Ranges

/-- an operation or a conditional temporary -/
def Op.pt (o : Op) : Prop := o = .plain ∨ o = .tmp

/-- only operations are exchanged with conditional temporaries -/
structure SameCtl (nd nd' : Nat → Node) (size : Nat) : Prop where
  same : ∀ n < size, ¬ (nd n).op.pt → nd' n = nd n
  pt : ∀ n < size, (nd n).op.pt → (nd' n).op.pt
  no : NoTmp nd' → NoTmp nd

section
variable {nd nd' : Nat → Node} {size : Nat}

theorem SameCtl.refl (nd : Nat → Node) (size : Nat) : SameCtl nd nd size := ⟨fun _ _ _ => rfl, fun _ _ h => h, fun h => h⟩

theorem SameCtl.trans {nd'' : Nat → Node} {size' : Nat} (h : SameCtl nd nd' size) (h' : SameCtl nd' nd'' size') (hs : size ≤ size') :
    SameCtl nd nd'' size := by
  refine ⟨fun n hn hp => ?_, fun n hn hp => h'.pt n (by omega) (h.pt n hn hp), fun hn => h.no (h'.no hn)⟩
  have h1 := h.same n hn hp
  rw [h'.same n (by omega) (by rw [h1]; exact hp), h1]

theorem SameCtl.back (h : SameCtl nd nd' size) {n : Nat} (hn : n < size) (hp : ¬ (nd' n).op.pt) : nd' n = nd n := by
  apply h.same n hn
  intro h1
  exact hp (h.pt n hn h1)

theorem Op.ends_pt {o : Op} (h : o.ends = true) : ¬ o.pt := by
  rintro (h' | h') <;> rw [h'] at h <;> cases h

theorem Op.isEnd_pt {o : Op} (h : o.isEnd = true) : ¬ o.pt := by
  rintro (h' | h') <;> rw [h'] at h <;> cases h

theorem Op.begins_pt {o : Op} (h : o.begins = true) : ¬ o.pt := by
  rintro (h' | h') <;> rw [h'] at h <;> cases h

theorem Op.ctrl_pt {o : Op} (h : o.ctrl = true) : ¬ o.pt := by
  rintro (h' | h') <;> rw [h'] at h <;> cases h

theorem Op.pt_ctrl {o : Op} (h : o.pt) : o.ctrl = false := by
  rcases h with h | h <;> rw [h] <;> rfl

theorem Op.pt_needed {o : Op} (h : o.pt) : o.needed = true := by
  rcases h with h | h <;> rw [h] <;> rfl

theorem skips_congr (h : SameCtl nd nd' size) (hcl : ∀ n < size, ∀ a ∈ (nd n).args, a < size) {it b : Nat} (hb : b < size)
    (hs : Skips nd it b) : Skips nd' it b := by
  induction hs with
  | startIf h1 h2 =>
    rw [← h.same _ hb (by rw [h1]; rintro (h' | h') <;> cases h')] at h1
    exact .startIf h1 h2
  | elseIf h1 h2 _ ih =>
    have h3 := h1
    rw [← h.same _ hb (by rw [h1]; rintro (h' | h') <;> cases h')] at h1
    exact .elseIf h1 h2 (ih (hcl _ hb _ (by rw [h3]; simp)))

theorem skips_back (h : SameCtl nd nd' size) (hcl : ∀ n < size, ∀ a ∈ (nd n).args, a < size) {it b : Nat} (hb : b < size)
    (hs : Skips nd' it b) : Skips nd it b := by
  induction hs with
  | startIf h1 h2 =>
    rw [h.back hb (by rw [h1]; rintro (h' | h') <;> cases h')] at h1
    exact .startIf h1 h2
  | elseIf h1 h2 _ ih =>
    rw [h.back hb (by rw [h1]; rintro (h' | h') <;> cases h')] at h1
    exact .elseIf h1 h2 (ih (hcl _ hb _ (by rw [h1]; simp)))

theorem taken_congr (h : SameCtl nd nd' size) (hcl : ∀ n < size, ∀ a ∈ (nd n).args, a < size) {it b : Nat} (hb : b < size)
    (hs : Taken nd it b) : Taken nd' it b := by
  cases hs with
  | startIf h1 h2 =>
    rw [← h.same _ hb (by rw [h1]; rintro (h' | h') <;> cases h')] at h1
    exact .startIf h1 h2
  | elseIf h1 h2 h4 =>
    have h3 := h1
    rw [← h.same _ hb (by rw [h1]; rintro (h' | h') <;> cases h')] at h1
    exact .elseIf h1 h2 (skips_congr h hcl (hcl _ hb _ (by rw [h3]; simp)) h4)
  | els h1 h4 =>
    have h3 := h1
    rw [← h.same _ hb (by rw [h1]; rintro (h' | h') <;> cases h')] at h1
    exact .els h1 (skips_congr h hcl (hcl _ hb _ (by rw [h3]; simp)) h4)

theorem taken_back (h : SameCtl nd nd' size) (hcl : ∀ n < size, ∀ a ∈ (nd n).args, a < size) {it b : Nat} (hb : b < size)
    (hs : Taken nd' it b) : Taken nd it b := by
  cases hs with
  | startIf h1 h2 =>
    rw [h.back hb (by rw [h1]; rintro (h' | h') <;> cases h')] at h1
    exact .startIf h1 h2
  | elseIf h1 h2 h4 =>
    rw [h.back hb (by rw [h1]; rintro (h' | h') <;> cases h')] at h1
    exact .elseIf h1 h2 (skips_back h hcl (hcl _ hb _ (by rw [h1]; simp)) h4)
  | els h1 h4 =>
    rw [h.back hb (by rw [h1]; rintro (h' | h') <;> cases h')] at h1
    exact .els h1 (skips_back h hcl (hcl _ hb _ (by rw [h1]; simp)) h4)

end

section
variable {nd0 : Nat → Node} {N : Nat} {st st' : St}

theorem Base.visLt (hb : Base nd0 N st) {n : Nat} (h : 1 ≤ st.count n) : n < st.size := by
  by_contra hn
  have := hb.big n (by omega)
  omega

theorem isEnd_cases {o : Op} (h : o.isEnd = true) : o = .loopEnd ∨ o.ends = true := by
  cases o <;> simp_all [Op.isEnd, Op.ends]

/-- the last element of the path of a scope is the node at its end -/
theorem Base.last (hb : Base nd0 N st) {e : Nat} (hv : 1 ≤ st.count e) (he : (st.nd e).op.isEnd = true) :
    (st.path (st.inner e)).getLast? = some (st.inner e, e) := by
  rcases isEnd_cases he with h | h
  · rw [(hb.loopEnd e hv h).2.1]
    rfl
  · obtain ⟨L, el, h1, h2, h3, h4⟩ := hb.branch e hv h
    rw [h3]
    rfl

/-- nodes at the ends of scopes were visited -/
theorem Base.pathEnd (hb : Base nd0 N st) {c : Nat} (hc : c ≤ st.colors) {el : Nat × Nat} (hel : el ∈ st.path c) :
    el.2 < st.size ∧ (st.nd el.2).op.isEnd = true ∧ 1 ≤ st.count el.2 ∧ st.inner el.2 = el.1 := by
  have key : ∀ d e, d ≠ 0 → d ≤ st.colors → (st.path d).getLast? = some (d, e) →
      e < st.size ∧ (st.nd e).op.isEnd = true ∧ 1 ≤ st.count e ∧ st.inner e = d := by
    intro d e h0 hd h
    obtain ⟨e', h1, h2, h3⟩ := hb.color d (by omega) hd
    have h4 := hb.last h1 h2
    rw [h3, h] at h4
    simp only [Option.some.injEq, Prod.mk.injEq, true_and] at h4
    subst h4
    exact ⟨hb.visLt h1, h2, h1, h3⟩
  rcases hb.paths c hc with ⟨_, h⟩ | ⟨L, e, h⟩
  · rw [h] at hel
    cases hel
  · have hL : (e < st.size ∧ (st.nd e).op.isEnd = true ∧ 1 ≤ st.count e ∧ st.inner e = L) :=
      key L e h.2.2.1 (hb.inLe h) (by rw [h.1]; rfl)
    rcases h.2.2.2 with h1 | ⟨_, h2, e', h1, _⟩
    · rw [h1, h.1, List.mem_singleton] at hel
      subst hel
      exact hL
    · rw [h1] at hel
      simp only [List.mem_cons, List.not_mem_nil, or_false] at hel
      rcases hel with hel | hel
      · subst hel
        exact hL
      · subst hel
        exact key c e' h2 hc (by rw [h1]; rfl)

theorem runs_iff (hb : Base nd0 N st) (hs : SameCtl st.nd st'.nd st.size) {p' : Nat → List (Nat × Nat)} {c : Nat} (hc : c ≤ st.colors)
    (hp : p' c = st.path c) (it : Nat) :
    Placed.Runs ⟨st.nd, fun _ => 0, st.path⟩ c it ↔ Placed.Runs ⟨st'.nd, fun _ => 0, p'⟩ c it := by
  unfold Placed.Runs
  simp only [hp]
  constructor
  · intro h el hel hends b as hargs
    obtain ⟨h1, h2, _⟩ := hb.pathEnd hc hel
    have h3 := hs.same el.2 h1 (Op.isEnd_pt h2)
    rw [h3] at hends hargs
    exact taken_congr hs hb.closed (hb.closed _ h1 b (by rw [hargs]; simp)) (h el hel hends b as hargs)
  · intro h el hel hends b as hargs
    obtain ⟨h1, h2, _⟩ := hb.pathEnd hc hel
    have h3 := hs.same el.2 h1 (Op.isEnd_pt h2)
    have := h el hel (by rw [h3]; exact hends) b as (by rw [h3]; exact hargs)
    exact taken_back hs hb.closed (hb.closed _ h1 b (by rw [hargs]; simp)) this

theorem loops_eq (hb : Base nd0 N st) (hs : SameCtl st.nd st'.nd st.size) {p' : Nat → List (Nat × Nat)} {c : Nat} (hc : c ≤ st.colors)
    (hp : p' c = st.path c) : Placed.loops ⟨st.nd, fun _ => 0, st.path⟩ c = Placed.loops ⟨st'.nd, fun _ => 0, p'⟩ c := by
  unfold Placed.loops
  simp only [hp]
  apply List.filter_congr
  intro el hel
  obtain ⟨h1, h2, _⟩ := hb.pathEnd hc hel
  have h3 := hs.same el.2 h1 (Op.isEnd_pt h2)
  simp only [h3]

theorem w_ext (hb : Base nd0 N st) (hs : SameCtl st.nd st'.nd st.size) (hp : ∀ c ≤ st.colors, st'.path c = st.path c) {c d : Nat}
    (hc : c ≤ st.colors) (hd : d ≤ st.colors) (h : W st.nd st.path c d) : W st'.nd st'.path c d := by
  refine ⟨⟨?_, fun it hit hr => ?_⟩, fun hn => ?_⟩
  · rw [← loops_eq hb hs hc (hp c hc), ← loops_eq hb hs hd (hp d hd)]
    exact h.1.1
  · rw [← runs_iff hb hs hd (hp d hd)]
    exact h.1.2 it hit ((runs_iff hb hs hc (hp c hc) it).mpr hr)
  · rw [hp d hd, hp c hc]
    exact h.2 (hs.no hn)

theorem inL_ext (hb : Base nd0 N st) (hs : SameCtl st.nd st'.nd st.size) (hp : ∀ c ≤ st.colors, st'.path c = st.path c) {L e c : Nat}
    (hc : c ≤ st.colors) (h : InL st.nd st.path L e c) : InL st'.nd st'.path L e c := by
  have hL := hb.inLe h
  have hsame : ∀ d ≤ st.colors, ∀ el ∈ st.path d, st'.nd el.2 = st.nd el.2 := fun d hd el hel =>
    hs.same _ (hb.pathEnd hd hel).1 (Op.isEnd_pt (hb.pathEnd hd hel).2.1)
  have he := hsame L hL (L, e) (by rw [h.1]; simp)
  refine ⟨by rw [hp L hL]; exact h.1, by rw [he]; exact h.2.1, h.2.2.1, ?_⟩
  rcases h.2.2.2 with h1 | ⟨h1, h2, e', h3, h4⟩
  · exact Or.inl h1
  · refine Or.inr ⟨h1, h2, e', by rw [hp c hc]; exact h3, ?_⟩
    rw [hsame c hc (c, e') (by rw [h3]; simp)]
    exact h4

theorem pathOk_ext (hb : Base nd0 N st) (hs : SameCtl st.nd st'.nd st.size) (hp : ∀ c ≤ st.colors, st'.path c = st.path c) {c : Nat}
    (hc : c ≤ st.colors) : PathOk st'.nd st'.path c := by
  rcases hb.paths c hc with ⟨h1, h2⟩ | ⟨L, e, h⟩
  · exact Or.inl ⟨h1, by rw [hp c hc]; exact h2⟩
  · exact Or.inr ⟨L, e, inL_ext hb hs hp hc h⟩

/-- a value or a conditional temporary: nodes which may move -/
def Op.mv (o : Op) : Prop := o.isValue = true ∨ o = .tmp

structure Ext (st st' : St) : Prop where
  size : st.size ≤ st'.size
  colors : st.colors ≤ st'.colors
  path : ∀ c ≤ st.colors, st'.path c = st.path c
  ctl : SameCtl st.nd st'.nd st.size
  vis : ∀ n, 1 ≤ st.count n → 1 ≤ st'.count n
  inner : ∀ n, 1 ≤ st.count n → (st.nd n).op.ctrl = true → st'.inner n = st.inner n
  fix : ∀ n, 1 ≤ st.count n → ¬ (st.nd n).op.mv → st'.scope n = st.scope n
  up : ∀ n, 1 ≤ st.count n → (st.nd n).op.needed = true → W st'.nd st'.path (st.scope n) (st'.scope n)

theorem Op.pt_mv {o : Op} (h : o.pt) : o.mv := by
  rcases h with h | h
  · left; rw [h]; rfl
  · exact Or.inr h

theorem Ext.trans {st'' : St} (hb : Base nd0 N st) (hb' : Base nd0 N st') (h : Ext st st') (h' : Ext st' st'') : Ext st st'' := by
  have hcl : ∀ n, 1 ≤ st.count n → ¬ (st.nd n).op.pt → st'.nd n = st.nd n := fun n hv hp => h.ctl.same n (hb.visLt hv) hp
  refine ⟨h.size.trans h'.size, h.colors.trans h'.colors, fun c hc => ?_, h.ctl.trans h'.ctl h.size, fun n hn => h'.vis n (h.vis n hn), ?_, ?_, ?_⟩
  · rw [h'.path c (hc.trans h.colors), h.path c hc]
  · intro n hn hc
    have h1 := hcl n hn (Op.ctrl_pt hc)
    rw [h'.inner n (h.vis n hn) (by rw [h1]; exact hc), h.inner n hn hc]
  · intro n hn hm
    have h1 := hcl n hn (fun hp => hm (Op.pt_mv hp))
    rw [h'.fix n (h.vis n hn) (by rw [h1]; exact hm), h.fix n hn hm]
  · intro n hn hne
    have h2 := h.up n hn hne
    have hne' : (st'.nd n).op.needed = true := by
      by_cases hp : (st.nd n).op.pt
      · exact Op.pt_needed (h.ctl.pt n (hb.visLt hn) hp)
      · rw [hcl n hn hp]; exact hne
    exact (w_ext hb' h'.ctl h'.path ((hb.scopes n).trans h.colors) (hb'.scopes n) h2).trans (h'.up n (h.vis n hn) hne')

theorem Moved.ext {R : Nat → Nat} {r : Nat} {s : Nat → Nat} (h : Moved N R r st s) : Ext st { st with scope := s } := by
  refine ⟨le_refl _, le_refl _, fun _ _ => rfl, SameCtl.refl _ _, fun _ h => h, fun _ _ _ => rfl, ?_, fun n _ hn => h.up n hn⟩
  intro n _ hm
  by_contra hne
  exact hm (Or.inl (h.only n hne).2.2)

theorem Ext.needed (hb : Base nd0 N st) (h : Ext st st') {n : Nat} (hn : 1 ≤ st.count n) :
    (st'.nd n).op.needed = (st.nd n).op.needed := by
  by_cases hp : (st.nd n).op.pt
  · rw [Op.pt_needed hp, Op.pt_needed (h.ctl.pt n (hb.visLt hn) hp)]
  · rw [h.ctl.same n (hb.visLt hn) hp]

end

/-- arguments of nodes which were visited completely were visited completely and are available -/
def Avail (S : List Nat) (st : St) : Prop :=
  ∀ u, 1 ≤ st.count u → u ∉ S → ∀ a ∈ (st.nd u).args, 1 ≤ st.count a ∧ a ∉ S ∧
    ((st.nd a).op.needed = true → W st.nd st.path (st.use u) (st.scope a))

structure Inv (nd0 : Nat → Node) (N : Nat) (S : List Nat) (st : St) : Prop where
  base : Base nd0 N st
  avail : Avail S st
  opened : ∀ s ∈ S, s < N ∧ 1 ≤ st.count s

/-- the result of a visit of node `n` -/
structure Done (nd0 : Nat → Node) (N : Nat) (R : Nat → Nat) (S : List Nat) (n cur : Nat) (st st' : St) : Prop where
  inv : Inv nd0 N S st'
  ext : Ext st st'
  below : ∀ m < N, R n < R m → st'.nd m = st.nd m ∧ st'.scope m = st.scope m
  vis : 1 ≤ st'.count n
  within : (nd0 n).op.needed = true → W st'.nd st'.path cur (st'.scope n)

section
variable {nd0 : Nat → Node} {N : Nat} {R : Nat → Nat} {S : List Nat} {st st' : St}

theorem Avail.q (h : Avail S st) : AvailQ (fun m => 1 ≤ st.count m ∧ m ∉ S) st := fun u hu a ha hn => (h u hu.1 hu.2 a ha).2.2 hn

theorem Avail.closed (h : Avail S st) : ∀ u < N, (1 ≤ st.count u ∧ u ∉ S) → (st.nd u).op = .plain → ∀ a ∈ (st.nd u).args, 1 ≤ st.count a ∧ a ∉ S :=
  fun u _ hu _ a ha => ⟨(h u hu.1 hu.2 a ha).1, (h u hu.1 hu.2 a ha).2.1⟩

/-- a value is moved to the loop around the branch -/
theorem move_ok (hg : LoopGraph nd0 N) (hR : ∀ n < N, ∀ a ∈ (nd0 n).args, R a < R n) (hi : Inv nd0 N S st) {f n cur L e : Nat}
    (hn : n < N) (hv : 1 ≤ st.count n) (hS : n ∉ S) (hop : (st.nd n).op = .plain) (ho : InL st.nd st.path L e (st.scope n))
    (hoL : st.scope n ≠ L) (hcur : InL st.nd st.path L e cur) (h : move f n (st.scope n) L st = .ok st') :
    Done nd0 N R S n cur st st' := by
  have hb := hi.base
  have hnd : st.nd n = nd0 n := by
    rcases hb.orig n hn with h1 | h1
    · exact h1
    · rw [hop] at h1; cases h1.2
  have hval : (st.nd n).op.isValue = true := by rw [hop]; rfl
  have hL := hb.inLe ho
  unfold move at h
  have hxx : set1 st.scope n L n = L := by simp [set1]
  have hxs : ∀ m, m ≠ n → set1 st.scope n L m = st.scope m := fun m hm => by simp [set1, hm]
  have m0 : Moved N R (R n + 1) st (set1 st.scope n L) := by
    refine ⟨fun m hm => ?_, fun m => ?_, fun m hm => ?_⟩
    · by_cases h1 : m = n
      · subst h1; exact ⟨hn, by omega, hval⟩
      · exact absurd (hxs m h1) hm
    · by_cases h1 : m = n
      · subst h1; rw [hxx]; exact hL
      · rw [hxs m h1]; exact hb.scopes m
    · by_cases h1 : m = n
      · subst h1; rw [hxx]; exact ho.w
      · rw [hxs m h1]; exact W.refl _
  have hargs : ∀ a ∈ (st.nd n).args, a < N ∧ (1 ≤ st.count a ∧ a ∉ S) ∧ (nd0 a).op.isValue = true ∧ R a < R n := by
    intro a ha
    have ha' : a ∈ (nd0 n).args := by rw [← hnd]; exact ha
    have := hi.avail n hv hS a ha
    exact ⟨hg.closed n hn a ha', ⟨this.1, this.2.1⟩, hg.plain n hn (by rw [← hnd]; exact hop) a ha', hR n hn a ha'⟩
  have huse : ∀ u, u ≠ n → St.use { st with scope := set1 st.scope n L } u = st.use u := by
    intro u hu
    simp [St.use, set1, hu]
  have hq : AvailQ (fun m => (1 ≤ st.count m ∧ m ∉ S) ∧ m ≠ n) { st with scope := set1 st.scope n L } := by
    intro u hqu a ha hna
    rw [huse u hqu.2]
    exact ((hi.avail u hqu.1.1 hqu.1.2 a ha).2.2 hna).trans (m0.up a hna)
  obtain ⟨s, e1, m1, q1, w1⟩ := foldl_update (update_ok hg hR (P := fun m => 1 ≤ st.count m ∧ m ∉ S) f) (L := L) (e := e) (r := R n) _ _ _ _ h
    (m0.base hb) hi.avail.closed hq (fun m hm hp hr => ⟨hp, by intro h1; subst h1; omega⟩) hargs ho.loop ho hoL hL ho.w
    (by
      intro a ha hna
      have h1 := (hi.avail n hv hS a ha).2.2 hna
      rw [St.use_value (value_ctrl hval)] at h1
      have h2 : a ≠ n := by intro h2; have := (hargs a ha).2.2.2; subst h2; omega
      show W st.nd st.path _ (set1 st.scope n L a)
      rw [hxs a h2]
      exact h1)
  have hsx : s n = L := by
    by_contra h1
    have := (m1.only n (by show s n ≠ set1 st.scope n L n; rw [hxx]; exact h1)).2.1
    omega
  have m2 : Moved N R (R n + 1) st s := m0.trans (m1.mono (by omega))
  subst e1
  refine ⟨⟨m2.base hb, ?_, hi.opened⟩, m2.ext, ?_, hv, ?_⟩
  · intro u hu hS' a ha
    have h1 := hi.avail u hu hS' a ha
    refine ⟨h1.1, h1.2.1, fun hna => ?_⟩
    by_cases h2 : u = n
    · subst h2
      rw [St.use_value (st := { st with scope := s }) (value_ctrl hval)]
      show W st.nd st.path (s u) (s a)
      rw [hsx]
      exact w1 a ha hna
    · exact q1 u ⟨⟨hu, hS'⟩, h2⟩ a ha hna
  · intro m hm hr
    refine ⟨rfl, ?_⟩
    by_contra hne
    have := (m2.only m hne).2.1
    omega
  · intro _
    show W st.nd st.path cur (s n)
    rw [hsx]
    exact hcur.w

end

end Verif.Scopes
