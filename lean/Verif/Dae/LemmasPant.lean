import Verif.Dae.LemmasDiff
import Verif.Dae.Props
namespace Verif.Dae

/-- links between equations and their derivatives; the first `m` equations are the original ones -/
structure Links (m : Nat) (g : BG) : Prop where
  link : ∀ i d, i < g.ne → (g.e i).diff = some d → d < g.ne ∧ (g.e d).diffOf = some i ∧
    (∀ j ∈ (g.e i).orig, j ∈ (g.e d).orig ∧ ∃ dj, (g.v j).deriv = some dj ∧ dj ∈ (g.e d).orig) ∧
    ∀ j ∈ (g.e d).orig, j ∈ (g.e i).orig ∨ ∃ a ∈ (g.e i).orig, (g.v a).deriv = some j
  unlink : ∀ i d, d < g.ne → (g.e d).diffOf = some i → i < g.ne ∧ (g.e i).diff = some d
  first : ∀ d, d < g.ne → ((g.e d).diffOf = none ↔ d < m)
  le : m ≤ g.ne
  lt : ∀ i d, d < g.ne → (g.e d).diffOf = some i → i < d

/-- the state of the algorithm; the equations `Q` are still to be assigned -/
structure PInv (m : Nat) (Q : Nat → Prop) (g : BG) : Prop where
  w : W g
  agree : Mut g
  inc : ∀ k j, (g.e k).assign = some j → j ∈ (g.e k).orig
  links : Links m g
  pend : ∀ k, Q k → k < g.ne ∧ (g.e k).assign = none ∧ (g.e k).diff = none
  top : ∀ k, k < g.ne → (g.e k).diff = none → ¬ Q k → ∃ j, (g.e k).assign = some j ∧ (g.v j).deriv = none

/-- the graph grew -/
structure Ext (g g' : BG) : Prop where
  nv : g.nv ≤ g'.nv
  ne : g.ne ≤ g'.ne
  orig : ∀ i, i < g.ne → (g'.e i).orig = (g.e i).orig
  deriv : ∀ j d, (g.v j).deriv = some d → (g'.v j).deriv = some d
  anti : ∀ j, j < g.nv → (g'.v j).anti = (g.v j).anti
  diff : ∀ i d, i < g.ne → (g.e i).diff = some d → (g'.e i).diff = some d
  diffOf : ∀ i, i < g.ne → (g'.e i).diffOf = (g.e i).diffOf

theorem Ext.refl (g : BG) : Ext g g :=
  ⟨Nat.le_refl _, Nat.le_refl _, fun _ _ => rfl, fun _ _ h => h, fun _ _ => rfl, fun _ _ _ h => h, fun _ _ => rfl⟩

theorem Ext.trans {a b c : BG} (h : Ext a b) (h' : Ext b c) : Ext a c :=
  ⟨Nat.le_trans h.nv h'.nv, Nat.le_trans h.ne h'.ne,
    fun i hi => (h'.orig i (Nat.lt_of_lt_of_le hi h.ne)).trans (h.orig i hi), fun j d hj => h'.deriv j d (h.deriv j d hj),
    fun j hj => (h'.anti j (Nat.lt_of_lt_of_le hj h.nv)).trans (h.anti j hj),
    fun i d hi hd => h'.diff i d (Nat.lt_of_lt_of_le hi h.ne) (h.diff i d hi hd),
    fun i hi => (h'.diffOf i (Nat.lt_of_lt_of_le hi h.ne)).trans (h.diffOf i hi)⟩

theorem Pruned.ext {g g' : BG} (h : Pruned g g') : Ext g g' :=
  ⟨Nat.le_of_eq h.nv.symm, Nat.le_of_eq h.ne.symm, fun i _ => h.orig i, fun j d hj => by rw [h.deriv]; exact hj,
    fun j _ => h.anti j, fun i d _ hd => by rw [h.diff]; exact hd, fun i _ => h.diffOf i⟩

theorem Same.ext {g g' : BG} (h : Same g g') : Ext g g' :=
  ⟨Nat.le_of_eq h.nv.symm, Nat.le_of_eq h.ne.symm, fun i _ => h.orig i, fun j d hj => by rw [h.deriv]; exact hj,
    fun j _ => h.anti j, fun i d _ hd => by rw [h.diff]; exact hd, fun i _ => h.diffOf i⟩

theorem Same.w {g g' : BG} (h : Same g g') (hW : W g) : W g' := by
  refine ⟨fun i => by rw [h.orig]; exact hW.nodup i, fun i => ?_, fun i j => by rw [h.eqs, h.vars]; exact hW.eqs i j,
    fun i j hj => by rw [h.orig] at hj; rw [h.nv]; exact hW.bound i j hj, fun i hi => by rw [h.ne] at hi; rw [h.orig]; exact hW.fresh i hi,
    fun j d hd => by rw [h.deriv] at hd; rw [h.nv, h.anti]; exact hW.link j d hd,
    fun j d hl hd => by rw [h.nv] at hl; rw [h.anti] at hd; rw [h.deriv]; exact hW.unlink j d hl hd,
    fun j => by rw [h.param]; exact hW.param j, fun j hj => by rw [h.deleted] at hj; rw [h.deriv]; exact hW.deleted j hj⟩
  rw [h.vars, h.orig, hW.vars]
  exact List.filter_congr fun j _ => by rw [h.deleted]

theorem Links.congr {m : Nat} {g g' : BG} (h : Links m g) (hne : g'.ne = g.ne) (ho : ∀ i, (g'.e i).orig = (g.e i).orig)
    (hd : ∀ i, (g'.e i).diff = (g.e i).diff) (hf : ∀ i, (g'.e i).diffOf = (g.e i).diffOf)
    (hv : ∀ j, (g'.v j).deriv = (g.v j).deriv) : Links m g' := by
  refine ⟨?_, ?_, ?_, by rw [hne]; exact h.le, fun i d hl hid => by rw [hne] at hl; rw [hf] at hid; exact h.lt i d hl hid⟩
  · intro i d hi hid
    rw [hne] at hi
    rw [hd] at hid
    simp only [hne, hf, ho, hv]
    exact h.link i d hi hid
  · intro i d hl hid
    rw [hne] at hl; rw [hf] at hid
    rw [hne, hd]
    exact h.unlink i d hl hid
  · intro d hl
    rw [hne] at hl
    rw [hf]; exact h.first d hl

theorem Pruned.pinv {m : Nat} {Q : Nat → Prop} {g g' : BG} (h : Pruned g g') (hP : PInv m Q g) (hW : W g') : PInv m Q g' := by
  refine ⟨hW, ⟨fun k j => by rw [h.ea, h.va]; exact hP.agree.iff k j, fun j k hj => by rw [h.va] at hj; rw [h.ne]; exact hP.agree.lt j k hj⟩,
    fun k j hj => by rw [h.ea] at hj; rw [h.orig]; exact hP.inc k j hj,
    hP.links.congr h.ne h.orig h.diff h.diffOf h.deriv, fun k hk => by rw [h.ne, h.ea, h.diff]; exact hP.pend k hk,
    fun k hk hd hq => ?_⟩
  rw [h.ne] at hk; rw [h.diff] at hd
  obtain ⟨j, h1, h2⟩ := hP.top k hk hd hq
  exact ⟨j, by rw [h.ea]; exact h1, by rw [h.deriv]; exact h2⟩

/-- a failed search does not change the state -/
theorem PInv.same {m : Nat} {Q : Nat → Prop} {g g' : BG} (hP : PInv m Q g) (h : Same g g')
    (hv : ∀ j, (g'.v j).assign = (g.v j).assign) (he : ∀ k, (g'.e k).assign = (g.e k).assign) : PInv m Q g' := by
  refine ⟨h.w hP.w, ⟨fun k j => by rw [he, hv]; exact hP.agree.iff k j, fun j k hj => by rw [hv] at hj; rw [h.ne]; exact hP.agree.lt j k hj⟩,
    fun k j hj => by rw [he] at hj; rw [h.orig]; exact hP.inc k j hj,
    hP.links.congr h.ne h.orig h.diff h.diffOf h.deriv, fun k hk => by rw [h.ne, he, h.diff]; exact hP.pend k hk,
    fun k hk hd hq => ?_⟩
  rw [h.ne] at hk; rw [h.diff] at hd
  obtain ⟨j, h1, h2⟩ := hP.top k hk hd hq
  exact ⟨j, by rw [he]; exact h1, by rw [h.deriv]; exact h2⟩

/-- the situation after a failed search from `i` -/
structure Stuck (m : Nat) (Q : Nat → Prop) (g : BG) (i : Nat) : Prop where
  inv : PInv m Q g
  cur : Q i
  del : ∀ j, (g.v j).deleted = true ↔ (g.v j).deriv ≠ none
  self : (g.e i).colored = true
  lt : ∀ k, (g.e k).colored = true → k < g.ne
  others : ∀ k, (g.e k).colored = true → k ≠ i → (g.e k).assign ≠ none
  diff : ∀ k, (g.e k).colored = true → (g.e k).diff = none
  vars : ∀ k, (g.e k).colored = true → ∀ j ∈ (g.e k).vars, (g.v j).colored = true
  back : ∀ j, (g.v j).colored = true → ∃ k, (g.e k).colored = true ∧ (g.e k).assign = some j

/-- an assigned marked equation -/
theorem Stuck.marked {m : Nat} {Q : Nat → Prop} {g : BG} {i : Nat} (h : Stuck m Q g i) {k j : Nat}
    (hk : (g.e k).colored = true) (hj : (g.e k).assign = some j) :
    (g.v j).deriv = none ∧ (g.v j).deleted = false ∧ j ∈ (g.e k).vars ∧ (g.v j).colored = true := by
  have hq : ¬ Q k := fun hq => by rw [(h.inv.pend k hq).2.1] at hj; cases hj
  obtain ⟨j', h1, h2⟩ := h.inv.top k (h.lt k hk) (h.diff k hk) hq
  rw [hj] at h1; cases h1
  have hd : (g.v j).deleted = false := by
    cases hh : (g.v j).deleted with
    | false => rfl
    | true => exact absurd h2 ((h.del j).mp hh)
  have hv : j ∈ (g.e k).vars := by
    rw [h.inv.w.vars, List.mem_filter]
    exact ⟨h.inv.inc k j hj, by rw [hd]; rfl⟩
  exact ⟨h2, hd, hv, h.vars k hk j hv⟩

theorem Stuck.markedV {m : Nat} {Q : Nat → Prop} {g : BG} {i : Nat} (h : Stuck m Q g i) {j : Nat}
    (hj : (g.v j).colored = true) : (g.v j).deriv = none ∧ (g.v j).deleted = false ∧ j < g.nv := by
  obtain ⟨k, h1, h2⟩ := h.back j hj
  obtain ⟨a, b, c, _⟩ := h.marked h1 h2
  exact ⟨a, b, h.inv.w.bound k j (h.inv.inc k j h2)⟩

/-- the derivatives created after a failed search -/
structure Step (m : Nat) (Q : Nat → Prop) (g : BG) (i : Nat) (g3 : BG) (d : Nat) : Prop where
  ext : Ext g g3
  diff : (g3.e i).diff = some d
  new : g.ne ≤ d
  inv : PInv m (fun k => Q k ∧ k ≠ i ∨ k = d) g3
  eqs : ∀ k, k < g.ne → (g.e k).diff = none → ((g3.e k).diff ≠ none ↔ (g.e k).colored = true)
  vs : ∀ j, j < g.nv → (g.v j).deriv = none → ((g3.v j).deriv ≠ none ↔ (g.v j).colored = true)
  newV : ∀ j, g.nv ≤ j → j < g3.nv → (g3.v j).deriv = none ∧ ∃ a, a < g.nv ∧ (g3.v j).anti = some a ∧ (g.v a).deriv = none
  newE : ∀ k, g.ne ≤ k → k < g3.ne → (g3.e k).diff = none

theorem differentiate_ok {m : Nat} {Q : Nat → Prop} {g : BG} {i : Nat} (h : Stuck m Q g i) :
    differentiate g i = .error .exception ∧ (g.e i).vars = [] ∨
    ∃ g3 d, differentiate g i = .ok (g3, d) ∧ Step m Q g i g3 d := by
  obtain ⟨w1, nV, dV⟩ := derivMarkedV_ok h.inv.w (fun j _ hc _ => (h.markedV hc).1)
  -- the variables of marked equations have derivatives
  have hall : ∀ k, (g.e k).colored = true → ∀ j ∈ (g.e k).orig, ∃ dj, ((derivMarkedV g).v j).deriv = some dj := by
    intro k hk j hj
    cases hd : (g.v j).deriv with
    | some dj => exact ⟨dj, nV.keep j dj hd⟩
    | none =>
      have hdel : (g.v j).deleted = false := by
        cases hh : (g.v j).deleted with
        | false => rfl
        | true => exact absurd hd ((h.del j).mp hh)
      have hv : j ∈ (g.e k).vars := by
        rw [h.inv.w.vars, List.mem_filter]
        exact ⟨hj, by rw [hdel]; rfl⟩
      exact Option.ne_none_iff_exists'.mp ((dV j (h.inv.w.bound k j hj) hd).mpr ⟨h.vars k hk j hv, hdel⟩)
  obtain ⟨w2, nE, dE⟩ := derivMarkedE_ok w1 (by
    intro k _ hc
    rw [nV.e] at hc ⊢
    exact ⟨h.diff k hc, hall k hc⟩)
  -- fields of old nodes
  have olde : ∀ k, k < g.ne → ((derivMarkedE (derivMarkedV g)).e k).colored = (g.e k).colored ∧
      ((derivMarkedE (derivMarkedV g)).e k).orig = (g.e k).orig ∧
      ((derivMarkedE (derivMarkedV g)).e k).assign = (g.e k).assign ∧
      ((derivMarkedE (derivMarkedV g)).e k).diffOf = (g.e k).diffOf ∧
      ((derivMarkedE (derivMarkedV g)).e k).vars = (g.e k).vars := by
    intro k hk
    have := nE.fieldsE (i := k) (by rw [nV.ne]; exact hk)
    rw [nV.e] at this
    exact this
  have oldv : ∀ j, j < g.nv → ((derivMarkedE (derivMarkedV g)).v j).colored = (g.v j).colored ∧
      ((derivMarkedE (derivMarkedV g)).v j).deleted = (g.v j).deleted ∧
      ((derivMarkedE (derivMarkedV g)).v j).assign = (g.v j).assign ∧
      ((derivMarkedE (derivMarkedV g)).v j).anti = (g.v j).anti := by
    intro j hj
    obtain ⟨a1, a2, a3, _, a5⟩ := nE.fields j
    have ho := nV.old j hj
    refine ⟨a1.trans ?_, a2.trans ?_, a3.trans ?_, a5.trans ?_⟩ <;> (rw [← ho])
  have newv : ∀ j, g.nv ≤ j → j < (derivMarkedV g).nv → ((derivMarkedE (derivMarkedV g)).v j).colored = false ∧
      ((derivMarkedE (derivMarkedV g)).v j).deleted = false ∧
      ((derivMarkedE (derivMarkedV g)).v j).assign = none ∧ ((derivMarkedE (derivMarkedV g)).v j).deriv = none ∧
      ∃ a, a < g.nv ∧ (g.v a).deriv = none ∧ ((derivMarkedE (derivMarkedV g)).v j).anti = some a := by
    intro j h1 h2
    obtain ⟨a1, a2, a3, a4, a5⟩ := nE.fields j
    obtain ⟨a, ha, hd, hn⟩ := nV.new j h1 h2
    rw [hn] at a1 a2 a3 a4 a5
    exact ⟨a1, a2, a3, a4, a, ha, hd, a5⟩
  have hderiv : ∀ j, ((derivMarkedE (derivMarkedV g)).v j).deriv = ((derivMarkedV g).v j).deriv := fun j => (nE.fields j).2.2.2.1
  have hne1 : (derivMarkedV g).ne = g.ne := nV.ne
  have hnv2 : (derivMarkedE (derivMarkedV g)).nv = (derivMarkedV g).nv := nE.nv
  have ge2 : g.ne ≤ (derivMarkedE (derivMarkedV g)).ne := by have := nE.ne; omega
  -- links
  have hnewE : ∀ d, g.ne ≤ d → d < (derivMarkedE (derivMarkedV g)).ne → ∃ k, k < g.ne ∧ (g.e k).colored = true ∧
      ((derivMarkedE (derivMarkedV g)).e k).diff = some d ∧ ((derivMarkedE (derivMarkedV g)).e d).diffOf = some k ∧
      ((derivMarkedE (derivMarkedV g)).e d).assign = none ∧ ((derivMarkedE (derivMarkedV g)).e d).diff = none ∧
      ∀ x, x ∈ ((derivMarkedE (derivMarkedV g)).e d).orig ↔ x ∈ (g.e k).orig ∨ ∃ j ∈ (g.e k).orig, ((derivMarkedV g).v j).deriv = some x := by
    intro d h1 h2
    obtain ⟨k, b1, b2, _, b4, b5, b6, _, b8, b9⟩ := nE.new d (by rw [hne1]; exact h1) h2
    rw [nV.e] at b2 b9
    exact ⟨k, by rw [hne1] at b1; exact b1, b2, b4, b5, b6, b8, b9⟩
  have hL : Links m (derivMarkedE (derivMarkedV g)) := by
    have hlold : ∀ k d, k < g.ne → (g.e k).diff = some d → ((derivMarkedE (derivMarkedV g)).e k).diff = some d := by
      intro k d hk hd
      exact nE.keep k d (by rw [hne1]; exact hk) (by rw [nV.e]; exact hd)
    have hlnew : ∀ k d, k < g.ne → (g.e k).diff = none → ((derivMarkedE (derivMarkedV g)).e k).diff = some d →
        g.ne ≤ d ∧ d < (derivMarkedE (derivMarkedV g)).ne ∧ ((derivMarkedE (derivMarkedV g)).e d).diffOf = some k := by
      intro k d hk h0 hd
      have := nE.conv k d (by rw [hne1]; exact hk) (by rw [nV.e]; exact h0) hd
      rw [hne1] at this
      exact this
    refine ⟨?_, ?_, ?_, Nat.le_trans h.inv.links.le ge2, ?_⟩
    · intro k d hk hd
      by_cases hk' : k < g.ne
      · cases h0 : (g.e k).diff with
        | some d' =>
          rw [hlold k d' hk' h0] at hd
          cases hd
          obtain ⟨l1, l2, l3, l4⟩ := h.inv.links.link k d hk' h0
          rw [(olde d l1).2.1, (olde d l1).2.2.2.1, (olde k hk').2.1]
          refine ⟨by omega, l2, ?_, ?_⟩
          · intro j hj
            obtain ⟨p1, dj, p2, p3⟩ := l3 j hj
            exact ⟨p1, dj, by rw [hderiv]; exact nV.keep j dj p2, p3⟩
          · intro j hj
            rcases l4 j hj with p | ⟨a, p1, p2⟩
            · exact .inl p
            · exact .inr ⟨a, p1, by rw [hderiv]; exact nV.keep a j p2⟩
        | none =>
          obtain ⟨c1, c2, c3⟩ := hlnew k d hk' h0 hd
          obtain ⟨k', b1, b2, _, b5, _, _, b9⟩ := hnewE d c1 c2
          rw [c3] at b5; cases b5
          rw [(olde k hk').2.1]
          refine ⟨c2, c3, ?_, ?_⟩
          · intro j hj
            obtain ⟨dj, hdj⟩ := hall k b2 j hj
            exact ⟨(b9 j).mpr (.inl hj), dj, by rw [hderiv]; exact hdj, (b9 dj).mpr (.inr ⟨j, hj, hdj⟩)⟩
          · intro j hj
            rcases (b9 j).mp hj with p | ⟨a, p1, p2⟩
            · exact .inl p
            · exact .inr ⟨a, p1, by rw [hderiv]; exact p2⟩
      · obtain ⟨k', _, _, _, _, _, b8, _⟩ := hnewE k (by omega) hk
        rw [b8] at hd; cases hd
    · intro k d hd hk
      by_cases hd' : d < g.ne
      · rw [(olde d hd').2.2.2.1] at hk
        obtain ⟨l1, l2⟩ := h.inv.links.unlink k d hd' hk
        exact ⟨by omega, hlold k d l1 l2⟩
      · obtain ⟨k', b1, _, b4, b5, _⟩ := hnewE d (by omega) hd
        rw [hk] at b5; cases b5
        exact ⟨by omega, b4⟩
    · intro d hd
      by_cases hd' : d < g.ne
      · rw [(olde d hd').2.2.2.1]; exact h.inv.links.first d hd'
      · obtain ⟨k', b1, _, b4, b5, _⟩ := hnewE d (by omega) hd
        rw [b5]
        have := h.inv.links.le
        simp only [reduceCtorEq, false_iff]
        omega
    · intro k d hd hk
      by_cases hd' : d < g.ne
      · rw [(olde d hd').2.2.2.1] at hk
        exact h.inv.links.lt k d hd' hk
      · obtain ⟨k', b1, _, b4, b5, _⟩ := hnewE d (by omega) hd
        rw [hk] at b5; cases b5
        omega
  have hinj : ∀ c c' d, ((derivMarkedE (derivMarkedV g)).e c).diff = some d → ((derivMarkedE (derivMarkedV g)).e c').diff = some d →
      c < (derivMarkedE (derivMarkedV g)).ne → c' < (derivMarkedE (derivMarkedV g)).ne → c = c' := by
    intro c c' d h1 h2 h3 h4
    have e1 := (hL.link c d h3 h1).2.1
    rw [(hL.link c' d h4 h2).2.1] at e1
    exact (Option.some.inj e1).symm
  -- assignments are unchanged
  have ae : ∀ k, ((derivMarkedE (derivMarkedV g)).e k).assign = (g.e k).assign := by
    intro k
    by_cases hk : k < g.ne
    · exact (olde k hk).2.2.1
    · have h0 : (g.e k).assign = none := by
        cases hh : (g.e k).assign with
        | none => rfl
        | some j => exact absurd (h.inv.agree.lt j k ((h.inv.agree.iff k j).mp hh)) hk
      by_cases hk2 : k < (derivMarkedE (derivMarkedV g)).ne
      · obtain ⟨_, _, _, _, _, b6, _⟩ := hnewE k (by omega) hk2
        rw [b6, h0]
      · rw [nE.fresh k (by omega), nV.e]
  have av : ∀ j, ((derivMarkedE (derivMarkedV g)).v j).assign = (g.v j).assign := by
    intro j
    by_cases hj : j < g.nv
    · exact (oldv j hj).2.2.1
    · have h0 : (g.v j).assign = none := by
        cases hh : (g.v j).assign with
        | none => rfl
        | some k => exact absurd (h.inv.w.bound k j (h.inv.inc k j ((h.inv.agree.iff k j).mpr hh))) hj
      by_cases hj2 : j < (derivMarkedV g).nv
      · rw [(newv j (by omega) hj2).2.2.1, h0]
      · rw [(nE.fields j).2.2.1, nV.fresh j (by omega)]
  have hmut : Mut (derivMarkedE (derivMarkedV g)) :=
    ⟨fun k j => by rw [ae, av]; exact h.inv.agree.iff k j, fun j k hj => by
      rw [av] at hj; exact Nat.lt_of_lt_of_le (h.inv.agree.lt j k hj) ge2⟩
  have hcol : ∀ j, ((derivMarkedE (derivMarkedV g)).v j).colored = true → (g.v j).colored = true ∧ j < g.nv := by
    intro j hj
    by_cases hl : j < g.nv
    · rw [(oldv j hl).1] at hj; exact ⟨hj, hl⟩
    · by_cases hj2 : j < (derivMarkedV g).nv
      · rw [(newv j (by omega) hj2).1] at hj; cases hj
      · rw [(nE.fields j).1, nV.fresh j (by omega)] at hj
        exact absurd (h.markedV hj).2.2 hl
  -- the pairs to be assigned
  have hpair : ∀ j, (g.v j).colored = true → ∃ dj k dk, ((derivMarkedE (derivMarkedV g)).v j).deriv = some dj ∧
      (g.v j).assign = some k ∧ (g.e k).colored = true ∧ ((derivMarkedE (derivMarkedV g)).e k).diff = some dk ∧
      g.nv ≤ dj ∧ dj < (derivMarkedV g).nv ∧ g.ne ≤ dk ∧ dk < (derivMarkedE (derivMarkedV g)).ne := by
    intro j hj
    obtain ⟨hd, hdel, hlt⟩ := h.markedV hj
    obtain ⟨k, hk, ha⟩ := h.back j hj
    obtain ⟨dj, hdj⟩ := Option.ne_none_iff_exists'.mp ((dV j hlt hd).mpr ⟨hj, hdel⟩)
    have hkl := h.lt k hk
    obtain ⟨dk, hdk⟩ := Option.ne_none_iff_exists'.mp (dE k (by rw [hne1]; exact hkl) (by rw [nV.e]; exact hk))
    obtain ⟨c1, c2, _⟩ := nE.conv k dk (by rw [hne1]; exact hkl) (by rw [nV.e]; exact h.diff k hk) hdk
    obtain ⟨l1, l2, l3⟩ := w1.link j dj hdj
    refine ⟨dj, k, dk, by rw [hderiv]; exact hdj, (h.inv.agree.iff k j).mp ha, hk, hdk, ?_, l2, by rw [hne1] at c1; exact c1, c2⟩
    by_contra hlt'
    have ho := nV.old dj (by omega)
    have : (g.v dj).anti = some j := by rw [← ho]; exact l3
    rw [h.inv.w.unlink j dj (by omega) this] at hd
    cases hd
  obtain ⟨g3, e3, nA, dA⟩ := assignNew_ok w2 hmut hinj (by
    intro j hj
    obtain ⟨hj', hjl⟩ := hcol j hj
    obtain ⟨dj, k, dk, p1, p2, p3, p4, p5, p6, p7, p8⟩ := hpair j hj'
    refine ⟨dj, k, dk, p1, by rw [av]; exact p2, p4, ?_, ?_, ?_, p8⟩
    · exact (newv dj p5 p6).2.2.1
    · obtain ⟨_, _, _, _, _, b6, _⟩ := hnewE dk p7 p8
      exact b6
    · rw [(oldv j hjl).2.1]; exact (h.markedV hj').2.1)
  have hil := h.lt i h.self
  obtain ⟨d, hd⟩ := Option.ne_none_iff_exists'.mp (dE i (by rw [hne1]; exact hil) (by rw [nV.e]; exact h.self))
  obtain ⟨dl1, dl2, _⟩ := nE.conv i d (by rw [hne1]; exact hil) (by rw [nV.e]; exact h.diff i h.self) hd
  rw [hne1] at dl1
  by_cases hws : wellStructured (derivMarkedE (derivMarkedV g)) (derivMarkedV g).ne = true
  · right
    refine ⟨g3, d, ?_, ?_⟩
    · unfold differentiate
      simp only
      rw [if_pos hws, e3]
      simp only
      rw [nA.same.diff, hd]
    · have hext : Ext g g3 := by
        refine ⟨?_, ?_, ?_, ?_, ?_, ?_, ?_⟩
        · rw [nA.same.nv, hnv2]; exact nV.nv
        · rw [nA.same.ne]; exact ge2
        · intro k hk; rw [nA.same.orig]; exact (olde k hk).2.1
        · intro j dj hj; rw [nA.same.deriv, hderiv]; exact nV.keep j dj hj
        · intro j hj; rw [nA.same.anti]; exact (oldv j hj).2.2.2
        · intro k dk hk hdk
          rw [nA.same.diff]
          exact nE.keep k dk (by rw [hne1]; exact hk) (by rw [nV.e]; exact hdk)
        · intro k hk; rw [nA.same.diffOf]; exact (olde k hk).2.2.2.1
      have heqs : ∀ k, k < g.ne → (g.e k).diff = none → ((g3.e k).diff ≠ none ↔ (g.e k).colored = true) := by
        intro k hk hn
        rw [nA.same.diff]
        constructor
        · intro hne
          obtain ⟨dk, hdk⟩ := Option.ne_none_iff_exists'.mp hne
          obtain ⟨c1, c2, c3⟩ := nE.conv k dk (by rw [hne1]; exact hk) (by rw [nV.e]; exact hn) hdk
          rw [hne1] at c1
          obtain ⟨k', _, b2, _, b5, _⟩ := hnewE dk c1 c2
          rw [c3] at b5; cases b5
          exact b2
        · intro hc
          exact dE k (by rw [hne1]; exact hk) (by rw [nV.e]; exact hc)
      have hvs : ∀ j, j < g.nv → (g.v j).deriv = none → ((g3.v j).deriv ≠ none ↔ (g.v j).colored = true) := by
        intro j hj hn
        rw [nA.same.deriv, hderiv, dV j hj hn]
        exact ⟨fun x => x.1, fun x => ⟨x, (h.markedV x).2.1⟩⟩
      refine ⟨hext, by rw [nA.same.diff]; exact hd, dl1, ?_, heqs, hvs, ?_, ?_⟩
      · refine ⟨nA.same.w w2, nA.agree, ?_, hL.congr nA.same.ne nA.same.orig nA.same.diff nA.same.diffOf nA.same.deriv, ?_, ?_⟩
        · intro k j hk
          rw [nA.same.orig]
          rcases nA.new k j hk with h1 | ⟨a, c, q1, q2, q3, q4⟩
          · rw [ae] at h1
            have hk' := h.inv.agree.lt j k ((h.inv.agree.iff k j).mp h1)
            rw [(olde k hk').2.1]
            exact h.inv.inc k j h1
          · have ha := (hcol a q1).1
            rw [av] at q3
            have hc := h.inv.agree.lt a c q3
            obtain ⟨_, _, l3, _⟩ := hL.link c k (by omega) q4
            obtain ⟨_, dj, p2, p3⟩ := l3 a (by
              rw [(olde c hc).2.1]; exact h.inv.inc c a ((h.inv.agree.iff c a).mpr q3))
            rw [q2] at p2; cases p2
            exact p3
        · rintro k (⟨hq, hki⟩ | rfl)
          · obtain ⟨p1, p2, p3⟩ := h.inv.pend k hq
            have hnc : (g.e k).colored = false := by
              cases hh : (g.e k).colored with
              | false => rfl
              | true => exact absurd p2 (h.others k hh hki)
            refine ⟨Nat.lt_of_lt_of_le p1 hext.ne, ?_, ?_⟩
            · cases hh : (g3.e k).assign with
              | none => rfl
              | some j =>
                exfalso
                rcases nA.new k j hh with h1 | ⟨a, c, q1, q2, q3, q4⟩
                · rw [ae, p2] at h1; cases h1
                · rw [av] at q3
                  have hc := h.inv.agree.lt a c q3
                  have := (hL.link c k (by omega) q4).2.1
                  rw [(olde k p1).2.2.2.1] at this
                  have h5 := (h.inv.links.unlink c k p1 this).2
                  have hcc := (hcol a q1).1
                  obtain ⟨c', h6, h7⟩ := h.back a hcc
                  rw [(h.inv.agree.iff c' a).mp h7] at q3
                  cases q3
                  rw [h.diff c h6] at h5; cases h5
            · cases hh : (g3.e k).diff with
              | none => rfl
              | some dk =>
                have := (heqs k p1 p3).mp (by rw [hh]; simp)
                rw [hnc] at this; cases this
          · obtain ⟨k', _, _, b4, b5, b6, b8, _⟩ := hnewE k dl1 dl2
            have hki : k' = i := hinj _ _ _ b4 hd (by omega) (by omega)
            refine ⟨by rw [nA.same.ne]; exact dl2, ?_, by rw [nA.same.diff]; exact b8⟩
            cases hh : (g3.e k).assign with
            | none => rfl
            | some j =>
              exfalso
              rcases nA.new k j hh with h1 | ⟨a, c, q1, q2, q3, q4⟩
              · rw [b6] at h1; cases h1
              · rw [av] at q3
                have hc := h.inv.agree.lt a c q3
                have := hinj _ _ _ q4 hd (by omega) (by omega)
                subst this
                have := (h.inv.pend c h.cur).2.1
                rw [(h.inv.agree.iff c a).mpr q3] at this
                cases this
        · intro k hk hdn hq
          simp only [not_or, not_and, Decidable.not_not] at hq
          by_cases hk' : k < g.ne
          · have hdn0 : (g.e k).diff = none := by
              cases hh : (g.e k).diff with
              | none => rfl
              | some dk => rw [hext.diff k dk hk' hh] at hdn; cases hdn
            have hnc : (g.e k).colored = false := by
              cases hh : (g.e k).colored with
              | false => rfl
              | true => exact absurd hdn ((heqs k hk' hdn0).mpr hh)
            have hnq : ¬ Q k := by
              intro h1
              have := hq.1 h1
              rw [this, h.self] at hnc; cases hnc
            obtain ⟨j, h1, h2⟩ := h.inv.top k hk' hdn0 hnq
            refine ⟨j, nA.keep k j (by rw [ae]; exact h1), ?_⟩
            have hjl := h.inv.w.bound k j (h.inv.inc k j h1)
            cases hh : (g3.v j).deriv with
            | none => rfl
            | some dj =>
              exfalso
              have hjc := (hvs j hjl h2).mp (by rw [hh]; simp)
              obtain ⟨c', h6, h7⟩ := h.back j hjc
              have e1 := (h.inv.agree.iff c' j).mp h7
              rw [(h.inv.agree.iff k j).mp h1] at e1
              cases e1
              rw [h6] at hnc; cases hnc
          · rw [nA.same.ne] at hk
            obtain ⟨c, b1, b2, b4, b5, _⟩ := hnewE k (by omega) hk
            have hci : c ≠ i := by
              rintro rfl
              rw [hd] at b4; cases b4
              exact hq.2 rfl
            obtain ⟨j, hj⟩ := Option.ne_none_iff_exists'.mp (h.others c b2 hci)
            obtain ⟨m1, m2, m3, m4⟩ := h.marked b2 hj
            obtain ⟨dj, k', dk', p1, p2, p3, p4, p5, p6, p7, p8⟩ := hpair j m4
            rw [(h.inv.agree.iff c j).mp hj] at p2; cases p2
            rw [b4] at p4; cases p4
            have hjl := (h.markedV m4).2.2
            refine ⟨dj, dA j (by rw [(oldv j hjl).1]; exact m4) dj c k p1 (by rw [av]; exact (h.inv.agree.iff c j).mp hj) b4, ?_⟩
            rw [nA.same.deriv]
            exact (newv dj p5 p6).2.2.2.1
      · intro j h1 h2
        rw [nA.same.nv, hnv2] at h2
        obtain ⟨_, _, _, q0, a, q1, q2, q3⟩ := newv j h1 h2
        exact ⟨by rw [nA.same.deriv]; exact q0, a, q1, by rw [nA.same.anti]; exact q3, q2⟩
      · intro k h1 h2
        rw [nA.same.ne] at h2
        obtain ⟨_, _, _, _, _, _, b8, _⟩ := hnewE k h1 h2
        rw [nA.same.diff]; exact b8
  · left
    constructor
    · unfold differentiate
      simp only
      rw [if_neg hws]
    · by_contra hvars
      apply hws
      unfold wellStructured
      rw [List.all_eq_true]
      intro l hl
      rw [List.mem_range] at hl
      rw [Bool.or_eq_true, decide_eq_true_eq, hne1]
      by_cases hlt : l < g.ne
      · exact .inl hlt
      · right
        obtain ⟨k, b1, b2, b4, b5, _, _, b9⟩ := hnewE l (by omega) hl
        have : ∃ j, j ∈ (g.e k).vars := by
          by_cases hki : k = i
          · subst hki; exact List.exists_mem_of_ne_nil _ hvars
          · obtain ⟨j, hj⟩ := Option.ne_none_iff_exists'.mp (h.others k b2 hki)
            exact ⟨j, (h.marked b2 hj).2.2.1⟩
        obtain ⟨j, hj⟩ := this
        have hjo : j ∈ (g.e k).orig := by rw [h.inv.w.vars, List.mem_filter] at hj; exact hj.1
        rw [List.any_eq_true]
        refine ⟨j, (b9 j).mpr (.inl hjo), ?_⟩
        rw [decide_eq_true_eq]
        have hjl := h.inv.w.bound k j hjo
        have e1 : k ∈ ((derivMarkedE (derivMarkedV g)).v j).eqs := by
          rw [w2.eqs, (olde k b1).2.2.2.2]; exact hj
        have e2 : l ∈ ((derivMarkedE (derivMarkedV g)).v j).eqs := by
          rw [w2.eqs, w2.vars, List.mem_filter, (oldv j hjl).2.1]
          refine ⟨(b9 j).mpr (.inl hjo), ?_⟩
          rw [h.inv.w.vars, List.mem_filter] at hj
          exact hj.2
        generalize ((derivMarkedE (derivMarkedV g)).v j).eqs = L at e1 e2
        match L, e1, e2 with
        | [x], e1, e2 =>
          rw [List.mem_singleton] at e1 e2
          omega
        | x :: y :: L, _, _ => simp

/-- an attempt to assign `i` -/
theorem attempt {m : Nat} {P : Nat → Prop} {i : Nat} {g : BG} (hP : PInv m (fun k => P k ∨ k = i) g) (hi : ¬ P i) :
    (∃ g', augmentPath ((deleteDerived g).uncolorAll).ne i ((deleteDerived g).uncolorAll) = .ok (true, g') ∧
      PInv m P g' ∧ Ext g g' ∧ Pruned g ((deleteDerived g).uncolorAll) ∧ Same ((deleteDerived g).uncolorAll) g') ∨
    ∃ g', augmentPath ((deleteDerived g).uncolorAll).ne i ((deleteDerived g).uncolorAll) = .ok (false, g') ∧
      Stuck m (fun k => P k ∨ k = i) g' i ∧ Ext g g' ∧ Pruned g ((deleteDerived g).uncolorAll) ∧
      Same ((deleteDerived g).uncolorAll) g' := by
  obtain ⟨d1, d2, d3⟩ := deleteDerived_ok hP.w
  obtain ⟨u1, u2⟩ := uncolorAll_ok d1
  have hp := d2.trans u2
  have hP0 := hp.pinv hP u1
  have hdel : ∀ j, (((deleteDerived g).uncolorAll).v j).deleted = true ↔ (((deleteDerived g).uncolorAll).v j).deriv ≠ none := d3
  generalize hg0 : (deleteDerived g).uncolorAll = g0 at *
  have hunc : Uncolored g0 := by rw [← hg0]; exact ⟨fun _ => rfl, fun _ => rfl⟩
  obtain ⟨q1, q2, q3⟩ := hP0.pend i (.inr rfl)
  obtain ⟨b, g', e, hs, ht, hf⟩ := augmentPath_correct hP0.agree hunc q1 q2 (Nat.le_refl _)
  cases b with
  | true =>
    left
    refine ⟨g', e, ?_, hp.ext.trans hs.ext, hp, hs⟩
    obtain ⟨t1, t2, t3, t4⟩ := ht rfl
    obtain ⟨t5, _⟩ := t4 (fun k => (g0.e k).vars ++ (g0.e k).assign.toList) (fun k j h => List.mem_append_left _ h)
      ⟨fun k j h => by
        unfold assignment at h
        exact List.mem_append_right _ (by rw [h]; simp), fun k k' j h h' => by
        have e1 := (hP0.agree.iff k j).mp h
        rw [(hP0.agree.iff k' j).mp h'] at e1
        exact (Option.some.inj e1).symm⟩
    have hcase : ∀ k j, (g'.e k).assign = some j → j ∈ (g0.e k).vars ∨ (g0.e k).assign = some j := by
      intro k j h
      rcases List.mem_append.mp (t5 k j h) with h1 | h1
      · exact .inl h1
      · right; simpa using h1
    refine ⟨hs.w u1, t1, ?_, hP0.links.congr hs.ne hs.orig hs.diff hs.diffOf hs.deriv, ?_, ?_⟩
    · intro k j h
      rw [hs.orig]
      rcases hcase k j h with h1 | h1
      · rw [u1.vars, List.mem_filter] at h1; exact h1.1
      · exact hP0.inc k j h1
    · intro k hk
      obtain ⟨p1, p2, p3⟩ := hP0.pend k (.inl hk)
      refine ⟨by rw [hs.ne]; exact p1, ?_, by rw [hs.diff]; exact p3⟩
      by_contra hne
      rcases (t2 k).mp hne with h1 | h1
      · exact h1 p2
      · rw [h1] at hk; exact hi hk
    · intro k hk hd hq
      rw [hs.ne] at hk; rw [hs.diff] at hd
      have hass : assignment g' k ≠ none := by
        rw [t2]
        by_cases hki : k = i
        · exact .inr hki
        · left
          obtain ⟨j, h1, _⟩ := hP0.top k hk hd (by rintro (h | h); exact hq h; exact hki h)
          unfold assignment; rw [h1]; simp
      obtain ⟨j, hj⟩ := Option.ne_none_iff_exists'.mp hass
      refine ⟨j, hj, ?_⟩
      rw [hs.deriv]
      rcases hcase k j hj with h1 | h1
      · rw [u1.vars, List.mem_filter] at h1
        by_contra hne
        rw [(hdel j).mpr hne] at h1
        simp at h1
      · have hki : k ≠ i := by rintro rfl; rw [q2] at h1; cases h1
        obtain ⟨j', h2, h3⟩ := hP0.top k hk hd (by rintro (h | h); exact hq h; exact hki h)
        rw [h1] at h2; cases h2
        exact h3
  | false =>
    right
    obtain ⟨f1, f2, E, f3, f4, f5, f6, f7, f8, _⟩ := hf rfl
    refine ⟨g', e, ?_, hp.ext.trans hs.ext, hp, hs⟩
    have hI := hP0.same hs f1 f2
    have hlt : ∀ k, (g'.e k).colored = true → k < g'.ne := by
      intro k hk
      rw [hs.ne]
      by_cases hki : k = i
      · rw [hki]; exact q1
      · obtain ⟨j, hj⟩ := Option.ne_none_iff_exists'.mp (f5 k ((f3 k).mpr hk) hki)
        exact hP0.agree.lt j k ((hP0.agree.iff k j).mp hj)
    refine ⟨hI, .inr rfl, fun j => by rw [hs.deleted, hs.deriv]; exact hdel j, (f3 i).mp f4, hlt, ?_, ?_, ?_, ?_⟩
    · intro k hk hki
      have := f5 k ((f3 k).mpr hk) hki
      rw [← f2] at this
      exact this
    · intro k hk
      rw [hs.diff]
      cases (f6 k).mp ((f3 k).mpr hk) with
      | start => exact q3
      | @step k0 k j h1 h2 h3 =>
        cases hd : (g0.e k).diff with
        | none => rfl
        | some d =>
          exfalso
          have hkl : k < g0.ne := by rw [← hs.ne]; exact hlt k hk
          obtain ⟨_, _, l3, _⟩ := hP0.links.link k d hkl hd
          obtain ⟨_, dj, l4, _⟩ := l3 j (hP0.inc k j h3)
          have hjdel := (hdel j).mpr (by rw [l4]; simp)
          rw [u1.vars, List.mem_filter, hjdel] at h2
          simp at h2
    · intro k hk j hj
      rw [hs.vars] at hj
      exact f7 k ((f3 k).mpr hk) j hj
    · intro j hj
      obtain ⟨k, h1, h2⟩ := f8 j hj
      refine ⟨k, (f3 k).mp h1, ?_⟩
      have := f2 k
      unfold assignment at this h2
      rw [this]; exact h2

/-- the loop for an equation -/
theorem assignEquation_ok {m : Nat} {P : Nat → Prop} (hPm : ∀ k, P k → k < m) : ∀ (fuel i : Nat) (g : BG),
    PInv m (fun k => P k ∨ k = i) g → ¬ P i →
    assignEquation fuel i g = .error .running ∨ assignEquation fuel i g = .error .exception ∨
    ∃ g', assignEquation fuel i g = .ok g' ∧ PInv m P g' ∧ Ext g g' := by
  intro fuel
  induction fuel with
  | zero => intro i g _ _; exact .inl rfl
  | succ fuel ih =>
    intro i g hP hi
    rw [assignEquation]
    rcases attempt hP hi with ⟨g', e, h1, h2, _⟩ | ⟨g', e, h1, h2, _⟩
    · rw [e]
      exact .inr (.inr ⟨g', rfl, h1, h2⟩)
    · rw [e]
      simp only
      rcases differentiate_ok h1 with ⟨e1, _⟩ | ⟨g3, d, e1, S⟩
      · rw [e1]; exact .inr (.inl rfl)
      · rw [e1]
        simp only
        have hpd : ¬ P d := by
          intro hpd
          have := hPm d hpd
          have h3 := (h1.inv.links.le)
          have := S.new
          omega
        have hQ : PInv m (fun k => P k ∨ k = d) g3 := by
          have : (fun k => (P k ∨ k = i) ∧ k ≠ i ∨ k = d) = fun k => P k ∨ k = d := by
            funext k
            apply propext
            constructor
            · rintro (⟨h | h, h'⟩ | h)
              · exact .inl h
              · exact absurd h h'
              · exact .inr h
            · rintro (h | h)
              · exact .inl ⟨.inl h, by rintro rfl; exact hi h⟩
              · exact .inr h
          rw [← this]; exact S.inv
        rcases ih d g3 hQ hpd with r | r | ⟨g4, r1, r2, r3⟩
        · exact .inl r
        · exact .inr (.inl r)
        · exact .inr (.inr ⟨g4, r1, r2, (h2.trans S.ext).trans r3⟩)

/-- the loop over the equations -/
theorem detect_ok {fuel m : Nat} : ∀ (n a : Nat) (g : BG), a + n = m → PInv m (fun k => a ≤ k ∧ k < m) g →
    (List.range' a n).foldlM (fun g k => assignEquation fuel k g) g = .error .running ∨
    (List.range' a n).foldlM (fun g k => assignEquation fuel k g) g = .error .exception ∨
    ∃ g', (List.range' a n).foldlM (fun g k => assignEquation fuel k g) g = .ok g' ∧ PInv m (fun _ => False) g' ∧ Ext g g' := by
  intro n
  induction n with
  | zero =>
    intro a g ha hP
    refine .inr (.inr ⟨g, rfl, ?_, Ext.refl g⟩)
    have : (fun k => a ≤ k ∧ k < m) = fun _ => False := by
      funext k; apply propext; constructor
      · rintro ⟨h1, h2⟩; omega
      · exact False.elim
    rw [← this]; exact hP
  | succ n ih =>
    intro a g ha hP
    rw [List.range'_succ, List.foldlM_cons]
    simp only [bind, Except.bind]
    have hP' : PInv m (fun k => (a + 1 ≤ k ∧ k < m) ∨ k = a) g := by
      have : (fun k => (a + 1 ≤ k ∧ k < m) ∨ k = a) = fun k => a ≤ k ∧ k < m := by
        funext k; apply propext; constructor
        · rintro (⟨h1, h2⟩ | h1) <;> omega
        · rintro ⟨h1, h2⟩; omega
      rw [this]; exact hP
    rcases assignEquation_ok (fun k h => h.2) fuel a g hP' (by omega) with r | r | ⟨g', r1, r2, r3⟩
    · rw [r]; exact .inl rfl
    · rw [r]; exact .inr (.inl rfl)
    · rw [r1]
      simp only
      rcases ih (a + 1) g' (by omega) r2 with s | s | ⟨g'', s1, s2, s3⟩
      · exact .inl s
      · exact .inr (.inl s)
      · exact .inr (.inr ⟨g'', s1, s2, r3.trans s3⟩)

end Verif.Dae
