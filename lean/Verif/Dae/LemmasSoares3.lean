import Verif.Dae.LemmasSoares2
import Verif.Dae.LemmasPant
namespace Verif.Dae.Soares

/-- variables which are no derivatives and have none -/
def alg (g : BG) : Finset Nat := (Finset.range g.nv).filter fun j => (g.v j).anti = none ∧ (g.v j).deriv = none

/-- grows by one for each new derivative of a derivative -/
def psi (g : BG) : Nat := g.nv + (alg g).card

/-- those of `T` which have derivatives -/
def cnt (T : Finset Nat) (g : BG) : Nat := (T.filter fun j => (g.v j).deriv ≠ none).card

structure Ok (g : BG) : Prop where
  w : W g
  nodel : ∀ j, (g.v j).deleted = false
  uncV : ∀ j, (g.v j).colored = false
  vb : ∀ j, g.nv ≤ j → (g.v j).assign = none
  rank : ∃ r : Nat → Nat, ∀ j d, (g.v j).deriv = some d → r j < r d

/-- derivatives of variables `J` are added to the equation `d` -/
structure Dirty (d : Nat) (T : Finset Nat) (J : Nat → Prop) (g g' : BG) : Prop where
  ok : Ok g'
  nv : g.nv ≤ g'.nv
  ne : g'.ne = g.ne
  va : ∀ j, (g'.v j).assign = (g.v j).assign
  e : ∀ i, i ≠ d → g'.e i = g.e i
  ed : (g'.e d).colored = (g.e d).colored ∧ (g'.e d).assign = (g.e d).assign ∧ (g'.e d).diff = (g.e d).diff ∧
    (g'.e d).diffOf = (g.e d).diffOf
  anti : ∀ j, j < g.nv → (g'.v j).anti = (g.v j).anti
  dkeep : ∀ j x, (g.v j).deriv = some x → (g'.v j).deriv = some x
  dnew : ∀ j, (g.v j).deriv = none → (g'.v j).deriv ≠ none → J j
  okeep : ∀ x ∈ (g.e d).orig, x ∈ (g'.e d).orig
  onew : ∀ x ∈ (g'.e d).orig, x ∈ (g.e d).orig ∨ ∃ j, J j ∧ (g'.v j).deriv = some x
  pot : psi g' + cnt T g ≤ psi g + cnt T g'

theorem psi_congr {g g' : BG} (hn : g'.nv = g.nv) (ha : ∀ j, (g'.v j).anti = (g.v j).anti)
    (hd : ∀ j, (g'.v j).deriv = (g.v j).deriv) : psi g' = psi g := by
  unfold psi alg
  simp only [hn, ha, hd]

theorem cnt_congr {T : Finset Nat} {g g' : BG} (hd : ∀ j, (g'.v j).deriv = (g.v j).deriv) : cnt T g' = cnt T g := by
  unfold cnt
  simp only [hd]

theorem dirty_add {d : Nat} {T : Finset Nat} {J : Nat → Prop} {g : BG} (h : Ok g) (hd : d < g.ne) {x j : Nat} (hx : x < g.nv)
    (hj : J j) (hjx : (g.v j).deriv = some x) : Dirty d T J g (g.addVariable d x) := by
  have E := edges_addVariable g d x
  have F := E.fields
  have G := E.fieldsE d
  refine ⟨⟨h.w.addVariable hd hx, fun k => by rw [(F k).2.1]; exact h.nodel k, fun k => by rw [(F k).1]; exact h.uncV k,
    fun k hk => by rw [(F k).2.2.1]; exact h.vb k (by rw [E.nv] at hk; exact hk), ?_⟩, by rw [E.nv], E.ne, fun k => (F k).2.2.1,
    E.e, G, fun k _ => (F k).2.2.2.2.1, fun k y hk => by rw [(F k).2.2.2.1]; exact hk,
    fun k hk hk' => by rw [(F k).2.2.2.1] at hk'; exact absurd hk hk', fun y hy => addVariable_orig.mpr (.inl hy), ?_, ?_⟩
  · obtain ⟨r, hr⟩ := h.rank
    exact ⟨r, fun k y hk => hr k y (by rw [(F k).2.2.2.1] at hk; exact hk)⟩
  · intro y hy
    rcases addVariable_orig.mp hy with hy | hy
    · exact .inl hy
    · refine .inr ⟨j, hj, ?_⟩
      rw [(F j).2.2.2.1, hy]; exact hjx
  · rw [psi_congr E.nv (fun k => (F k).2.2.2.2.1) (fun k => (F k).2.2.2.1), cnt_congr fun k => (F k).2.2.2.1]

theorem Dirty.trans {d : Nat} {T : Finset Nat} {J : Nat → Prop} {g g1 g2 : BG} (h : Dirty d T J g g1) (h' : Dirty d T J g1 g2) :
    Dirty d T J g g2 where
  ok := h'.ok
  nv := Nat.le_trans h.nv h'.nv
  ne := h'.ne.trans h.ne
  va j := (h'.va j).trans (h.va j)
  e i hi := (h'.e i hi).trans (h.e i hi)
  ed := ⟨h'.ed.1.trans h.ed.1, h'.ed.2.1.trans h.ed.2.1, h'.ed.2.2.1.trans h.ed.2.2.1, h'.ed.2.2.2.trans h.ed.2.2.2⟩
  anti j hj := (h'.anti j (Nat.lt_of_lt_of_le hj h.nv)).trans (h.anti j hj)
  dkeep j x hj := h'.dkeep j x (h.dkeep j x hj)
  dnew j h1 h2 := by
    cases hm : (g1.v j).deriv with
    | none => exact h'.dnew j hm h2
    | some x => exact h.dnew j h1 (by rw [hm]; simp)
  okeep x hx := h'.okeep x (h.okeep x hx)
  onew x hx := by
    rcases h'.onew x hx with h1 | h1
    · rcases h.onew x h1 with h2 | ⟨j, h2, h3⟩
      · exact .inl h2
      · exact .inr ⟨j, h2, h'.dkeep j x h3⟩
    · exact .inr h1
  pot := by have := h.pot; have := h'.pot; omega

/-- the derivative of a variable -/
theorem dirty_derivV {d : Nat} {T : Finset Nat} {J : Nat → Prop} {g : BG} (h : Ok g) {j : Nat} (hj : j < g.nv)
    (hd : (g.v j).deriv = none) (hJ : J j) (hT : (g.v j).anti ≠ none → j ∈ T) : Dirty d T J g (g.derivV j).2 := by
  have hW := h.w.derivV hj hd
  rw [derivV_none hd] at hW ⊢
  simp only at hW ⊢
  have hv : ∀ k, ((g.setV j fun n => { n with deriv := some g.nv }).setV g.nv (fun _ => { anti := some j })).v k =
      if k = g.nv then { anti := some j } else if k = j then { g.v k with deriv := some g.nv } else g.v k := by
    intro k
    rw [setV_v, setV_v]
  have hder : ∀ k x, (((g.setV j fun n => { n with deriv := some g.nv }).setV g.nv (fun _ => { anti := some j })).v k).deriv = some x ↔
      k ≠ g.nv ∧ ((k = j ∧ x = g.nv) ∨ (k ≠ j ∧ (g.v k).deriv = some x)) := by
    intro k x
    rw [hv]
    by_cases h1 : k = g.nv
    · rw [if_pos h1]; simp [h1]
    · rw [if_neg h1]
      by_cases h2 : k = j
      · rw [if_pos h2]; simp [h1, h2, eq_comm]; intro e; omega
      · rw [if_neg h2]; simp [h1, h2]
  have hnd : (g.v g.nv).deriv = none := by
    cases hx : (g.v g.nv).deriv with
    | none => rfl
    | some x => exact absurd (h.w.link _ _ hx).1 (Nat.lt_irrefl _)
  refine ⟨⟨hW, ?_, ?_, ?_, ?_⟩, Nat.le_succ _, rfl, ?_, fun _ _ => rfl, ⟨rfl, rfl, rfl, rfl⟩, ?_, ?_, ?_, fun _ x => x,
    fun _ x => .inl x, ?_⟩
  · intro k; simp only [hv]; split
    · rfl
    · split <;> exact h.nodel k
  · intro k; simp only [hv]; split
    · rfl
    · split <;> exact h.uncV k
  · intro k hk; simp only at hk; simp only [hv]; rw [if_neg (by omega), if_neg (by omega)]; exact h.vb k (by omega)
  · obtain ⟨r, hr⟩ := h.rank
    refine ⟨fun k => if k = g.nv then r j + 1 else r k, fun k x hk => ?_⟩
    obtain ⟨h1, h2⟩ := (hder k x).mp hk
    simp only [if_neg h1]
    rcases h2 with ⟨h2, h3⟩ | ⟨h2, h3⟩
    · rw [if_pos h3, h2]; omega
    · have hx := (h.w.link _ _ h3).2.1
      rw [if_neg (by omega)]
      exact hr k x h3
  · intro k; simp only [hv]; split
    · rename_i hk; rw [h.vb k (by omega)]
    · split <;> rfl
  · intro k hk; simp only [hv]; rw [if_neg (by omega)]; split <;> rfl
  · intro k x hk
    refine (hder k x).mpr ⟨?_, .inr ⟨?_, hk⟩⟩
    · rintro rfl; rw [hnd] at hk; cases hk
    · rintro rfl; rw [hd] at hk; cases hk
  · intro k h1 h2
    obtain ⟨x, hx⟩ := Option.ne_none_iff_exists'.mp h2
    rcases ((hder k x).mp hx).2 with ⟨h3, _⟩ | ⟨_, h3⟩
    · rw [h3]; exact hJ
    · rw [h1] at h3; cases h3
  · -- the potential
    have hcnt : ∀ k, (g.v k).deriv ≠ none →
        (((g.setV j fun n => { n with deriv := some g.nv }).setV g.nv (fun _ => { anti := some j })).v k).deriv ≠ none := by
      intro k hk
      obtain ⟨x, hx⟩ := Option.ne_none_iff_exists'.mp hk
      rw [(hder k x).mpr ⟨?_, .inr ⟨?_, hx⟩⟩]
      · simp
      · rintro rfl; exact hk hnd
      · rintro rfl; exact hk hd
    have hj' : (((g.setV j fun n => { n with deriv := some g.nv }).setV g.nv (fun _ => { anti := some j })).v j).deriv = some g.nv :=
      (hder j _).mpr ⟨by omega, .inl ⟨rfl, rfl⟩⟩
    by_cases ha : (g.v j).anti = none
    · -- an algebraic variable
      have h1 : cnt T g ≤ cnt T { (g.setV j fun n => { n with deriv := some g.nv }).setV g.nv (fun _ => { anti := some j }) with
          nv := g.nv + 1 } := by
        refine Finset.card_le_card fun k hk => ?_
        rw [Finset.mem_filter] at hk ⊢
        exact ⟨hk.1, hcnt k hk.2⟩
      have h2 : alg { (g.setV j fun n => { n with deriv := some g.nv }).setV g.nv (fun _ => { anti := some j }) with
          nv := g.nv + 1 } ⊆ (alg g).erase j := by
        intro k hk
        unfold alg at hk ⊢
        rw [Finset.mem_filter, Finset.mem_range] at hk
        simp only [hv] at hk
        obtain ⟨k1, k2, k3⟩ := hk
        rw [Finset.mem_erase, Finset.mem_filter, Finset.mem_range]
        by_cases e1 : k = g.nv
        · rw [if_pos e1] at k2; cases k2
        · rw [if_neg e1] at k2 k3
          by_cases e2 : k = j
          · rw [if_pos e2] at k3; cases k3
          · rw [if_neg e2] at k2 k3
            exact ⟨e2, by omega, k2, k3⟩
      have h3 : j ∈ alg g := by
        unfold alg; rw [Finset.mem_filter, Finset.mem_range]; exact ⟨hj, ha, hd⟩
      have h4 := Finset.card_le_card h2
      have h5 := Finset.card_erase_of_mem h3
      have h6 := Finset.card_pos.mpr ⟨j, h3⟩
      unfold psi
      simp only at h1 h4 ⊢
      omega
    · have h1 : cnt T g < cnt T { (g.setV j fun n => { n with deriv := some g.nv }).setV g.nv (fun _ => { anti := some j }) with
          nv := g.nv + 1 } := by
        refine Finset.card_lt_card ⟨fun k hk => ?_, fun hs => ?_⟩
        · rw [Finset.mem_filter] at hk ⊢
          exact ⟨hk.1, hcnt k hk.2⟩
        · have : j ∈ T.filter fun j => (g.v j).deriv ≠ none := hs (Finset.mem_filter.mpr ⟨hT ha, by
            show (((g.setV j fun n => { n with deriv := some g.nv }).setV g.nv (fun _ => { anti := some j })).v j).deriv ≠ none
            rw [hj']; simp⟩)
          exact (Finset.mem_filter.mp this).2 hd
      have h2 : alg { (g.setV j fun n => { n with deriv := some g.nv }).setV g.nv (fun _ => { anti := some j }) with
          nv := g.nv + 1 } ⊆ alg g := by
        intro k hk
        unfold alg at hk ⊢
        rw [Finset.mem_filter, Finset.mem_range] at hk
        simp only [hv] at hk
        obtain ⟨k1, k2, k3⟩ := hk
        rw [Finset.mem_filter, Finset.mem_range]
        by_cases e1 : k = g.nv
        · rw [if_pos e1] at k2; cases k2
        · rw [if_neg e1] at k2 k3
          by_cases e2 : k = j
          · rw [if_pos e2] at k3; cases k3
          · rw [if_neg e2] at k2 k3
            exact ⟨by omega, k2, k3⟩
      have h4 := Finset.card_le_card h2
      unfold psi
      simp only at h1 h4 ⊢
      omega

theorem dirty_step {d : Nat} {T : Finset Nat} {J : Nat → Prop} {g : BG} (h : Ok g) (hd : d < g.ne) {j : Nat} (hj : j < g.nv) (hJ : J j)
    (hT : (g.v j).deriv = none → (g.v j).anti ≠ none → j ∈ T) :
    Dirty d T J g (BG.dirtyVar false d g j) ∧
    ∃ dj, ((BG.dirtyVar false d g j).v j).deriv = some dj ∧ dj ∈ ((BG.dirtyVar false d g j).e d).orig := by
  unfold BG.dirtyVar
  simp only [Bool.false_eq_true, if_false]
  cases hx : (g.v j).deriv with
  | some x =>
    simp only
    refine ⟨dirty_add h hd (h.w.link _ _ hx).2.1 hJ hx, x, ?_, addVariable_orig.mpr (.inr rfl)⟩
    rw [((edges_addVariable g d x).fields j).2.2.2.1]; exact hx
  | none =>
    simp only
    rw [if_neg (by rw [h.w.param]; simp)]
    have D := dirty_derivV (d := d) h hj hx hJ (hT hx)
    have h1 : (g.derivV j).1 = g.nv := by rw [derivV_none hx]
    have h2 : ((g.derivV j).2.v j).deriv = some g.nv := by
      rw [derivV_none hx]
      show (((g.setV j fun n => { n with deriv := some g.nv }).setV g.nv (fun _ => { anti := some j })).v j).deriv = _
      rw [setV_v, if_neg (by omega), setV_v, if_pos rfl]
    have h3 : (g.derivV j).2.nv = g.nv + 1 := by rw [derivV_none hx]
    rw [h1]
    refine ⟨D.trans (dirty_add D.ok (by rw [D.ne]; exact hd) (by rw [h3]; omega) hJ h2), g.nv, ?_, addVariable_orig.mpr (.inr rfl)⟩
    rw [((edges_addVariable _ d g.nv).fields j).2.2.2.1]; exact h2

theorem Dirty.refl {d : Nat} {T : Finset Nat} {J : Nat → Prop} {g : BG} (h : Ok g) : Dirty d T J g g :=
  ⟨h, Nat.le_refl _, rfl, fun _ => rfl, fun _ _ => rfl, ⟨rfl, rfl, rfl, rfl⟩, fun _ _ => rfl, fun _ _ x => x,
    fun _ x y => absurd x y, fun _ x => x, fun _ x => .inl x, Nat.le_refl _⟩

theorem dirty_all {d : Nat} {T : Finset Nat} {J : Nat → Prop} : ∀ (js : List Nat) (g : BG), Ok g → d < g.ne →
    (∀ j ∈ js, j < g.nv ∧ J j ∧ ((g.v j).deriv = none → (g.v j).anti ≠ none → j ∈ T)) →
    Dirty d T J g (js.foldl (BG.dirtyVar false d) g) ∧
    ∀ j ∈ js, ∃ dj, ((js.foldl (BG.dirtyVar false d) g).v j).deriv = some dj ∧
      dj ∈ ((js.foldl (BG.dirtyVar false d) g).e d).orig := by
  intro js
  induction js with
  | nil => intro g h _ _; exact ⟨Dirty.refl h, nofun⟩
  | cons a js ih =>
    intro g h hd hj
    rw [List.foldl_cons]
    obtain ⟨a1, a2, a3⟩ := hj a List.mem_cons_self
    obtain ⟨D1, x, x1, x2⟩ := dirty_step h hd a1 a2 a3
    obtain ⟨D2, h2⟩ := ih _ D1.ok (by rw [D1.ne]; exact hd) (fun j hj' => by
      obtain ⟨b1, b2, b3⟩ := hj j (List.mem_cons_of_mem _ hj')
      refine ⟨Nat.lt_of_lt_of_le b1 D1.nv, b2, fun c1 c2 => ?_⟩
      rw [D1.anti j b1] at c2
      refine b3 ?_ c2
      cases hx : (g.v j).deriv with
      | none => rfl
      | some y => rw [D1.dkeep j y hx] at c1; cases c1)
    refine ⟨D1.trans D2, fun j hj' => ?_⟩
    rcases List.mem_cons.mp hj' with rfl | hj'
    · exact ⟨x, D2.dkeep j x x1, D2.okeep x x2⟩
    · exact h2 j hj'

/-! ### derivatives of equations -/

/-- the equations `P` have been differentiated -/
structure Part (m : Nat) (T : Finset Nat) (g0 : BG) (P : List Nat) (g : BG) : Prop where
  ok : Ok g
  lk : Lk m g
  ne : g.ne = g0.ne + P.length
  nv : g0.nv ≤ g.nv
  va : ∀ j, (g.v j).assign = (g0.v j).assign
  old : ∀ i, i < g0.ne ∨ g.ne ≤ i → (g.e i).orig = (g0.e i).orig ∧ (g.e i).colored = (g0.e i).colored ∧
    (g.e i).assign = (g0.e i).assign ∧ (g.e i).diffOf = (g0.e i).diffOf
  diffOld : ∀ i, i < g0.ne ∨ g.ne ≤ i → i ∉ P → (g.e i).diff = (g0.e i).diff
  diffP : ∀ i ∈ P, (g.e i).diff ≠ none
  new : ∀ i, g0.ne ≤ i → i < g.ne → (g.e i).colored = false ∧ (g.e i).assign = none ∧ (g.e i).diff = none
  anti : ∀ j, j < g0.nv → (g.v j).anti = (g0.v j).anti
  dkeep : ∀ j x, (g0.v j).deriv = some x → (g.v j).deriv = some x
  dnew : ∀ j, (g0.v j).deriv = none → (g.v j).deriv ≠ none → ∃ q ∈ P, j ∈ (g0.e q).orig
  pot : psi g + cnt T g0 ≤ psi g0 + cnt T g

theorem part_step {m : Nat} {T : Finset Nat} {g0 g : BG} {P : List Nat}
    (hW0 : W g0) (h : Part m T g0 P g) {i : Nat} (hi : i < g0.ne) (hP : i ∉ P) (hdi : (g0.e i).diff = none)
    (hTi : ∀ j ∈ (g0.e i).orig, (g0.v j).deriv = none → (g0.v j).anti ≠ none → j ∈ T) :
    Part m T g0 (P ++ [i]) (g.derivE false i) := by
  have hdg : (g.e i).diff = none := by rw [h.diffOld i (.inl hi) hP]; exact hdi
  have hog : (g.e i).orig = (g0.e i).orig := (h.old i (.inl hi)).1
  have hig : i < g.ne := by rw [h.ne]; omega
  obtain ⟨g1, hg1⟩ : ∃ g1 : BG, g1 = { (g.setE i fun n => { n with diff := some g.ne }).setE g.ne (fun _ => { diffOf := some i }) with
    ne := g.ne + 1 } := ⟨_, rfl⟩
  have hfold : g.derivE false i = (g.e i).orig.foldl (BG.dirtyVar false g.ne) g1 := by
    unfold BG.derivE
    rw [hdg, hg1]
  have e1 : ∀ k, g1.e k = if k = g.ne then { diffOf := some i } else if k = i then { g.e k with diff := some g.ne } else g.e k := by
    intro k
    rw [hg1]
    show ((g.setE i fun n => { n with diff := some g.ne }).setE g.ne (fun _ => { diffOf := some i })).e k = _
    rw [setE_e, setE_e]
  have v1 : ∀ j, g1.v j = g.v j := by intro j; rw [hg1]; rfl
  have n1 : g1.nv = g.nv := by rw [hg1]; rfl
  have ne1 : g1.ne = g.ne + 1 := by rw [hg1]
  have o1 : ∀ k, k ≠ g.ne → (g1.e k).orig = (g.e k).orig ∧ (g1.e k).vars = (g.e k).vars := by
    intro k hk
    rw [e1, if_neg hk]
    split <;> exact ⟨rfl, rfl⟩
  have oN : (g1.e g.ne).orig = [] ∧ (g1.e g.ne).vars = [] := by rw [e1, if_pos rfl]; exact ⟨rfl, rfl⟩
  have oG : (g.e g.ne).orig = [] ∧ (g.e g.ne).vars = [] := by
    have := h.ok.w.fresh g.ne (Nat.le_refl _)
    exact ⟨this, by rw [h.ok.w.vars, this]; rfl⟩
  have oA : ∀ k, (g1.e k).orig = (g.e k).orig ∧ (g1.e k).vars = (g.e k).vars := by
    intro k
    by_cases hk : k = g.ne
    · rw [hk, oN.1, oN.2, oG.1, oG.2]; exact ⟨rfl, rfl⟩
    · exact o1 k hk
  have w1 : W g1 := by
    have w := h.ok.w
    refine ⟨fun k => ?_, fun k => ?_, fun k j => ?_, fun k j hj => ?_, fun k hk => ?_, fun j d hj => ?_, fun j d hd hj => ?_,
      fun j => by rw [v1]; exact w.param j, fun j => by rw [v1]; exact w.deleted j⟩
    · rw [(oA k).1]; exact w.nodup k
    · rw [(oA k).1, (oA k).2, w.vars k]; exact List.filter_congr fun j _ => by rw [v1]
    · rw [v1, (oA k).2]; exact w.eqs k j
    · rw [(oA k).1] at hj; rw [n1]; exact w.bound k j hj
    · rw [(oA k).1]; exact w.fresh k (by omega)
    · rw [v1] at hj ⊢; rw [n1]; exact w.link j d hj
    · rw [n1] at hd; rw [v1] at hj ⊢; exact w.unlink j d hd hj
  have ok1 : Ok g1 := ⟨w1, fun j => by rw [v1]; exact h.ok.nodel j, fun j => by rw [v1]; exact h.ok.uncV j,
    fun j hj => by rw [v1]; exact h.ok.vb j (by omega), by
      obtain ⟨r, hr⟩ := h.ok.rank
      exact ⟨r, fun j d hj => hr j d (by rw [v1] at hj; exact hj)⟩⟩
  have hbound : ∀ j ∈ (g.e i).orig, j < g0.nv := fun j hj => by rw [hog] at hj; exact hW0.bound i j hj
  obtain ⟨D, hD⟩ := dirty_all (d := g.ne) (T := T) (J := (· ∈ (g.e i).orig)) (g.e i).orig g1 ok1 (by omega) (fun j hj => by
    refine ⟨by rw [n1]; exact Nat.lt_of_lt_of_le (hbound j hj) h.nv, hj, fun c1 c2 => ?_⟩
    rw [v1] at c1 c2
    rw [h.anti j (hbound j hj)] at c2
    rw [hog] at hj
    refine hTi j hj ?_ c2
    cases hx : (g0.v j).deriv with
    | none => rfl
    | some y => rw [h.dkeep j y hx] at c1; cases c1)
  rw [← hfold] at D hD
  obtain ⟨g', hg'⟩ : ∃ g', g' = g.derivE false i := ⟨_, rfl⟩
  rw [← hg'] at D hD ⊢
  have ne' : g'.ne = g.ne + 1 := D.ne.trans ne1
  have dk : ∀ j x, (g.v j).deriv = some x → (g'.v j).deriv = some x := fun j x hj => D.dkeep j x (by rw [v1]; exact hj)
  have eo : ∀ k, k ≠ g.ne → k ≠ i → g'.e k = g.e k := fun k h1 h2 => by rw [D.e k h1, e1, if_neg h1, if_neg h2]
  have hine : i ≠ g.ne := by omega
  have ei : g'.e i = { g.e i with diff := some g.ne } := by rw [D.e i hine, e1, if_neg hine, if_pos rfl]
  have eor : ∀ k, k ≠ g.ne → (g'.e k).orig = (g.e k).orig := fun k h1 => by rw [D.e k h1, (oA k).1]
  have edo : (g'.e g.ne).diffOf = some i := by rw [D.ed.2.2.2, e1, if_pos rfl]
  have edd : (g'.e g.ne).diff = none := by rw [D.ed.2.2.1, e1, if_pos rfl]
  have odn : ∀ x ∈ (g'.e g.ne).orig, ∃ a ∈ (g.e i).orig, (g'.v a).deriv = some x := by
    intro x hx
    rcases D.onew x hx with h1 | h1
    · rw [oN.1] at h1; cases h1
    · exact h1
  refine ⟨D.ok, ⟨?_, ?_, ?_, ?_⟩, ?_, ?_, ?_, ?_, ?_, ?_, ?_, ?_, ?_, ?_, ?_⟩
  · intro a d had
    rcases eq_or_ne a i with rfl | hai
    · rw [ei] at had
      simp only [Option.some.injEq] at had
      subst had
      refine ⟨by omega, by omega, edo, hig, fun j hj => ?_, fun j hj => ?_⟩
      · rw [eor a hine] at hj; exact hD j hj
      · rw [eor a hine]; exact odn j hj
    · rcases eq_or_ne a g.ne with rfl | han
      · rw [edd] at had; cases had
      · rw [eo a han hai] at had
        obtain ⟨b1, b2, b3, b4, b5, b6⟩ := h.lk.link a d had
        have hdn : d ≠ g.ne := by omega
        have hdi' : (g'.e d).diffOf = (g.e d).diffOf := by
          rcases eq_or_ne d i with rfl | hdi
          · rw [ei]
          · rw [eo d hdn hdi]
        refine ⟨by omega, by omega, by rw [hdi']; exact b3, b4, fun j hj => ?_, fun j hj => ?_⟩
        · rw [eor a han] at hj
          obtain ⟨dj, c1, c2⟩ := b5 j hj
          exact ⟨dj, dk _ _ c1, by rw [eor d hdn]; exact c2⟩
        · rw [eor d hdn] at hj
          obtain ⟨x, c1, c2⟩ := b6 j hj
          exact ⟨x, by rw [eor a han]; exact c1, dk _ _ c2⟩
  · intro a d hd had
    rcases eq_or_ne d g.ne with rfl | hdn
    · rw [edo] at had
      simp only [Option.some.injEq] at had
      rw [← had, ei]
    · have hdi' : (g'.e d).diffOf = (g.e d).diffOf := by
        rcases eq_or_ne d i with rfl | hdi
        · rw [ei]
        · rw [eo d hdn hdi]
      rw [hdi'] at had
      have hl := h.lk.unlink a d (by omega) had
      have hai : a ≠ i := by rintro rfl; rw [hdg] at hl; cases hl
      have han : a ≠ g.ne := by have := (h.lk.link a d hl).1; omega
      rw [eo a han hai]
      exact hl
  · intro d hd
    rcases eq_or_ne d g.ne with rfl | hdn
    · rw [edo]
      have := h.lk.le
      simp
      omega
    · have hdi' : (g'.e d).diffOf = (g.e d).diffOf := by
        rcases eq_or_ne d i with rfl | hdi
        · rw [ei]
        · rw [eo d hdn hdi]
      rw [hdi']
      exact h.lk.first d (by omega)
  · have := h.lk.le; omega
  · rw [ne', h.ne, List.length_append, List.length_singleton]; omega
  · have := h.nv; have := D.nv; omega
  · intro j; rw [D.va, v1, h.va]
  · intro k hk
    have hkn : k ≠ g.ne := by have := h.ne; omega
    obtain ⟨b1, b2, b3, b4⟩ := h.old k (by omega)
    rcases eq_or_ne k i with rfl | hki
    · rw [ei]; exact ⟨b1, b2, b3, b4⟩
    · rw [eo k hkn hki]; exact ⟨b1, b2, b3, b4⟩
  · intro k hk hkP
    rw [List.mem_append, List.mem_singleton, not_or] at hkP
    have hkn : k ≠ g.ne := by have := h.ne; omega
    rw [eo k hkn hkP.2]
    exact h.diffOld k (by omega) hkP.1
  · intro k hk
    rw [List.mem_append, List.mem_singleton] at hk
    rcases eq_or_ne k i with rfl | hki
    · rw [ei]; simp
    · have hd := h.diffP k (hk.resolve_right hki)
      obtain ⟨d, hd'⟩ := Option.ne_none_iff_exists'.mp hd
      have := (h.lk.link k d hd').1
      rw [eo k (by omega) hki]
      exact hd
  · intro k h1 h2
    rcases eq_or_ne k g.ne with rfl | hkn
    · refine ⟨?_, ?_, edd⟩
      · rw [D.ed.1, e1, if_pos rfl]
      · rw [D.ed.2.1, e1, if_pos rfl]
    · rw [eo k hkn (by omega)]
      exact h.new k h1 (by omega)
  · intro j hj
    rw [D.anti j (by rw [n1]; have := h.nv; omega), v1, h.anti j hj]
  · intro j x hj; exact dk j x (h.dkeep j x hj)
  · intro j h1 h2
    cases hx : (g.v j).deriv with
    | none =>
      have := D.dnew j (by rw [v1]; exact hx) h2
      exact ⟨i, by simp, by rw [hog] at this; exact this⟩
    | some x =>
      obtain ⟨q, b1, b2⟩ := h.dnew j h1 (by rw [hx]; simp)
      exact ⟨q, List.mem_append.mpr (.inl b1), b2⟩
  · have p1 := h.pot
    have p2 := D.pot
    rw [psi_congr n1 (fun j => by rw [v1]) (fun j => by rw [v1]), cnt_congr (g := g) (g' := g1) fun j => by rw [v1]] at p2
    omega

theorem part_all {m : Nat} {T : Finset Nat} {g0 : BG} (hW0 : W g0) : ∀ (l P : List Nat) (g : BG), Part m T g0 P g →
    (P ++ l).Nodup → (∀ i ∈ l, i < g0.ne ∧ (g0.e i).diff = none ∧
      ∀ j ∈ (g0.e i).orig, (g0.v j).deriv = none → (g0.v j).anti ≠ none → j ∈ T) →
    Part m T g0 (P ++ l) (l.foldl (BG.derivE false) g) := by
  intro l
  induction l with
  | nil => intro P g h _ _; rw [List.append_nil]; exact h
  | cons i l ih =>
    intro P g h hn hl
    obtain ⟨a1, a2, a3⟩ := hl i List.mem_cons_self
    have hP : i ∉ P := fun x => by
      have := (List.nodup_append.mp hn).2.2 i x i List.mem_cons_self
      exact this rfl
    have := part_step hW0 h a1 hP a2 a3
    rw [List.foldl_cons]
    have e : P ++ i :: l = (P ++ [i]) ++ l := by simp
    rw [e] at hn ⊢
    exact ih _ _ this hn fun q hq => hl q (List.mem_cons_of_mem _ hq)

/-- highest derivatives in marked equations -/
def hset (g : BG) (Mk : List Nat) : Finset Nat := Mk.toFinset.biUnion fun k => (incOf consA g k).toFinset

/-- differentiating the marked equations after a round -/
theorem derivAll_ok {m : Nat} {Mk : List Nat} {g : BG} (h : SInv m Mk g) (hall : ∀ q, q < g.ne → (g.e q).assign ≠ none)
    (hne : Mk ≠ []) {l : List Nat} (hl : l.Perm Mk) :
    SInv m [] (l.foldl (BG.derivE false) g) ∧ Ext g (l.foldl (BG.derivE false) g) ∧
      psi (l.foldl (BG.derivE false) g) + g.ne + 1 ≤ psi g + (l.foldl (BG.derivE false) g).ne := by
  have hmem : ∀ q, q ∈ l ↔ q ∈ Mk := fun q => hl.mem_iff
  have hvb : ∀ j, g.nv ≤ j → (g.v j).assign = none := by
    intro j hj
    cases ha : (g.v j).assign with
    | none => rfl
    | some k =>
      have := h.inc k j ((h.agree.iff k j).mpr ha)
      rw [h.frame.vars] at this
      have := h.frame.w.bound k j this
      omega
  have ok0 : Ok g := ⟨h.frame.w, h.frame.nodel, h.uncV, hvb, h.frame.rank⟩
  have p0 : Part m (hset g Mk) g [] g := ⟨ok0, h.frame.lk, rfl, Nat.le_refl _, fun _ => rfl, fun _ _ => ⟨rfl, rfl, rfl, rfl⟩,
    fun _ _ _ => rfl, nofun, fun i h1 h2 => by omega, fun _ _ => rfl, fun _ _ x => x, fun _ x y => absurd x y, Nat.le_refl _⟩
  have hT : ∀ i ∈ l, ∀ j ∈ (g.e i).orig, (g.v j).deriv = none → (g.v j).anti ≠ none → j ∈ hset g Mk := by
    intro i hi j hj h1 h2
    unfold hset
    rw [Finset.mem_biUnion]
    refine ⟨i, List.mem_toFinset.mpr ((hmem i).mp hi), List.mem_toFinset.mpr (List.mem_filter.mpr ⟨by rw [h.frame.vars]; exact hj, ?_⟩)⟩
    unfold consA
    rw [h1]
    cases ha : (g.v j).anti with
    | none => exact absurd ha h2
    | some _ => rfl
  have P := part_all h.frame.w l [] g p0 (by rw [List.nil_append]; exact hl.nodup_iff.mpr h.nodup)
    (fun i hi => ⟨(h.mks i ((hmem i).mp hi)).1, (h.mks i ((hmem i).mp hi)).2.1, hT i hi⟩)
  rw [List.nil_append] at P
  obtain ⟨g', hg'⟩ : ∃ g', g' = l.foldl (BG.derivE false) g := ⟨_, rfl⟩
  rw [← hg'] at P ⊢
  have vo : ∀ k, (g'.e k).vars = (g'.e k).orig := by
    intro k
    rw [P.ok.w.vars]
    exact List.filter_eq_self.mpr fun j _ => by rw [P.ok.nodel]; rfl
  have hold : ∀ k, (g'.e k).assign ≠ none → k < g.ne ∨ g'.ne ≤ k := by
    intro k hk
    by_contra hc
    exact hk (P.new k (by omega) (by omega)).2.1
  have hlt : ∀ k j, (g.e k).assign = some j → k < g.ne := fun k j hk => h.agree.lt j k ((h.agree.iff k j).mp hk)
  have hle : g.ne ≤ g'.ne := by rw [P.ne]; omega
  have aE : ∀ k j, (g'.e k).assign = some j ↔ (g.e k).assign = some j := by
    intro k j
    constructor
    · intro hk
      rw [← (P.old k (hold k (by rw [hk]; simp))).2.2.1]; exact hk
    · intro hk
      rw [(P.old k (.inl (hlt k j hk))).2.2.1]; exact hk
  have hdl : ∀ k, (g'.e k).diff ≠ none → k < g.ne ∧ (k ∈ Mk ∨ (g.e k).diff ≠ none) := by
    intro k hk
    by_cases hkl : k ∈ l
    · exact ⟨(h.mks k ((hmem k).mp hkl)).1, .inl ((hmem k).mp hkl)⟩
    · have hc : k < g.ne ∨ g'.ne ≤ k := by
        by_contra hc
        exact hk (P.new k (by omega) (by omega)).2.2
      rw [P.diffOld k hc hkl] at hk
      obtain ⟨d, hd⟩ := Option.ne_none_iff_exists'.mp hk
      exact ⟨(h.frame.lk.link k d hd).1, .inr hk⟩
  have hdm : ∀ k, (k ∈ Mk ∨ (g.e k).diff ≠ none) → (g'.e k).diff ≠ none := by
    intro k hk
    by_cases hkl : k ∈ l
    · exact P.diffP k hkl
    · have hk := hk.resolve_left fun x => hkl ((hmem k).mpr x)
      obtain ⟨d, hd⟩ := Option.ne_none_iff_exists'.mp hk
      rw [P.diffOld k (.inl (h.frame.lk.link k d hd).1) hkl]
      exact hk
  refine ⟨⟨⟨P.ok.w, P.ok.nodel, P.lk, P.ok.rank⟩, ⟨fun k j => ?_, fun j k hj => ?_⟩, ?_, P.ok.uncV, ?_, ?_, nofun, List.nodup_nil, nofun,
    ?_, fun x => absurd rfl x⟩, ⟨P.nv, hle, fun i hi => (P.old i (.inl hi)).1, P.dkeep, P.anti, fun i d hi hd => ?_,
    fun i hi => (P.old i (.inl hi)).2.2.2⟩, ?_⟩
  · rw [aE, P.va]; exact h.agree.iff k j
  · rw [P.va] at hj
    have := h.agree.lt j k hj
    omega
  · intro k j hk
    rw [aE] at hk
    rw [vo, (P.old k (.inl (hlt k j hk))).1, ← h.frame.vars]
    exact h.inc k j hk
  · intro k hk
    right
    have hc : k < g.ne ∨ g'.ne ≤ k := by
      by_contra hc
      rw [(P.new k (by omega) (by omega)).1] at hk
      cases hk
    rw [(P.old k hc).2.1] at hk
    exact hdm k (h.col k hk)
  · intro k hk
    obtain ⟨h1, _⟩ := hdl k hk
    rw [(P.old k (.inl h1)).2.2.1]
    exact hall k h1
  · intro k hk _ j hj
    rw [aE] at hj
    have hkl : k ∉ l := fun x => P.diffP k x hk
    have hkn := hlt k j hj
    rw [P.diffOld k (.inl hkn) hkl] at hk
    have hkm : k ∉ Mk := fun x => hkl ((hmem k).mpr x)
    have hH := h.high k hk hkm j hj
    have hjv := h.inc k j hj
    have hjn := h.frame.w.bound k j (by rw [← h.frame.vars]; exact hjv)
    have hH' := hH
    unfold consA at hH ⊢
    rw [P.anti j hjn]
    rw [Bool.and_eq_true] at hH ⊢
    refine ⟨?_, hH.2⟩
    rw [Option.isNone_iff_eq_none] at hH ⊢
    by_contra hd
    obtain ⟨q, b1, b2⟩ := P.dnew j hH.1 hd
    obtain ⟨q', c1, c2⟩ := h.full q ((hmem q).mp b1) j (by rw [h.frame.vars]; exact b2) hH'
    rw [(h.agree.iff k j).mp hj] at c2
    cases c2
    exact hkm c1
  · by_cases hil : i ∈ l
    · have := (h.mks i ((hmem i).mp hil)).2.1
      rw [this] at hd; cases hd
    · rw [P.diffOld i (.inl hi) hil]; exact hd
  · have h1 := P.pot
    have h2 : cnt (hset g Mk) g' ≤ (hset g Mk).card := Finset.card_le_card (Finset.filter_subset _ _)
    have h3 : (hset g Mk).card < Mk.toFinset.card := h.hall hne
    have h4 : Mk.toFinset.card = Mk.length := List.toFinset_card_of_nodup h.nodup
    have h5 := hl.length_eq
    have h6 := P.ne
    omega

end Verif.Dae.Soares
