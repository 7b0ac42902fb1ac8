import Verif.Dae.LemmasGraph
import Verif.Dae.Lemmas
namespace Verif.Dae

/-! ### new equations -/

/-- equations were added, each the derivative of a marked equation without one -/
structure NewEqs (g g' : BG) : Prop where
  ne : g.ne ≤ g'.ne
  nv : g'.nv = g.nv
  v : ∀ j, { g'.v j with eqs := (g.v j).eqs } = g.v j
  old : ∀ i, i < g.ne → { g'.e i with diff := (g.e i).diff } = g.e i
  keep : ∀ i d, i < g.ne → (g.e i).diff = some d → (g'.e i).diff = some d
  new : ∀ d, g.ne ≤ d → d < g'.ne → ∃ i, i < g.ne ∧ (g.e i).colored = true ∧ (g.e i).diff = none ∧ (g'.e i).diff = some d ∧
    (g'.e d).diffOf = some i ∧ (g'.e d).assign = none ∧ (g'.e d).colored = false ∧ (g'.e d).diff = none ∧
    ∀ k, k ∈ (g'.e d).orig ↔ k ∈ (g.e i).orig ∨ ∃ j ∈ (g.e i).orig, (g.v j).deriv = some k
  conv : ∀ i d, i < g.ne → (g.e i).diff = none → (g'.e i).diff = some d → g.ne ≤ d ∧ d < g'.ne ∧ (g'.e d).diffOf = some i
  fresh : ∀ i, g'.ne ≤ i → g'.e i = g.e i

theorem NewEqs.refl (g : BG) : NewEqs g g :=
  ⟨Nat.le_refl _, rfl, fun _ => rfl, fun _ _ => rfl, fun _ _ _ h => h, fun d h1 h2 => by omega,
    (fun i d _ h h' => by rw [h] at h'; cases h'), fun _ _ => rfl⟩

theorem NewEqs.fields {g g' : BG} (h : NewEqs g g') (j : Nat) :
    (g'.v j).colored = (g.v j).colored ∧ (g'.v j).deleted = (g.v j).deleted ∧ (g'.v j).assign = (g.v j).assign ∧
    (g'.v j).deriv = (g.v j).deriv ∧ (g'.v j).anti = (g.v j).anti := by
  have := h.v j
  refine ⟨?_, ?_, ?_, ?_, ?_⟩ <;> (rw [← this])

theorem NewEqs.fieldsE {g g' : BG} (h : NewEqs g g') {i : Nat} (hi : i < g.ne) :
    (g'.e i).colored = (g.e i).colored ∧ (g'.e i).orig = (g.e i).orig ∧ (g'.e i).assign = (g.e i).assign ∧
    (g'.e i).diffOf = (g.e i).diffOf ∧ (g'.e i).vars = (g.e i).vars := by
  have := h.old i hi
  refine ⟨?_, ?_, ?_, ?_, ?_⟩ <;> (rw [← this])

/-- the node of a new equation, before its variables are added -/
def withEq (g : BG) (a : Nat) : BG :=
  { (g.setE a fun n => { n with diff := some g.ne }).setE g.ne (fun _ => { diffOf := some a }) with ne := g.ne + 1 }

theorem withEq_e {g : BG} {a k : Nat} : (withEq g a).e k =
    if k = g.ne then { diffOf := some a } else if k = a then { g.e k with diff := some g.ne } else g.e k := by
  unfold withEq
  show ((g.setE a fun n => { n with diff := some g.ne }).setE g.ne (fun _ => { diffOf := some a })).e k = _
  rw [setE_e, setE_e]

theorem W.withEq {g : BG} (h : W g) {a : Nat} (ha : a < g.ne) : W (withEq g a) := by
  have horig : ∀ k, ((Verif.Dae.withEq g a).e k).orig = (g.e k).orig := by
    intro k; rw [withEq_e]; split
    · rename_i hk; rw [hk]; exact (h.fresh _ (Nat.le_refl _)).symm
    · split <;> rfl
  have hvars : ∀ k, ((Verif.Dae.withEq g a).e k).vars = (g.e k).vars := by
    intro k; rw [withEq_e]; split
    · rename_i hk; rw [hk, h.vars, h.fresh _ (Nat.le_refl _)]; rfl
    · split <;> rfl
  refine ⟨fun i => by rw [horig]; exact h.nodup i, fun i => by rw [horig, hvars]; exact h.vars i,
    fun i j => by rw [hvars]; exact h.eqs i j, fun i j hj => by rw [horig] at hj; exact h.bound i j hj,
    fun i hi => by rw [horig]; exact h.fresh i (Nat.le_of_succ_le hi), h.link, h.unlink, h.param, h.deleted⟩

theorem derivMarkedE_fold {g : BG} : ∀ (l : List Nat) (g1 : BG), W g1 → NewEqs g g1 → l.Nodup → (∀ i ∈ l, i < g.ne) →
    (∀ i ∈ l, (g.e i).colored = true → (g1.e i).diff = none ∧ ∀ j ∈ (g.e i).orig, ∃ dj, (g.v j).deriv = some dj) →
    let g' := l.foldl (fun g i => if (g.e i).colored then g.derivE true i else g) g1
    W g' ∧ NewEqs g g' ∧ (∀ i, i < g.ne → (g1.e i).diff ≠ none → (g'.e i).diff ≠ none) ∧
      ∀ i ∈ l, (g.e i).colored = true → (g'.e i).diff ≠ none := by
  intro l
  induction l with
  | nil => intro g1 hW hN _ _ _; exact ⟨hW, hN, fun _ _ h => h, fun j hj => (by cases hj)⟩
  | cons a l ih =>
    intro g1 hW hN hnd hlt hnone
    rw [List.nodup_cons] at hnd
    simp only [List.foldl_cons]
    have ha := hlt a List.mem_cons_self
    have hcol : (g1.e a).colored = (g.e a).colored := (hN.fieldsE ha).1
    by_cases hc : (g1.e a).colored = true
    · rw [if_pos hc]
      rw [hcol] at hc
      obtain ⟨hd1, hder⟩ := hnone a List.mem_cons_self hc
      have hd0 : (g.e a).diff = none := by
        cases h : (g.e a).diff with
        | none => rfl
        | some d => rw [hN.keep a d ha h] at hd1; cases hd1
      have ha1 : a < g1.ne := Nat.lt_of_lt_of_le ha hN.ne
      have hWe := hW.withEq ha1
      have hstep : g1.derivE true a = (g1.e a).orig.foldl (BG.dirtyVar true g1.ne) (withEq g1 a) := by
        unfold BG.derivE; rw [hd1]; rfl
      obtain ⟨r1, r2, r3⟩ := dirty_fold (d := g1.ne) (g1.e a).orig (withEq g1 a) hWe (Nat.lt_succ_self _) (by
        intro j hj
        rw [(hN.fieldsE ha).2.1] at hj
        obtain ⟨dj, h⟩ := hder j hj
        exact ⟨dj, by show (g1.v j).deriv = _; rw [(hN.fields j).2.2.2.1]; exact h⟩)
      rw [← hstep] at r1 r2 r3
      have hne : (g1.derivE true a).ne = g1.ne + 1 := r2.ne
      have heo : ∀ k, k ≠ g1.ne → (g1.derivE true a).e k = if k = a then { g1.e k with diff := some g1.ne } else g1.e k := by
        intro k hk; rw [r2.e k hk, withEq_e, if_neg hk]
      have hdo : ∀ k, ((g1.derivE true a).e k).diff = if k = g1.ne then none else if k = a then some g1.ne else (g1.e k).diff := by
        intro k
        rw [(r2.fieldsE k).2.2.1, withEq_e]
        split
        · rfl
        · split <;> rfl
      have hN2 : NewEqs g (g1.derivE true a) := by
        refine ⟨by rw [hne]; have := hN.ne; omega, by rw [r2.nv]; exact hN.nv, ?_, ?_, ?_, ?_, ?_, ?_⟩
        · intro j
          have e1 := r2.v j
          have e2 := hN.v j
          rw [← e2]
          change { (g1.derivE true a).v j with eqs := (g1.v j).eqs } = g1.v j at e1
          rw [← e1]
        · intro i hi
          have := hN.ne
          rw [heo i (by omega)]
          have e2 := hN.old i hi
          split
          · rw [← e2]
          · exact e2
        · intro i d hi h
          have h1 := hN.keep i d hi h
          have hia : i ≠ a := by rintro rfl; rw [hd1] at h1; cases h1
          have := hN.ne
          rw [hdo, if_neg (by omega), if_neg hia]
          exact h1
        · intro d h1 h2
          rw [hne] at h2
          by_cases hd : d = g1.ne
          · subst hd
            refine ⟨a, ha, hc, hd0, ?_, ?_, ?_, ?_, ?_, ?_⟩
            · rw [hdo, if_neg (by omega), if_pos rfl]
            · rw [(r2.fieldsE _).2.2.2, withEq_e, if_pos rfl]
            · rw [(r2.fieldsE _).2.1, withEq_e, if_pos rfl]
            · rw [(r2.fieldsE _).1, withEq_e, if_pos rfl]
            · rw [hdo, if_pos rfl]
            · intro k
              rw [r3, withEq_e, if_pos rfl, (hN.fieldsE ha).2.1]
              have : ∀ j, ((withEq g1 a).v j).deriv = (g.v j).deriv := fun j => (hN.fields j).2.2.2.1
              simp only [this, List.not_mem_nil, false_or]
          · obtain ⟨i, b1, b2, b3, b4, b5, b6, b7, b8, b9⟩ := hN.new d h1 (by omega)
            have hia : i ≠ a := by rintro rfl; rw [hd1] at b4; cases b4
            have hda : d ≠ a := by omega
            refine ⟨i, b1, b2, b3, ?_, ?_⟩
            · have := hN.ne
              rw [hdo, if_neg (by omega), if_neg hia]; exact b4
            · rw [heo d hd, if_neg hda]
              exact ⟨b5, b6, b7, b8, b9⟩
        · intro i d hi h0 h
          have := hN.ne
          rw [hdo, if_neg (by omega)] at h
          rw [hne]
          split at h
          · rename_i hia
            cases h
            refine ⟨hN.ne, by omega, ?_⟩
            rw [(r2.fieldsE _).2.2.2, withEq_e, if_pos rfl, hia]
          · obtain ⟨c1, c2, c3⟩ := hN.conv i d hi h0 h
            refine ⟨c1, by omega, ?_⟩
            rw [heo d (by omega), if_neg (by omega)]
            exact c3
        · intro i hi
          rw [hne] at hi
          rw [heo i (by omega), if_neg (by omega)]
          exact hN.fresh i (by omega)
      obtain ⟨s1, s2, s3, s4⟩ := ih (g1.derivE true a) r1 hN2 hnd.2 (fun j hj => hlt j (List.mem_cons_of_mem _ hj))
        (by
          intro i hi h1
          have hia : i ≠ a := by rintro rfl; exact hnd.1 hi
          have := hlt i (List.mem_cons_of_mem _ hi)
          have := hN.ne
          rw [hdo, if_neg (by omega), if_neg hia]
          exact hnone i (List.mem_cons_of_mem _ hi) h1)
      refine ⟨s1, s2, ?_, ?_⟩
      · intro i hi h
        refine s3 i hi ?_
        have := hN.ne
        rw [hdo, if_neg (by omega)]
        split
        · simp
        · exact h
      · intro i hi h1
        rcases List.mem_cons.mp hi with rfl | hi
        · refine s3 i ha ?_
          rw [hdo, if_neg (by omega), if_pos rfl]
          simp
        · exact s4 i hi h1
    · rw [if_neg hc]
      obtain ⟨s1, s2, s3, s4⟩ := ih g1 hW hN hnd.2 (fun j hj => hlt j (List.mem_cons_of_mem _ hj))
        (fun i hi => hnone i (List.mem_cons_of_mem _ hi))
      refine ⟨s1, s2, s3, ?_⟩
      intro i hi h1
      rcases List.mem_cons.mp hi with rfl | hi
      · exfalso; rw [hcol] at hc; exact hc h1
      · exact s4 i hi h1

/-- the derivatives of the marked equations, none of which has one, when all of their variables have one -/
theorem derivMarkedE_ok {g : BG} (h : W g) (hn : ∀ i, i < g.ne → (g.e i).colored = true →
      (g.e i).diff = none ∧ ∀ j ∈ (g.e i).orig, ∃ dj, (g.v j).deriv = some dj) :
    W (derivMarkedE g) ∧ NewEqs g (derivMarkedE g) ∧
      ∀ i, i < g.ne → (g.e i).colored = true → ((derivMarkedE g).e i).diff ≠ none := by
  obtain ⟨h1, h2, _, h4⟩ := derivMarkedE_fold (g := g) (List.range g.ne) g h (NewEqs.refl g) List.nodup_range
    (fun j hj => List.mem_range.mp hj) (fun j hj => hn j (List.mem_range.mp hj))
  exact ⟨h1, h2, fun i hi => h4 i (List.mem_range.mpr hi)⟩

/-! ### assignment of the new variables -/

/-- derivatives of marked variables were assigned to derivatives of their equations -/
structure NewAssign (g g' : BG) : Prop where
  same : Same g g'
  agree : Mut g'
  keep : ∀ k j, (g.e k).assign = some j → (g'.e k).assign = some j
  cv : ∀ j, (g'.v j).colored = (g.v j).colored
  ce : ∀ j, (g'.e j).colored = (g.e j).colored
  new : ∀ k j, (g'.e k).assign = some j → (g.e k).assign = some j ∨
    ∃ a c, (g.v a).colored = true ∧ (g.v a).deriv = some j ∧ (g.v a).assign = some c ∧ (g.e c).diff = some k

theorem assignNew_fold {g : BG} (hW : W g) (hm : Mut g)
    (hinj : ∀ c c' d, (g.e c).diff = some d → (g.e c').diff = some d → c < g.ne → c' < g.ne → c = c')
    (hr : ∀ j, (g.v j).colored = true → ∃ dj k dk, (g.v j).deriv = some dj ∧ (g.v j).assign = some k ∧ (g.e k).diff = some dk ∧
      (g.v dj).assign = none ∧ (g.e dk).assign = none ∧ (g.v j).deleted = false ∧ dk < g.ne) :
    ∀ (l : List Nat) (g1 : BG), l.Nodup → NewAssign g g1 →
    (∀ j ∈ l, (g.v j).colored = true → ∀ dj k dk, (g.v j).deriv = some dj → (g.v j).assign = some k → (g.e k).diff = some dk →
      (g1.v dj).assign = none ∧ (g1.e dk).assign = none) →
    ∃ g', l.foldlM (fun g j =>
        if (g.v j).colored && !(g.v j).deleted then
          match (g.v j).deriv, (g.v j).assign with
          | some dj, some k =>
            match (g.e k).diff with
            | some dk => Except.ok (g.setAssign dj dk)
            | none => .error Err.ub
          | _, _ => .error .ub
        else .ok g) g1 = .ok g' ∧ NewAssign g g' ∧
      (∀ k j, (g1.e k).assign = some j → (g'.e k).assign = some j) ∧
      ∀ j ∈ l, (g.v j).colored = true → ∀ dj k dk, (g.v j).deriv = some dj → (g.v j).assign = some k → (g.e k).diff = some dk →
        (g'.e dk).assign = some dj := by
  intro l
  induction l with
  | nil => intro g1 _ hN _; exact ⟨g1, rfl, hN, fun _ _ h => h, fun j hj => (by cases hj)⟩
  | cons a l ih =>
    intro g1 hnd hN hfree
    rw [List.nodup_cons] at hnd
    simp only [List.foldlM_cons, bind, Except.bind]
    by_cases hc : (g.v a).colored = true
    · obtain ⟨dj, k, dk, r1, r2, r3, _, _, r6, r7⟩ := hr a hc
      have hka : (g1.v a).assign = some k := by
        rw [← hN.agree.iff]; exact hN.keep k a ((hm.iff k a).mpr r2)
      rw [hN.cv, hc, hN.same.deleted, r6, hN.same.deriv, r1, hka]
      simp only [Bool.not_false, Bool.and_true, if_true]
      rw [hN.same.diff, r3]
      simp only
      obtain ⟨f1, f2⟩ := hfree a List.mem_cons_self hc dj k dk r1 r2 r3
      have hav : ∀ x, ((g1.setAssign dj dk).v x).assign = if x = dj then some dk else (g1.v x).assign := by
        intro x; rw [setAssign_v]; split <;> rfl
      have hae : ∀ x, ((g1.setAssign dj dk).e x).assign = if x = dk then some dj else (g1.e x).assign := by
        intro x; rw [setAssign_e]; split <;> rfl
      have hN2 : NewAssign g (g1.setAssign dj dk) := by
        refine ⟨hN.same.trans (same_setAssign g1 dj dk), ⟨?_, ?_⟩, ?_, ?_, ?_, ?_⟩
        · intro x y
          rw [hav, hae]
          by_cases hx : x = dk
          · subst hx
            rw [if_pos rfl]
            by_cases hy : y = dj
            · subst hy; simp
            · rw [if_neg hy]
              constructor
              · intro h; cases h; exact absurd rfl hy
              · intro h; rw [(hN.agree.iff _ _).mpr h] at f2; cases f2
          · rw [if_neg hx]
            by_cases hy : y = dj
            · subst hy
              rw [if_pos rfl]
              constructor
              · intro h; rw [(hN.agree.iff _ _).mp h] at f1; cases f1
              · intro h; cases h; exact absurd rfl hx
            · rw [if_neg hy]; exact hN.agree.iff x y
        · intro y x h
          rw [hav] at h
          split at h
          · cases h; show dk < g1.ne; rw [hN.same.ne]; exact r7
          · exact hN.agree.lt y x h
        · intro x y h
          have := hN.keep x y h
          rw [hae, if_neg (by rintro rfl; rw [f2] at this; cases this)]
          exact this
        · intro j; rw [setAssign_v]; split
          · exact hN.cv j
          · exact hN.cv j
        · intro j; rw [setAssign_e]; split
          · exact hN.ce j
          · exact hN.ce j
        · intro x y h
          rw [hae] at h
          split at h
          · rename_i hx
            cases h
            exact .inr ⟨a, k, hc, r1, r2, by rw [hx]; exact r3⟩
          · exact hN.new x y h
      obtain ⟨g', s1, s2, s3, s4⟩ := ih (g1.setAssign dj dk) hnd.2 hN2 (by
        intro j hj hcj dj' k' dk' q1 q2 q3
        obtain ⟨p1, p2⟩ := hfree j (List.mem_cons_of_mem _ hj) hcj dj' k' dk' q1 q2 q3
        have hja : j ≠ a := by rintro rfl; exact hnd.1 hj
        rw [hav, hae, if_neg, if_neg]
        · exact ⟨p1, p2⟩
        · rintro rfl
          have := hinj _ _ _ r3 q3 (hm.lt _ _ r2) (hm.lt _ _ q2)
          subst this
          have e1 := (hm.iff k a).mpr r2
          rw [(hm.iff k j).mpr q2] at e1
          exact hja (Option.some.inj e1)
        · rintro rfl
          have e1 := (hW.link a _ r1).2.2
          rw [(hW.link j _ q1).2.2] at e1
          exact hja (Option.some.inj e1))
      refine ⟨g', s1, s2, ?_, ?_⟩
      · intro x y h
        refine s3 x y ?_
        rw [hae, if_neg (by rintro rfl; rw [f2] at h; cases h)]
        exact h
      · intro j hj hcj dj' k' dk' q1 q2 q3
        rcases List.mem_cons.mp hj with rfl | hj
        · rw [r1] at q1; cases q1
          rw [r2] at q2; cases q2
          rw [r3] at q3; cases q3
          exact s3 _ _ (by rw [hae, if_pos rfl])
        · exact s4 j hj hcj dj' k' dk' q1 q2 q3
    · have hc' : (g1.v a).colored = false := by rw [hN.cv]; simpa using hc
      rw [hc']
      simp only [Bool.false_and, Bool.false_eq_true, if_false]
      obtain ⟨g', s1, s2, s3, s4⟩ := ih g1 hnd.2 hN (fun j hj => hfree j (List.mem_cons_of_mem _ hj))
      refine ⟨g', s1, s2, s3, ?_⟩
      intro j hj hcj
      rcases List.mem_cons.mp hj with rfl | hj
      · exact absurd hcj hc
      · exact s4 j hj hcj

theorem assignNew_ok {g : BG} (hW : W g) (hm : Mut g)
    (hinj : ∀ c c' d, (g.e c).diff = some d → (g.e c').diff = some d → c < g.ne → c' < g.ne → c = c')
    (hr : ∀ j, (g.v j).colored = true → ∃ dj k dk, (g.v j).deriv = some dj ∧ (g.v j).assign = some k ∧ (g.e k).diff = some dk ∧
      (g.v dj).assign = none ∧ (g.e dk).assign = none ∧ (g.v j).deleted = false ∧ dk < g.ne) :
    ∃ g', assignNew g = .ok g' ∧ NewAssign g g' ∧
      ∀ j, (g.v j).colored = true → ∀ dj k dk, (g.v j).deriv = some dj → (g.v j).assign = some k → (g.e k).diff = some dk →
        (g'.e dk).assign = some dj := by
  obtain ⟨g', h1, h2, _, h4⟩ := assignNew_fold hW hm hinj hr (List.range g.nv) g List.nodup_range
    ⟨Same.refl g, hm, fun _ _ h => h, fun _ => rfl, fun _ => rfl, fun _ _ h => .inl h⟩ (by
      intro j _ hc dj k dk q1 q2 q3
      obtain ⟨dj', k', dk', r1, r2, r3, r4, r5, _⟩ := hr j hc
      rw [r1] at q1; cases q1
      rw [r2] at q2; cases q2
      rw [r3] at q3; cases q3
      exact ⟨r4, r5⟩)
  refine ⟨g', h1, h2, fun j hc dj k dk q1 => ?_⟩
  exact h4 j (List.mem_range.mpr (hW.link j dj q1).1) hc dj k dk q1

end Verif.Dae
