import Verif.Dae.LemmasRegular
namespace Verif.Dae

/-- an equation with a variable which has no derivative -/
def HasTop (g : BG) (i : Nat) : Prop := ∃ j ∈ (g.e i).orig, (g.v j).deriv = none

theorem Step.hasTop {m : Nat} {Q : Nat → Prop} {g g3 : BG} {i d : Nat} (hs : Stuck m Q g i) (h : Step m Q g i g3 d)
    (ht : HasTop g i) : HasTop g3 d := by
  obtain ⟨j, hj, hd⟩ := ht
  have hi := hs.lt i hs.self
  have hi3 := Nat.lt_of_lt_of_le hi h.ext.ne
  have hj3 : j ∈ (g3.e i).orig := by rw [h.ext.orig i hi]; exact hj
  obtain ⟨_, _, l3, _⟩ := h.inv.links.link i d hi3 h.diff
  obtain ⟨_, dj, h1, h2⟩ := l3 j hj3
  obtain ⟨_, h3, h4⟩ := h.inv.w.link j dj h1
  refine ⟨dj, h2, ?_⟩
  by_cases hlt : dj < g.nv
  · rw [h.ext.anti dj hlt] at h4
    rw [hs.inv.w.unlink j dj hlt h4] at hd
    cases hd
  · exact (h.newV dj (Nat.le_of_not_lt hlt) h3).1

theorem hasTop_pruned {g g' : BG} (h : Pruned g g') {i : Nat} (ht : HasTop g i) : HasTop g' i := by
  obtain ⟨j, h1, h2⟩ := ht
  exact ⟨j, by rw [h.orig]; exact h1, by rw [h.deriv]; exact h2⟩

theorem hasTop_same {g g' : BG} (h : Same g g') {i : Nat} (ht : HasTop g i) : HasTop g' i := by
  obtain ⟨j, h1, h2⟩ := ht
  exact ⟨j, by rw [h.orig]; exact h1, by rw [h.deriv]; exact h2⟩

theorem Stuck.vars_ne {m : Nat} {Q : Nat → Prop} {g : BG} {i : Nat} (hs : Stuck m Q g i) (ht : HasTop g i) :
    (g.e i).vars ≠ [] := by
  obtain ⟨j, h1, h2⟩ := ht
  have : j ∈ (g.e i).vars := by
    rw [hs.inv.w.vars, List.mem_filter]
    refine ⟨h1, ?_⟩
    cases hd : (g.v j).deleted with
    | false => rfl
    | true => exact absurd h2 ((hs.del j).mp hd)
  intro h
  rw [h] at this
  cases this

theorem pend_next {P : Nat → Prop} {i d : Nat} (hi : ¬ P i) :
    (fun k => (P k ∨ k = i) ∧ k ≠ i ∨ k = d) = fun k => P k ∨ k = d := by
  funext k
  apply propext
  constructor
  · rintro (⟨h | h, h'⟩ | h)
    · exact .inl h
    · exact absurd h h'
    · exact .inr h
  · rintro (h | h)
    · exact .inl ⟨.inl h, by rintro rfl; exact hi h⟩
    · exact .inr h

/-- no exception while the current equation has a variable without derivative -/
theorem assignEquation_no_exception {m : Nat} {P : Nat → Prop} (hPm : ∀ k, P k → k < m) : ∀ (fuel i : Nat) (g : BG),
    PInv m (fun k => P k ∨ k = i) g → ¬ P i → HasTop g i → assignEquation fuel i g ≠ .error .exception := by
  intro fuel
  induction fuel with
  | zero => intro i g _ _ _ h; cases h
  | succ fuel ih =>
    intro i g hP hi ht
    rw [assignEquation]
    rcases attempt hP hi with ⟨g', e, _⟩ | ⟨g', e, h1, _, hp, hs⟩
    · rw [e]; intro h; cases h
    · rw [e]
      simp only
      have ht' := hasTop_same hs (hasTop_pruned hp ht)
      rcases differentiate_ok h1 with ⟨_, e1⟩ | ⟨g3, d, e1, S⟩
      · exact absurd e1 (h1.vars_ne ht')
      · rw [e1]
        simp only
        have hpd : ¬ P d := by
          intro hpd
          have := hPm d hpd
          have h3 := h1.inv.links.le
          have := S.new
          omega
        have hQ : PInv m (fun k => P k ∨ k = d) g3 := by
          rw [← pend_next hi]; exact S.inv
        exact ih d g3 hQ hpd (S.hasTop h1 ht')

/-- equations which are done have variables in distinct families -/
theorem done_roots {m : Nat} {Q : Nat → Prop} {g : BG} (hP : PInv m Q g) (hQ : ∀ k, Q k → k < m) :
    ∃ f : Nat → Nat, (∀ i, i < m → ¬ Q i → f i ∈ (g.e i).orig) ∧
      ∀ i i', i < m → i' < m → ¬ Q i → ¬ Q i' → f i = f i' → i = i' := by
  have : ∀ i, ∃ x n k s j, i < m → ¬ Q i → x ∈ (g.e i).orig ∧ up (dE g) n i = some k ∧ (g.e k).assign = some j ∧
      (g.v j).deriv = none ∧ up (dV g) s x = some j := by
    intro i
    by_cases hi : i < m ∧ ¬ Q i
    · have hi' := Nat.lt_of_lt_of_le hi.1 hP.links.le
      obtain ⟨n, k, h1, h2, h3⟩ := hP.links.tops i hi'
      have hk : ¬ Q k := by
        cases n with
        | zero => cases h1; exact hi.2
        | succ n =>
          intro hq
          have hkm := hQ k hq
          simp only [up, Option.bind_eq_some_iff] at h1
          obtain ⟨b, e1, e2⟩ := h1
          have := (hP.links.link b k (hP.links.derivatives hi' n b e1).1 e2).2.1
          rw [(hP.links.first k h3).mpr hkm] at this
          cases this
      obtain ⟨j, h4, h5⟩ := hP.top k h3 h2 hk
      obtain ⟨x, h6, s, h7⟩ := hP.links.origins hi' n k h1 j (hP.inc k j h4)
      exact ⟨x, n, k, s, j, fun _ _ => ⟨h6, h1, h4, h5, h7⟩⟩
    · exact ⟨0, 0, 0, 0, 0, fun x y => absurd ⟨x, y⟩ hi⟩
  choose f n k s j hf using this
  refine ⟨f, fun i hi hq => (hf i hi hq).1, fun i i' hi hi' hq hq' he => ?_⟩
  obtain ⟨a1, a2, a3, a4, a5⟩ := hf i hi hq
  obtain ⟨b1, b2, b3, b4, b5⟩ := hf i' hi' hq'
  rw [← he] at b5
  have := (up_end_eq a5 a4 b5 b4).2
  rw [this] at b3
  have e2 := (hP.agree.iff _ _).mp a3
  rw [(hP.agree.iff _ _).mp b3] at e2
  have hk : k i' = k i := Option.some.inj e2
  rw [hk] at b2
  exact hP.links.base_unique hi hi' _ _ _ a2 b2

/-- a failed attempt in a system without derivatives: the equations never get assigned -/
theorem stuck_forever {m a : Nat} {g g' : BG} (hs : Stuck m (fun k => a ≤ k ∧ k < m) g a) (hne : g.ne = m)
    (hnd : ∀ j, (g.v j).deriv = none) (hP : PInv m (fun k => a + 1 ≤ k ∧ k < m) g') (hE : Ext g g') : False := by
  obtain ⟨f, h1, h2⟩ := done_roots hP (fun k h => h.2)
  have hlt : ∀ k, (g.e k).colored = true → k < m ∧ k ≤ a := by
    intro k hk
    have hkm : k < m := by rw [← hne]; exact hs.lt k hk
    refine ⟨hkm, ?_⟩
    by_contra hka
    exact hs.others k hk (by omega) (hs.inv.pend k ⟨by omega, hkm⟩).2.1
  have hin : ∀ k, (g.e k).colored = true → ∃ k', (g.e k').colored = true ∧ (g.e k').assign = some (f k) := by
    intro k hk
    obtain ⟨hkm, hka⟩ := hlt k hk
    have := h1 k hkm (by omega)
    rw [hE.orig k (by rw [hne]; exact hkm)] at this
    apply hs.back
    apply hs.vars k hk
    rw [hs.inv.w.vars, List.mem_filter]
    refine ⟨this, ?_⟩
    cases hd : (g.v (f k)).deleted with
    | false => rfl
    | true => exact absurd (hnd _) ((hs.del _).mp hd)
  have : ∀ k, ∃ k', (g.e k).colored = true → (g.e k').colored = true ∧ (g.e k').assign = some (f k) := by
    intro k
    by_cases hk : (g.e k).colored = true
    · obtain ⟨k', h⟩ := hin k hk
      exact ⟨k', fun _ => h⟩
    · exact ⟨0, fun h => absurd h hk⟩
  choose F hF using this
  have hcard : ((Finset.range m).filter fun k => (g.e k).colored = true).card ≤
      (((Finset.range m).filter fun k => (g.e k).colored = true).erase a).card := by
    apply Finset.card_le_card_of_injOn F
    · intro k hk
      have hk' := (Finset.mem_filter.mp hk).2
      obtain ⟨q1, q2⟩ := hF k hk'
      refine Finset.mem_erase.mpr ⟨?_, Finset.mem_filter.mpr ⟨Finset.mem_range.mpr (hlt _ q1).1, q1⟩⟩
      intro h
      rw [h, (hs.inv.pend a hs.cur).2.1] at q2
      cases q2
    · intro k hk k' hk' he
      have r1 := (Finset.mem_filter.mp hk).2
      have r2 := (Finset.mem_filter.mp hk').2
      obtain ⟨k1, k2⟩ := hlt k r1
      obtain ⟨k3, k4⟩ := hlt k' r2
      have e1 := (hF k r1).2
      rw [he, (hF k' r2).2] at e1
      exact h2 k k' k1 k3 (by omega) (by omega) (Option.some.inj e1).symm
  have ha : a ∈ (Finset.range m).filter fun k => (g.e k).colored = true :=
    Finset.mem_filter.mpr ⟨Finset.mem_range.mpr hs.cur.2, hs.self⟩
  rw [Finset.card_erase_of_mem ha] at hcard
  have := Finset.card_pos.mpr ⟨a, ha⟩
  omega

/-- the loop on a system without derivatives: it ends without differentiating anything, or never -/
theorem algebraic_detect {fuel m : Nat} : ∀ (n a : Nat) (g : BG), a + n = m → PInv m (fun k => a ≤ k ∧ k < m) g →
    g.ne = m → (∀ j, (g.v j).deriv = none) → (∀ i, i < m → (g.e i).orig ≠ []) →
    (List.range' a n).foldlM (fun g k => assignEquation fuel k g) g = .error .running ∨
    ∃ g', (List.range' a n).foldlM (fun g k => assignEquation fuel k g) g = .ok g' := by
  intro n
  induction n with
  | zero => intro a g _ _ _ _ _; exact .inr ⟨g, rfl⟩
  | succ n ih =>
    intro a g ha hP hne hnd hin
    rw [List.range'_succ, List.foldlM_cons]
    simp only [bind, Except.bind]
    have hfun : (fun k => (a + 1 ≤ k ∧ k < m) ∨ k = a) = fun k => a ≤ k ∧ k < m := by
      funext k; apply propext; constructor
      · rintro (⟨h1, h2⟩ | h1) <;> omega
      · rintro ⟨h1, h2⟩; omega
    have hP' : PInv m (fun k => (a + 1 ≤ k ∧ k < m) ∨ k = a) g := by rw [hfun]; exact hP
    have hnP : ¬ (a + 1 ≤ a ∧ a < m) := by omega
    cases fuel with
    | zero => exact .inl rfl
    | succ fuel =>
      rcases attempt (P := fun k => a + 1 ≤ k ∧ k < m) hP' hnP with ⟨g', e, h1, h2, hp, hs⟩ | ⟨g', e, h1, h2, hp, hs⟩
      · have : assignEquation (fuel + 1) a g = .ok g' := by rw [assignEquation, e]
        rw [this]
        simp only
        refine ih (a + 1) g' (by omega) h1 (by rw [hs.ne, hp.ne, hne]) (fun j => by rw [hs.deriv, hp.deriv]; exact hnd j)
          (fun i hi => by rw [hs.orig, hp.orig]; exact hin i hi)
      · have htop : HasTop g a := by
          obtain ⟨j, hj⟩ := List.exists_mem_of_ne_nil _ (hin a (by omega))
          exact ⟨j, hj, hnd j⟩
        have hno := assignEquation_no_exception (P := fun k => a + 1 ≤ k ∧ k < m) (fun k h => h.2) (fuel + 1) a g hP' hnP htop
        rcases assignEquation_ok (P := fun k => a + 1 ≤ k ∧ k < m) (fun k h => h.2) (fuel + 1) a g hP' hnP with r | r | ⟨g4, r, r1, r2⟩
        · rw [r]; exact .inl rfl
        · exact absurd r hno
        · exfalso
          -- the attempt failed, yet the equation got assigned
          rw [assignEquation, e] at r
          simp only at r
          rcases differentiate_ok h1 with ⟨e1, _⟩ | ⟨g3, d, e1, S⟩
          · rw [e1] at r; cases r
          · rw [e1] at r
            simp only at r
            have hpd : ¬ (a + 1 ≤ d ∧ d < m) := by
              have := S.new
              rw [hs.ne, hp.ne, hne] at this
              omega
            have hQ : PInv m (fun k => (a + 1 ≤ k ∧ k < m) ∨ k = d) g3 := by
              rw [← pend_next hnP]; exact S.inv
            rcases assignEquation_ok (P := fun k => a + 1 ≤ k ∧ k < m) (fun k h => h.2) fuel d g3 hQ hpd with q | q | ⟨g5, q, q1, q2⟩
            · rw [q] at r; cases r
            · rw [q] at r; cases r
            · rw [hfun] at h1
              exact stuck_forever h1 (by rw [hs.ne, hp.ne, hne]) (fun j => by rw [hs.deriv, hp.deriv]; exact hnd j) q1
                (S.ext.trans q2)

end Verif.Dae
