import Verif.Dae.ModelSoares
import Verif.Dae.LemmasHall
import Verif.Dae.LemmasGraph
namespace Verif.Dae.Soares

/-- equations reached from `S` are in `S` -/
def Closed (cons : VN → Bool) (S : Nat → Prop) (g : BG) : Prop :=
  ∀ k, S k → ∀ j ∈ (g.e k).vars, cons (g.v j) = true → ∀ k', (g.v j).assign = some k' → S k'

/-- what a search within `S` does -/
structure Stay (cons : VN → Bool) (mark : Bool) (S : Nat → Prop) (g : BG) (b : Bool) (g' : BG) : Prop where
  same : Same g g'
  av : b = false → ∀ j, (g'.v j).assign = (g.v j).assign
  out : ∀ k, ¬ S k → g'.e k = g.e k
  cv : mark = false → ∀ j, (g'.v j).colored = (g.v j).colored

theorem Stay.refl (cons : VN → Bool) (mark : Bool) (S : Nat → Prop) (g : BG) (b : Bool) : Stay cons mark S g b g :=
  ⟨Same.refl g, fun _ _ => rfl, fun _ _ => rfl, fun _ _ => rfl⟩

theorem Stay.trans {cons : VN → Bool} {mark b : Bool} {S : Nat → Prop} {g g1 g2 : BG} (h : Stay cons mark S g false g1)
    (h' : Stay cons mark S g1 b g2) : Stay cons mark S g b g2 :=
  ⟨h.same.trans h'.same, fun hb j => (h'.av hb j).trans (h.av rfl j), fun k hk => (h'.out k hk).trans (h.out k hk),
    fun hm j => (h'.cv hm j).trans (h.cv hm j)⟩

theorem Closed.stay {cons : VN → Bool} (hst : Static cons) {mark : Bool} {S : Nat → Prop} {g g1 : BG} (h : Closed cons S g)
    (hs : Stay cons mark S g false g1) : Closed cons S g1 := by
  intro k hk j hj hc k' ha
  rw [hs.same.vars] at hj
  rw [hs.same.cons hst] at hc
  rw [hs.av rfl] at ha
  exact h k hk j hj hc k' ha

theorem stay_color {cons : VN → Bool} {mark b : Bool} {S : Nat → Prop} {g : BG} {j : Nat} :
    Stay cons mark S g b (if mark then g.colorV j else g) := by
  cases mark with
  | false => exact Stay.refl _ _ _ _ _
  | true =>
    refine ⟨same_colorV g j, fun _ k => ?_, fun _ _ => rfl, fun h => by cases h⟩
    simp only [if_true, colorV_v]; split <;> rfl

theorem tryG_stay {cons : VN → Bool} (hst : Static cons) {mark : Bool} {S : Nat → Prop} {rec : Nat → BG → Except Err (Bool × BG)}
    (hrec : ∀ i g b g', Closed cons S g → S i → rec i g = .ok (b, g') → Stay cons mark S g b g') {i : Nat} (hi : S i) :
    ∀ (js : List Nat) (g : BG) (b : Bool) (g' : BG), Closed cons S g → (∀ j ∈ js, j ∈ (g.e i).vars) →
      tryG cons mark rec i js g = .ok (b, g') → Stay cons mark S g b g' := by
  intro js
  induction js with
  | nil =>
    intro g b g' _ _ h
    simp only [tryG, Except.ok.injEq, Prod.mk.injEq] at h
    obtain ⟨rfl, rfl⟩ := h
    exact Stay.refl _ _ _ _ _
  | cons j js ih =>
    intro g b g' hcl hin h
    unfold tryG at h
    have cont : ∀ g1, Stay cons mark S g false g1 → tryG cons mark rec i js g1 = .ok (b, g') → Stay cons mark S g b g' := by
      intro g1 h1 h2
      exact h1.trans (ih g1 b g' (hcl.stay hst h1) (fun j' hj' => by
        rw [h1.same.vars]; exact hin j' (List.mem_cons_of_mem _ hj')) h2)
    split at h
    · exact cont g (Stay.refl _ _ _ _ _) h
    · rename_i hc
      have hcons : cons (g.v j) = true := by
        cases hx : cons (g.v j) with
        | true => rfl
        | false => rw [hx] at hc; simp at hc
      simp only at h
      have hsc : Stay cons mark S g false (if mark then g.colorV j else g) := stay_color
      generalize (if mark then g.colorV j else g) = gc at h hsc
      split at h
      · cases h
      · rename_i k hk
        have hSk : S k := hcl i hi j (hin j List.mem_cons_self) hcons k hk
        split at h
        · exact cont _ hsc h
        · split at h
          · cases h
          · rename_i g2 hr
            simp only [Except.ok.injEq, Prod.mk.injEq] at h
            obtain ⟨rfl, rfl⟩ := h
            have h2 := hsc.trans (hrec k _ true g2 (hcl.stay hst hsc) hSk hr)
            refine ⟨h2.same.trans (same_setAssign _ _ _), nofun, fun q hq => ?_, fun hm q => ?_⟩
            · rw [setAssign_e, if_neg (by rintro rfl; exact hq hi)]; exact h2.out q hq
            · rw [setAssign_v]; split <;> exact h2.cv hm q
          · rename_i g2 hr
            exact cont g2 (hsc.trans (hrec k _ false g2 (hcl.stay hst hsc) hSk hr)) h

theorem augG_stay {pick : BG → List Nat → Option Nat} {cons : VN → Bool} (hst : Static cons) {mark : Bool} {S : Nat → Prop} :
    ∀ (fuel i : Nat) (g : BG) (b : Bool) (g' : BG), Closed cons S g → S i → augG pick cons mark fuel i g = .ok (b, g') →
      Stay cons mark S g b g' := by
  intro fuel
  induction fuel with
  | zero => intro i g b g' _ _ h; cases h
  | succ fuel ih =>
    intro i g b g' hcl hi h
    unfold augG at h
    simp only at h
    have hsc : Stay cons mark S g false (g.colorE i) := by
      refine ⟨same_colorE g i, fun _ _ => rfl, fun k hk => ?_, fun _ _ => rfl⟩
      rw [colorE_e, if_neg (by rintro rfl; exact hk hi)]
    split at h
    · simp only [Except.ok.injEq, Prod.mk.injEq] at h
      obtain ⟨rfl, rfl⟩ := h
      refine ⟨hsc.same.trans (same_setAssign _ _ _), nofun, fun q hq => ?_, fun hm q => ?_⟩
      · rw [setAssign_e, if_neg (by rintro rfl; exact hq hi)]; exact hsc.out q hq
      · rw [setAssign_v]; split <;> exact hsc.cv hm q
    · exact hsc.trans (tryG_stay hst (fun i g b g' => ih i g b g') hi _ _ _ _ (hcl.stay hst hsc) (fun _ x => x) h)

/-! ### equations in which nothing is free -/

/-- all variables of `M` are assigned to equations of `M` -/
def Full (cons : VN → Bool) (M : Nat → Prop) (g : BG) : Prop :=
  ∀ k, M k → ∀ j ∈ (g.e k).vars, cons (g.v j) = true → ∃ k', M k' ∧ (g.v j).assign = some k'

/-- a search which does not change the equations of `M` -/
structure Avoid (cons : VN → Bool) (M : Nat → Prop) (i : Nat) (g : BG) (b : Bool) (g' : BG) : Prop where
  same : Same g g'
  av : b = false → ∀ j, (g'.v j).assign = (g.v j).assign
  ae : ∀ k, M k → (g'.e k).assign = (g.e k).assign
  start : b = true → ¬ M i

theorem Full.of {cons : VN → Bool} (hst : Static cons) {M : Nat → Prop} {g g1 : BG} (h : Full cons M g)
    (hs : Same g g1) (hv : ∀ j, (g1.v j).assign = (g.v j).assign) : Full cons M g1 := by
  intro k hk j hj hc
  rw [hs.vars] at hj
  rw [hs.cons hst] at hc
  rw [hv]
  exact h k hk j hj hc

theorem tryG_avoid {cons : VN → Bool} (hst : Static cons) {mark : Bool} {M : Nat → Prop} {rec : Nat → BG → Except Err (Bool × BG)}
    (hrec : ∀ i g b g', Full cons M g → rec i g = .ok (b, g') → Avoid cons M i g b g') {i : Nat} :
    ∀ (js : List Nat) (g : BG) (b : Bool) (g' : BG), Full cons M g → (∀ j ∈ js, j ∈ (g.e i).vars) →
      tryG cons mark rec i js g = .ok (b, g') → Avoid cons M i g b g' := by
  intro js
  induction js with
  | nil =>
    intro g b g' _ _ h
    simp only [tryG, Except.ok.injEq, Prod.mk.injEq] at h
    obtain ⟨rfl, rfl⟩ := h
    exact ⟨Same.refl g, fun _ _ => rfl, fun _ _ => rfl, fun x => by cases x⟩
  | cons j js ih =>
    intro g b g' hcl hin h
    unfold tryG at h
    have cont : ∀ g1, Same g g1 → (∀ j, (g1.v j).assign = (g.v j).assign) → (∀ k, M k → (g1.e k).assign = (g.e k).assign) →
        tryG cons mark rec i js g1 = .ok (b, g') → Avoid cons M i g b g' := by
      intro g1 h1 h2 h3 h4
      have := ih g1 b g' (hcl.of hst h1 h2) (fun j' hj' => by
        rw [h1.vars]; exact hin j' (List.mem_cons_of_mem _ hj')) h4
      exact ⟨h1.trans this.same, fun hb j => (this.av hb j).trans (h2 j), fun k hk => (this.ae k hk).trans (h3 k hk), this.start⟩
    split at h
    · exact cont g (Same.refl g) (fun _ => rfl) (fun _ _ => rfl) h
    · rename_i hc
      have hcons : cons (g.v j) = true := by
        cases hx : cons (g.v j) with
        | true => rfl
        | false => rw [hx] at hc; simp at hc
      simp only at h
      have hs1 : Same g (if mark then g.colorV j else g) := by split; exact same_colorV g j; exact Same.refl g
      have hv1 : ∀ q, ((if mark then g.colorV j else g).v q).assign = (g.v q).assign := by
        intro q; split
        · rw [colorV_v]; split <;> rfl
        · rfl
      have he1 : ∀ q, ((if mark then g.colorV j else g).e q) = g.e q := by intro q; split <;> rfl
      generalize (if mark then g.colorV j else g) = gc at h hs1 hv1 he1
      split at h
      · cases h
      · rename_i k hk
        split at h
        · exact cont _ hs1 hv1 (fun q _ => by rw [he1]) h
        · split at h
          · cases h
          · rename_i g2 hr
            simp only [Except.ok.injEq, Prod.mk.injEq] at h
            obtain ⟨rfl, rfl⟩ := h
            have h2 := hrec k _ true g2 (hcl.of hst hs1 hv1) hr
            have hi : ¬ M i := by
              intro hi
              obtain ⟨k', h3, h4⟩ := hcl i hi j (hin j List.mem_cons_self) hcons
              rw [hk] at h4
              cases h4
              exact h2.start rfl h3
            refine ⟨(hs1.trans h2.same).trans (same_setAssign _ _ _), nofun, fun q hq => ?_, fun _ => hi⟩
            rw [setAssign_e, if_neg (by rintro rfl; exact hi hq), h2.ae q hq, he1]
          · rename_i g2 hr
            have h2 := hrec k _ false g2 (hcl.of hst hs1 hv1) hr
            exact cont g2 (hs1.trans h2.same) (fun q => (h2.av rfl q).trans (hv1 q)) (fun q hq => by rw [h2.ae q hq, he1]) h

theorem augG_avoid {pick : BG → List Nat → Option Nat} {cons : VN → Bool} (hst : Static cons) (hp : Pick pick cons) {mark : Bool}
    {M : Nat → Prop} : ∀ (fuel i : Nat) (g : BG) (b : Bool) (g' : BG), Full cons M g → augG pick cons mark fuel i g = .ok (b, g') →
      Avoid cons M i g b g' := by
  intro fuel
  induction fuel with
  | zero => intro i g b g' _ h; cases h
  | succ fuel ih =>
    intro i g b g' hcl h
    unfold augG at h
    simp only at h
    have hs := same_colorE g i
    have he : ∀ k, ((g.colorE i).e k).assign = (g.e k).assign := by intro k; rw [colorE_e]; split <;> rfl
    split at h
    · rename_i j hj
      simp only [Except.ok.injEq, Prod.mk.injEq] at h
      obtain ⟨rfl, rfl⟩ := h
      obtain ⟨p1, p2, p3⟩ := hp.some _ _ _ hj
      rw [hs.vars] at p1
      have hi : ¬ M i := by
        intro hi
        obtain ⟨k', _, h4⟩ := hcl i hi j p1 p3
        rw [show (g.v j).assign = none from p2] at h4
        cases h4
      refine ⟨hs.trans (same_setAssign _ _ _), nofun, fun q hq => ?_, fun _ => hi⟩
      rw [setAssign_e, if_neg (by rintro rfl; exact hi hq), he]
    · have := tryG_avoid hst (fun i g b g' => ih i g b g') _ _ _ _ (hcl.of hst hs fun _ => rfl) (fun _ x => x) h
      exact ⟨hs.trans this.same, this.av, fun k hk => (this.ae k hk).trans (he k), this.start⟩

end Verif.Dae.Soares
