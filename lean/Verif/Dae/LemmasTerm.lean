import Verif.Dae.LemmasPant
import Mathlib.Algebra.BigOperators.Group.Finset.Basic
import Mathlib.Algebra.BigOperators.Group.Finset.Piecewise
import Mathlib.Algebra.Order.BigOperators.Group.Finset
namespace Verif.Dae

/-- `n` links onwards -/
def up (f : Nat → Option Nat) : Nat → Nat → Option Nat
  | 0, a => some a
  | n + 1, a => (up f n a).bind f

theorem up_mono {f f' : Nat → Option Nat} {S : Nat → Prop} (h : ∀ a b, S a → f a = some b → f' a = some b ∧ S b) {a : Nat} (ha : S a) :
    ∀ n b, up f n a = some b → up f' n a = some b ∧ S b := by
  intro n
  induction n with
  | zero => intro b hb; cases hb; exact ⟨rfl, ha⟩
  | succ n ih =>
    intro b hb
    simp only [up, Option.bind_eq_some_iff] at hb ⊢
    obtain ⟨c, h1, h2⟩ := hb
    obtain ⟨h3, h4⟩ := ih c h1
    obtain ⟨h5, h6⟩ := h c b h4 h2
    exact ⟨⟨c, h3, h5⟩, h6⟩

theorem up_add {f : Nat → Option Nat} (n : Nat) (a : Nat) : ∀ k, up f (n + k) a = (up f n a).bind (up f k) := by
  intro k
  induction k with
  | zero => simp only [Nat.add_zero]; cases up f n a <;> rfl
  | succ k ih =>
    rw [← Nat.add_assoc]
    simp only [up, ih]
    cases up f n a <;> rfl

theorem up_none_of {f : Nat → Option Nat} {b : Nat} (hb : f b = none) : ∀ k, up f (k + 1) b = none := by
  intro k
  induction k with
  | zero => simp [up, hb]
  | succ k ih => rw [up, ih]; rfl

theorem up_end {f : Nat → Option Nat} {a b c n k : Nat} (h : up f n a = some b) (hb : f b = none) (hc : up f k a = some c) :
    k ≤ n := by
  by_contra hlt
  obtain ⟨r, rfl⟩ := Nat.exists_eq_add_of_lt (Nat.lt_of_not_ge hlt)
  rw [show n + r + 1 = n + (r + 1) from rfl, up_add, h, Option.bind_some, up_none_of hb] at hc
  cases hc

theorem up_end_eq {f : Nat → Option Nat} {a b c n k : Nat} (h : up f n a = some b) (hb : f b = none) (hc : up f k a = some c)
    (hc' : f c = none) : k = n ∧ c = b := by
  have h1 := up_end h hb hc
  have h2 := up_end hc hc' h
  have : k = n := by omega
  subst this
  rw [h] at hc
  exact ⟨rfl, (Option.some.inj hc).symm⟩

/-- links of the graph -/
def dE (g : BG) (i : Nat) : Option Nat := (g.e i).diff
def dV (g : BG) (j : Nat) : Option Nat := (g.v j).deriv

/-- every equation is a derivative of an original one -/
theorem Links.root {m : Nat} {g : BG} (h : Links m g) : ∀ k, k < g.ne → ∃ i, i < m ∧ ∃ n, up (dE g) n i = some k := by
  intro k
  induction k using Nat.strong_induction_on with
  | _ k ih =>
    intro hk
    cases hd : (g.e k).diffOf with
    | none => exact ⟨k, (h.first k hk).mp hd, 0, rfl⟩
    | some k' =>
      obtain ⟨h1, h2⟩ := h.unlink k' k hk hd
      obtain ⟨i, hi, n, hn⟩ := ih k' (h.lt k' k hk hd) h1
      exact ⟨i, hi, n + 1, by simp only [up, hn, Option.bind_some]; exact h2⟩

/-- the derivative of an equation contains the derivative of its variables -/
theorem Links.derivatives {m : Nat} {g : BG} (h : Links m g) {i : Nat} (hi : i < g.ne) : ∀ n k, up (dE g) n i = some k →
    k < g.ne ∧ ∀ j ∈ (g.e i).orig, ∃ x, up (dV g) n j = some x ∧ x ∈ (g.e k).orig := by
  intro n
  induction n with
  | zero => intro k hk; cases hk; exact ⟨hi, fun j hj => ⟨j, rfl, hj⟩⟩
  | succ n ih =>
    intro k hk
    simp only [up, Option.bind_eq_some_iff] at hk
    obtain ⟨c, h1, h2⟩ := hk
    obtain ⟨h3, h4⟩ := ih c h1
    obtain ⟨l1, _, l3, _⟩ := h.link c k h3 h2
    refine ⟨l1, fun j hj => ?_⟩
    obtain ⟨x, hx, hx'⟩ := h4 j hj
    obtain ⟨_, dx, l4, l5⟩ := l3 x hx'
    exact ⟨dx, by simp only [up, hx, Option.bind_some]; exact l4, l5⟩

/-- an equation after any number of differentiations contains only derivatives of its variables -/
theorem Links.origins {m : Nat} {g : BG} (h : Links m g) {i : Nat} (hi : i < g.ne) : ∀ n k, up (dE g) n i = some k →
    ∀ x ∈ (g.e k).orig, ∃ j ∈ (g.e i).orig, ∃ s, up (dV g) s j = some x := by
  intro n
  induction n with
  | zero => intro k hk x hx; cases hk; exact ⟨x, hx, 0, rfl⟩
  | succ n ih =>
    intro k hk x hx
    simp only [up, Option.bind_eq_some_iff] at hk
    obtain ⟨c, h1, h2⟩ := hk
    obtain ⟨h3, _⟩ := h.derivatives hi n c h1
    obtain ⟨_, _, _, l4⟩ := h.link c k h3 h2
    rcases l4 x hx with h5 | ⟨a, h5, h6⟩
    · exact ih c h1 x h5
    · obtain ⟨j, hj, s, hs⟩ := ih c h1 a h5
      exact ⟨j, hj, s + 1, by simp only [up, hs, Option.bind_some]; exact h6⟩

/-- a choice of variables of the original equations in different families: `c i` derivatives of equation
`i`, the last of them `e i`; `n i` derivatives of the chosen variable `f i`, the last of them `t i` -/
structure Pot (m : Nat) (g : BG) (f c e n t : Nat → Nat) : Prop where
  eq : ∀ i, i < m → up (dE g) (c i) i = some (e i) ∧ (g.e (e i)).diff = none
  va : ∀ i, i < m → up (dV g) (n i) (f i) = some (t i) ∧ (g.v (t i)).deriv = none ∧ t i < g.nv
  inj : ∀ i i', i < m → i' < m → t i = t i' → i = i'
  inc : ∀ i, i < m → f i ∈ (g.e i).orig

theorem Pot.le {m : Nat} {g : BG} {f c e n t : Nat → Nat} (h : Pot m g f c e n t) (hL : Links m g) {i : Nat} (hi : i < m) :
    c i ≤ n i := by
  obtain ⟨x, hx, _⟩ := (hL.derivatives (Nat.lt_of_lt_of_le hi hL.le) _ _ (h.eq i hi).1).2 _ (h.inc i hi)
  exact up_end (h.va i hi).1 (h.va i hi).2.1 hx

theorem Pot.sum_le {m : Nat} {g : BG} {f c e n t : Nat → Nat} (h : Pot m g f c e n t) (hL : Links m g) :
    ∑ i ∈ Finset.range m, c i ≤ ∑ i ∈ Finset.range m, n i :=
  Finset.sum_le_sum fun i hi => h.le hL (Finset.mem_range.mp hi)

theorem Pot.congr {m : Nat} {g g' : BG} {f c e n t : Nat → Nat} (h : Pot m g f c e n t) (hnv : g'.nv = g.nv)
    (ho : ∀ i, (g'.e i).orig = (g.e i).orig) (hd : ∀ i, (g'.e i).diff = (g.e i).diff)
    (hv : ∀ j, (g'.v j).deriv = (g.v j).deriv) : Pot m g' f c e n t := by
  have e1 : dE g' = dE g := funext hd
  have e2 : dV g' = dV g := funext hv
  refine ⟨fun i hi => ?_, fun i hi => ?_, h.inj, fun i hi => by rw [ho]; exact h.inc i hi⟩
  · rw [e1, hd]; exact h.eq i hi
  · rw [e2, hv, hnv]; exact h.va i hi

/-- a failed attempt makes the potential smaller -/
theorem Pot.step {m : Nat} {Q : Nat → Prop} {g g3 : BG} {i d : Nat} {f c e n t : Nat → Nat} (h : Pot m g f c e n t)
    (hS : Stuck m Q g i) (hT : Step m Q g i g3 d) :
    ∃ c' e' n' t', Pot m g3 f c' e' n' t' ∧
      (∑ i ∈ Finset.range m, n' i) - ∑ i ∈ Finset.range m, c' i < (∑ i ∈ Finset.range m, n i) - ∑ i ∈ Finset.range m, c i := by
  have hL := hS.inv.links
  have hlt : ∀ x, x < m → e x < g.ne := fun x hx =>
    (hL.derivatives (Nat.lt_of_lt_of_le hx hL.le) _ _ (h.eq x hx).1).1
  have hmE : ∀ x, x < m → ∀ n b, up (dE g) n x = some b → up (dE g3) n x = some b := by
    intro x hx n b hb
    refine (up_mono (S := fun k => k < g.ne) ?_ (Nat.lt_of_lt_of_le hx hL.le) n b hb).1
    intro a b ha hab
    exact ⟨hT.ext.diff a b ha hab, (hL.link a b ha hab).1⟩
  have hmV : ∀ x n b, up (dV g) n x = some b → up (dV g3) n x = some b := by
    intro x n b hb
    exact (up_mono (S := fun _ => True) (fun a b _ hab => ⟨hT.ext.deriv a b hab, trivial⟩) trivial n b hb).1
  have hp : Pot m g3 f (fun x => c x + if (g.e (e x)).colored = true then 1 else 0)
    (fun x => if (g.e (e x)).colored = true then ((g3.e (e x)).diff).getD 0 else e x)
    (fun x => n x + if (g.v (t x)).colored = true then 1 else 0)
    (fun x => if (g.v (t x)).colored = true then ((g3.v (t x)).deriv).getD 0 else t x) := by
    have hnewt : ∀ j dj, j < g.nv → (g.v j).deriv = none → (g3.v j).deriv = some dj → g.nv ≤ dj ∧ dj < g3.nv := by
      intro j dj hj h0 h1
      obtain ⟨l1, l2, l3⟩ := hT.inv.w.link j dj h1
      refine ⟨?_, l2⟩
      by_contra hlt'
      rw [hT.ext.anti dj (by omega)] at l3
      rw [hS.inv.w.unlink j dj (by omega) l3] at h0
      cases h0
    refine ⟨?_, ?_, ?_, fun x hx => ?_⟩
    · intro x hx
      obtain ⟨q1, q2⟩ := h.eq x hx
      by_cases hc : (g.e (e x)).colored = true
      · simp only [hc, if_true]
        obtain ⟨d', hd'⟩ := Option.ne_none_iff_exists'.mp ((hT.eqs (e x) (hlt x hx) q2).mpr hc)
        rw [hd', Option.getD_some]
        refine ⟨?_, ?_⟩
        · simp only [up, hmE x hx _ _ q1, Option.bind_some]; exact hd'
        · -- a new equation has no derivative
          have l := (hT.inv.links.link (e x) d' (Nat.lt_of_lt_of_le (hlt x hx) hT.ext.ne) hd')
          have hnew : g.ne ≤ d' := by
            by_contra hlt'
            have := hL.unlink (e x) d' (by omega) (by rw [← hT.ext.diffOf d' (by omega)]; exact l.2.1)
            rw [q2] at this; cases this.2
          exact hT.newE d' hnew l.1
      · simp only [hc, if_false, Nat.add_zero]
        refine ⟨hmE x hx _ _ q1, ?_⟩
        by_contra hne
        exact hc ((hT.eqs (e x) (hlt x hx) q2).mp hne)
    · intro x hx
      obtain ⟨q1, q2, q3⟩ := h.va x hx
      by_cases hc : (g.v (t x)).colored = true
      · simp only [hc, if_true]
        obtain ⟨d', hd'⟩ := Option.ne_none_iff_exists'.mp ((hT.vs (t x) q3 q2).mpr hc)
        rw [hd', Option.getD_some]
        obtain ⟨b1, b2⟩ := hnewt _ _ q3 q2 hd'
        refine ⟨?_, (hT.newV d' b1 b2).1, b2⟩
        simp only [up, hmV _ _ _ q1, Option.bind_some]; exact hd'
      · simp only [hc, if_false, Nat.add_zero]
        refine ⟨hmV _ _ _ q1, ?_, Nat.lt_of_lt_of_le q3 hT.ext.nv⟩
        by_contra hne
        exact hc ((hT.vs (t x) q3 q2).mp hne)
    · intro x x' hx hx' heq
      obtain ⟨q1, q2, q3⟩ := h.va x hx
      obtain ⟨r1, r2, r3⟩ := h.va x' hx'
      refine h.inj x x' hx hx' ?_
      by_cases hc : (g.v (t x)).colored = true <;> by_cases hc' : (g.v (t x')).colored = true
      · simp only [hc, hc', if_true] at heq
        obtain ⟨d', hd'⟩ := Option.ne_none_iff_exists'.mp ((hT.vs (t x) q3 q2).mpr hc)
        obtain ⟨d'', hd''⟩ := Option.ne_none_iff_exists'.mp ((hT.vs (t x') r3 r2).mpr hc')
        rw [hd', hd'', Option.getD_some, Option.getD_some] at heq
        subst heq
        have e1 := (hT.inv.w.link _ _ hd').2.2
        rw [(hT.inv.w.link _ _ hd'').2.2] at e1
        exact (Option.some.inj e1).symm
      · simp only [hc, hc', if_true, Bool.false_eq_true, if_false] at heq
        obtain ⟨d', hd'⟩ := Option.ne_none_iff_exists'.mp ((hT.vs (t x) q3 q2).mpr hc)
        rw [hd', Option.getD_some] at heq
        have := (hnewt _ _ q3 q2 hd').1
        omega
      · simp only [hc, hc', if_true, Bool.false_eq_true, if_false] at heq
        obtain ⟨d', hd'⟩ := Option.ne_none_iff_exists'.mp ((hT.vs (t x') r3 r2).mpr hc')
        rw [hd', Option.getD_some] at heq
        have := (hnewt _ _ r3 r2 hd').1
        omega
      · simpa only [hc, hc', Bool.false_eq_true, if_false] using heq
    · rw [hT.ext.orig x (Nat.lt_of_lt_of_le hx hL.le)]; exact h.inc x hx
  refine ⟨_, _, _, _, hp, ?_⟩
  · have hle' := hp.sum_le hT.inv.links
    rw [Finset.sum_add_distrib, Finset.sum_add_distrib, ← Finset.card_filter, ← Finset.card_filter] at hle' ⊢
    have hle := h.sum_le hL
    have key : ((Finset.range m).filter fun x => (g.v (t x)).colored = true).card <
        ((Finset.range m).filter fun x => (g.e (e x)).colored = true).card := by
      have hmem : ∀ k, k ∈ coloredE g ↔ (g.e k).colored = true := by
        intro k
        unfold coloredE
        rw [Finset.mem_filter, Finset.mem_range]
        exact ⟨fun h => h.2, fun h => ⟨hS.lt k h, h⟩⟩
      have h1 : ((Finset.range m).filter fun x => (g.v (t x)).colored = true).card ≤ ((coloredE g).erase i).card := by
        refine Finset.card_le_card_of_injOn (fun x => ((g.v (t x)).assign).getD 0) ?_ ?_
        · intro x hx
          rw [Finset.mem_coe, Finset.mem_filter, Finset.mem_range] at hx
          obtain ⟨k, hk, ha⟩ := hS.back _ hx.2
          simp only [(hS.inv.agree.iff _ _).mp ha, Option.getD_some]
          rw [Finset.mem_coe, Finset.mem_erase]
          refine ⟨?_, (hmem k).mpr hk⟩
          rintro rfl
          rw [(hS.inv.pend k hS.cur).2.1] at ha; cases ha
        · intro x hx x' hx' heq
          rw [Finset.mem_coe, Finset.mem_filter, Finset.mem_range] at hx hx'
          obtain ⟨k, hk, ha⟩ := hS.back _ hx.2
          obtain ⟨k', hk', ha'⟩ := hS.back _ hx'.2
          simp only [(hS.inv.agree.iff _ _).mp ha, (hS.inv.agree.iff _ _).mp ha', Option.getD_some] at heq
          subst heq
          rw [ha] at ha'
          exact h.inj x x' hx.1 hx'.1 (Option.some.inj ha')
      have h2 : (coloredE g).card ≤ ((Finset.range m).filter fun x => (g.e (e x)).colored = true).card := by
        refine Nat.le_trans (Finset.card_le_card ?_) (Finset.card_image_le (f := e))
        intro k hk
        rw [hmem] at hk
        obtain ⟨x, hx, r, hr⟩ := hL.root k (hS.lt k hk)
        have := (up_end_eq (h.eq x hx).1 (h.eq x hx).2 hr (hS.diff k hk)).2
        rw [Finset.mem_image]
        exact ⟨x, by rw [Finset.mem_filter, Finset.mem_range, ← this]; exact ⟨hx, hk⟩, this.symm⟩
      have h3 := Finset.card_erase_lt_of_mem ((hmem i).mpr hS.self)
      omega
    omega

/-- the loop for an equation ends -/
theorem assignEquation_ends {m : Nat} {P : Nat → Prop} (hPm : ∀ k, P k → k < m) {f : Nat → Nat} :
    ∀ (fuel i : Nat) (g : BG) (c e n t : Nat → Nat), PInv m (fun k => P k ∨ k = i) g → ¬ P i → Pot m g f c e n t →
    (∑ x ∈ Finset.range m, n x) - ∑ x ∈ Finset.range m, c x < fuel →
    assignEquation fuel i g = .error .exception ∨
    ∃ g' c' e' n' t', assignEquation fuel i g = .ok g' ∧ PInv m P g' ∧ Pot m g' f c' e' n' t' ∧
      (∑ x ∈ Finset.range m, n' x) - ∑ x ∈ Finset.range m, c' x ≤ (∑ x ∈ Finset.range m, n x) - ∑ x ∈ Finset.range m, c x := by
  intro fuel
  induction fuel with
  | zero => intro i g c e n t _ _ _ h; omega
  | succ fuel ih =>
    intro i g c e n t hP hi hp hf
    rw [assignEquation]
    rcases attempt hP hi with ⟨g', r, h1, _, h3, h4⟩ | ⟨g', r, h1, _, h3, h4⟩
    · rw [r]
      refine .inr ⟨g', c, e, n, t, rfl, h1, ?_, Nat.le_refl _⟩
      exact (hp.congr h3.nv h3.orig h3.diff h3.deriv).congr h4.nv h4.orig h4.diff h4.deriv
    · rw [r]
      have hp' := (hp.congr h3.nv h3.orig h3.diff h3.deriv).congr h4.nv h4.orig h4.diff h4.deriv
      simp only
      rcases differentiate_ok h1 with ⟨e1, _⟩ | ⟨g3, d, e1, S⟩
      · rw [e1]; exact .inl rfl
      · rw [e1]
        simp only
        obtain ⟨c', e', n', t', hp3, hlt⟩ := hp'.step h1 S
        have hpd : ¬ P d := by
          intro hpd
          have := hPm d hpd
          have h3 := (h1.inv.links.le)
          have := S.new
          omega
        have hQ : PInv m (fun k => P k ∨ k = d) g3 := by
          have : (fun k => (P k ∨ k = i) ∧ k ≠ i ∨ k = d) = fun k => P k ∨ k = d := by
            funext k
            apply propext
            constructor
            · rintro (⟨h | h, h'⟩ | h)
              · exact .inl h
              · exact absurd h h'
              · exact .inr h
            · rintro (h | h)
              · exact .inl ⟨.inl h, by rintro rfl; exact hi h⟩
              · exact .inr h
          rw [← this]; exact S.inv
        rcases ih d g3 c' e' n' t' hQ hpd hp3 (by omega) with r | ⟨g4, c4, e4, n4, t4, r1, r2, r3, r4⟩
        · exact .inl r
        · exact .inr ⟨g4, c4, e4, n4, t4, r1, r2, r3, by omega⟩

theorem detect_ends {fuel m : Nat} {f : Nat → Nat} : ∀ (k a : Nat) (g : BG) (c e n t : Nat → Nat), a + k = m →
    PInv m (fun k => a ≤ k ∧ k < m) g → Pot m g f c e n t →
    (∑ x ∈ Finset.range m, n x) - ∑ x ∈ Finset.range m, c x < fuel →
    (List.range' a k).foldlM (fun g k => assignEquation fuel k g) g ≠ .error .running := by
  intro k
  induction k with
  | zero =>
    intro a g _ _ _ _ _ _ _ _ h
    cases h
  | succ k ih =>
    intro a g c e n t ha hP hp hf
    rw [List.range'_succ, List.foldlM_cons]
    simp only [bind, Except.bind]
    have hP' : PInv m (fun k => (a + 1 ≤ k ∧ k < m) ∨ k = a) g := by
      have : (fun k => (a + 1 ≤ k ∧ k < m) ∨ k = a) = fun k => a ≤ k ∧ k < m := by
        funext k; apply propext; constructor
        · rintro (⟨h1, h2⟩ | h1) <;> omega
        · rintro ⟨h1, h2⟩; omega
      rw [this]; exact hP
    rcases assignEquation_ends (fun k h => h.2) fuel a g c e n t hP' (by omega) hp hf with r | ⟨g', c', e', n', t', r1, r2, r3, r4⟩
    · rw [r]; intro h; cases h
    · rw [r1]
      simp only
      exact ih (a + 1) g' c' e' n' t' (by omega) r2 r3 (by omega)

end Verif.Dae
