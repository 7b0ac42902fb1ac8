import Verif.Dae.LemmasSoares3
import Verif.Dae.LemmasRegular
namespace Verif.Dae.Soares

/-! ### the start -/

/-- nothing is colored or deleted -/
def Clean (g : BG) : Prop :=
  (∀ j, (g.v j).colored = false ∧ (g.v j).deleted = false) ∧ ∀ i, (g.e i).colored = false

theorem Clean.add {g : BG} (h : Clean g) (i j : Nat) : Clean (g.addVariable i j) := by
  unfold BG.addVariable
  split
  · exact h
  rw [if_neg (by rw [(h.1 j).2]; simp)]
  refine ⟨fun x => ?_, fun k => ?_⟩
  · rw [setV_v]
    split
    · exact h.1 x
    · exact h.1 x
  · rw [setV_e, setE_e, setE_e]
    split <;> exact h.2 k

theorem Clean.edges {tape : List Nat} {n m : Nat} {inc : Nat → Nat → Bool} {g : BG} (h : Clean g) : Clean (edges tape n m inc g) := by
  unfold Dae.edges
  generalize List.range m = is
  induction is generalizing g with
  | nil => exact h
  | cons i is ih =>
    rw [List.foldl_cons]
    apply ih
    generalize List.range n = ps
    induction ps generalizing g with
    | nil => exact h
    | cons p ps ihp =>
      rw [List.foldl_cons]
      apply ihp
      split
      · split
        · exact h.add _ _
        · exact h
      · exact h

theorem construct_clean {info : List VarInfo} {m : Nat} {inc : Nat → Nat → Bool} {g : BG} (h : construct info m inc = .ok g) :
    Clean g := by
  unfold construct at h
  split at h
  · cases h
  split at h
  · cases h
  simp only [bind, Except.bind] at h
  split at h
  · cases h
  split at h
  · cases h
  split at h
  · simp only [Except.ok.injEq] at h
    rw [← h]
    refine Clean.edges ⟨fun j => ?_, fun i => rfl⟩
    unfold nodes
    simp only
    split <;> exact ⟨rfl, rfl⟩
  · cases h

theorem start {g : BG} (h : Ready g) (hc : Clean g) : SInv g.ne [] g where
  frame := ⟨h.w, fun j => (hc.1 j).2, ⟨fun i d hd => (by rw [(h.diff i).1] at hd; cases hd),
    fun i d _ hd => (by rw [(h.diff d).2] at hd; cases hd), fun d hd => by rw [(h.diff d).2]; simp [hd], Nat.le_refl _⟩, h.rank⟩
  agree := ⟨fun k j => by rw [h.va, h.ea]; simp, fun j k hj => by rw [h.va] at hj; cases hj⟩
  inc k j hj := by rw [h.ea] at hj; cases hj
  uncV j := (hc.1 j).1
  col k hk := by rw [hc.2] at hk; cases hk
  dass k hk := absurd (h.diff k).1 hk
  mks := nofun
  nodup := List.nodup_nil
  full := nofun
  high k _ _ j hj := by rw [h.ea] at hj; cases hj
  hall hk := absurd rfl hk

/-! ### all rounds -/

theorem ne_le_nv {m : Nat} {Mk : List Nat} {g : BG} (h : SInv m Mk g) (ha : ∀ q, q < g.ne → (g.e q).assign ≠ none) : g.ne ≤ g.nv := by
  have := Finset.card_le_card_of_injOn (s := Finset.range g.ne) (t := Finset.range g.nv) (fun k => ((g.e k).assign).getD 0) ?_ ?_
  · rw [Finset.card_range, Finset.card_range] at this
    exact this
  · intro k hk
    rw [Finset.coe_range, Set.mem_Iio] at hk
    obtain ⟨j, hj⟩ := Option.ne_none_iff_exists'.mp (ha k hk)
    rw [Finset.coe_range, Set.mem_Iio]
    simp only [hj, Option.getD_some]
    have := h.inc k j hj
    rw [h.frame.vars] at this
    exact h.frame.w.bound k j this
  · intro k hk k' hk' e
    rw [Finset.coe_range, Set.mem_Iio] at hk hk'
    obtain ⟨j, hj⟩ := Option.ne_none_iff_exists'.mp (ha k hk)
    obtain ⟨j', hj'⟩ := Option.ne_none_iff_exists'.mp (ha k' hk')
    simp only [hj, hj', Option.getD_some] at e
    rw [← e] at hj'
    have e1 := (h.agree.iff k j).mp hj
    rw [(h.agree.iff k' j).mp hj'] at e1
    exact (Option.some.inj e1).symm

theorem psi_same {g g' : BG} (s : Same g g') : psi g' = psi g := psi_congr s.nv s.anti s.deriv

theorem detect_ok {m : Nat} (all : Bool) {order : List Nat → List Nat} (ho : ∀ l, (order l).Perm l) : ∀ (fuel : Nat) (last : List Nat) (g : BG),
    SInv m [] g →
    (detect all order fuel last g = .error .running ∧ ¬ (1 ≤ fuel ∧ psi g + 2 ≤ g.ne + fuel)) ∨
    (detect all order fuel last g = .error .exception ∧ (all = true → ∃ g', SInv m [] g' ∧ Ext g g' ∧ SingularSet g')) ∨
    ∃ g' l', detect all order fuel last g = .ok (g', l') ∧ SInv m [] g' ∧ Ext g g' ∧ ∀ q, q < g'.ne → (g'.e q).assign ≠ none := by
  intro fuel
  induction fuel with
  | zero => intro last g h; exact .inl ⟨rfl, by omega⟩
  | succ fuel ih =>
    intro last g h
    unfold detect
    rcases assignAll_ok all h with ⟨e, hs⟩ | ⟨g1, Mk, e, h1, s1, a1⟩
    · rw [e]
      exact .inr (.inl ⟨rfl, fun x => ⟨g, h, Ext.refl g, hs (.inl x)⟩⟩)
    · rw [e]
      have a1' : ∀ q, q < g1.ne → (g1.e q).assign ≠ none := fun q hq => a1 q (by rw [← s1.ne]; exact hq)
      cases Mk with
      | nil => exact .inr (.inr ⟨g1, last, rfl, h1, s1.ext, a1'⟩)
      | cons i l =>
        simp only
        obtain ⟨b1, b2, b3⟩ := derivAll_ok h1 a1' (by simp) (ho (i :: l))
        have hn := ne_le_nv h1 a1'
        have hp : g1.nv ≤ psi g1 := by unfold psi; omega
        have hps := psi_same s1
        have hne := s1.ne
        rcases ih (i :: l) _ b1 with ⟨c1, c2⟩ | ⟨c1, c2⟩ | ⟨g', l', c1, c2, c3, c4⟩
        · exact .inl ⟨c1, fun hh => c2 (by omega)⟩
        · refine .inr (.inl ⟨c1, fun x => ?_⟩)
          obtain ⟨g', d1, d2, d3⟩ := c2 x
          exact ⟨g', d1, (s1.ext.trans b2).trans d2, d3⟩
        · exact .inr (.inr ⟨g', l', c1, c2, (s1.ext.trans b2).trans c3, c4⟩)

/-! ### regular systems -/

theorem Lk.dE_inj {m : Nat} {g : BG} (h : Lk m g) : ∀ x y z, dE g x = some z → dE g y = some z → x = y := by
  intro x y z h1 h2
  have e1 := (h.link x z h1).2.2.1
  rw [(h.link y z h2).2.2.1] at e1
  exact (Option.some.inj e1).symm

theorem Lk.root {m : Nat} {g : BG} (h : Lk m g) : ∀ k, k < g.ne → ∃ i, i < m ∧ ∃ n, up (dE g) n i = some k := by
  intro k
  induction k using Nat.strong_induction_on with
  | _ k ih =>
    intro hk
    cases hd : (g.e k).diffOf with
    | none => exact ⟨k, (h.first k hk).mp hd, 0, rfl⟩
    | some i =>
      have hl := h.unlink i k hk hd
      obtain ⟨b1, _, _, b4, _⟩ := h.link i k hl
      obtain ⟨r, hr, n, hn⟩ := ih i b4 b1
      exact ⟨r, hr, n + 1, by simp only [up, hn, Option.bind_some]; exact hl⟩

theorem Lk.tops {m : Nat} {g : BG} (h : Lk m g) : ∀ i, i < g.ne → ∃ n k, up (dE g) n i = some k ∧ (g.e k).diff = none ∧ k < g.ne := by
  suffices H : ∀ b i, i < g.ne → g.ne - i = b → ∃ n k, up (dE g) n i = some k ∧ (g.e k).diff = none ∧ k < g.ne from
    fun i hi => H _ i hi rfl
  intro b
  induction b using Nat.strong_induction_on with
  | _ b ih =>
    intro i hi hb
    cases hd : (g.e i).diff with
    | none => exact ⟨0, i, rfl, hd, hi⟩
    | some d =>
      obtain ⟨_, b2, _, b4, _⟩ := h.link i d hd
      obtain ⟨n, t, e1, e2, e3⟩ := ih (g.ne - d) (by omega) d b2 rfl
      refine ⟨1 + n, t, ?_, e2, e3⟩
      rw [up_add]
      simp only [up, Option.bind_some]
      show ((g.e i).diff).bind _ = _
      rw [hd]; exact e1

/-- an original equation is found in one way only -/
theorem Lk.unique {m : Nat} {g : BG} (h : Lk m g) {i i' n n' k : Nat} (hi : i < m) (hi' : i' < m) (h1 : up (dE g) n i = some k)
    (h2 : up (dE g) n' i' = some k) : i = i' ∧ n = n' := by
  have key : ∀ {a b x y : Nat}, b < m → up (dE g) x a = some k → up (dE g) y b = some k → y ≤ x → y = x ∧ a = b := by
    intro a b x y hb h1 h2 hle
    obtain ⟨r, rfl⟩ := Nat.exists_eq_add_of_le' hle
    have := up_back h.dE_inj y r b a k h2 h1
    cases r with
    | zero => cases this; exact ⟨by omega, rfl⟩
    | succ r =>
      simp only [up, Option.bind_eq_some_iff] at this
      obtain ⟨c, _, h4⟩ := this
      obtain ⟨_, b2, b3, _⟩ := h.link c b h4
      rw [(h.first b b2).mpr hb] at b3
      cases b3
  rcases Nat.le_total n' n with hl | hl
  · obtain ⟨e1, e2⟩ := key hi' h1 h2 hl
    exact ⟨e2, e1.symm⟩
  · obtain ⟨e1, e2⟩ := key hi h2 h1 hl
    exact ⟨e2.symm, e1⟩

theorem Lk.down {m : Nat} {g : BG} (h : Lk m g) {i : Nat} : ∀ n k, up (dE g) n i = some k → ∀ j ∈ (g.e k).orig,
    ∃ a ∈ (g.e i).orig, up (dV g) n a = some j := by
  intro n
  induction n with
  | zero => intro k hk j hj; cases hk; exact ⟨j, hj, rfl⟩
  | succ n ih =>
    intro k hk j hj
    simp only [up, Option.bind_eq_some_iff] at hk
    obtain ⟨b, h1, h2⟩ := hk
    obtain ⟨x, hx, hd⟩ := (h.link b k h2).2.2.2.2.2 j hj
    obtain ⟨a, ha, hu⟩ := ih b h1 x hx
    exact ⟨a, ha, by simp only [up, hu, Option.bind_some]; exact hd⟩

theorem Lk.upw {m : Nat} {g : BG} (h : Lk m g) {i a : Nat} (ha : a ∈ (g.e i).orig) : ∀ n k, up (dE g) n i = some k →
    ∃ j ∈ (g.e k).orig, up (dV g) n a = some j := by
  intro n
  induction n with
  | zero => intro k hk; cases hk; exact ⟨a, ha, rfl⟩
  | succ n ih =>
    intro k hk
    simp only [up, Option.bind_eq_some_iff] at hk
    obtain ⟨b, h1, h2⟩ := hk
    obtain ⟨x, hx, hu⟩ := ih b h1
    obtain ⟨dj, hd, hm⟩ := (h.link b k h2).2.2.2.2.1 x hx
    exact ⟨dj, hm, by simp only [up, hu, Option.bind_some]; exact hd⟩

/-- if all equations are assigned, the system is regular -/
theorem sound {g g' : BG} (hW : W g) (h : SInv g.ne [] g') (hE : Ext g g') (ha : ∀ q, q < g'.ne → (g'.e q).assign ≠ none) :
    Regular g.ne (fun i j => j ∈ (g.e i).orig) (fun j => (g.v j).anti) := by
  have key : ∀ i, ∃ a, i < g.ne → a ∈ (g.e i).orig ∧ ∃ n k j, up (dE g') n i = some k ∧ (g'.e k).assign = some j ∧
      (g'.v j).deriv = none ∧ up (dV g') n a = some j := by
    intro i
    by_cases hi : i < g.ne
    · obtain ⟨n, k, h1, h2, h3⟩ := h.frame.lk.tops i (Nat.lt_of_lt_of_le hi hE.ne)
      obtain ⟨j, hj⟩ := Option.ne_none_iff_exists'.mp (ha k h3)
      have hc := h.high k h2 (by simp) j hj
      have hm := h.inc k j hj
      rw [h.frame.vars] at hm
      obtain ⟨a, h4, h5⟩ := h.frame.lk.down n k h1 j hm
      rw [hE.orig i hi] at h4
      unfold consA at hc
      rw [Bool.and_eq_true, Option.isNone_iff_eq_none] at hc
      exact ⟨a, fun _ => ⟨h4, n, k, j, h1, hj, hc.1, h5⟩⟩
    · exact ⟨0, fun x => absurd x hi⟩
  choose f hf using key
  refine ⟨f, fun i hi => (hf i hi).1, fun i i' hi hi' hd => ?_⟩
  obtain ⟨m1, n, k, j, b1, b2, b3, b4⟩ := hf i hi
  obtain ⟨m2, n', k', j', c1, c2, c3, c4⟩ := hf i' hi'
  obtain ⟨r, hr⟩ := hW.up_of_derivOf hd (hW.bound i' _ m2)
  have hr' : up (dV g') r (f i) = some (f i') :=
    (up_mono (f := dV g) (f' := dV g') (S := fun _ => True) (fun a b _ hab => ⟨hE.deriv a b hab, trivial⟩) trivial r _ hr).1
  have e1 : up (dV g') (r + n') (f i) = some j' := by rw [up_add, hr']; exact c4
  obtain ⟨_, e2⟩ := up_end_eq b4 b3 e1 c3
  subst e2
  have e3 := (h.agree.iff k j').mp b2
  rw [(h.agree.iff k' j').mp c2] at e3
  cases e3
  exact (h.frame.lk.unique hi hi' b1 c1).1

/-- in a regular system every set of equations and derivatives of equations can be assigned -/
theorem complete {g g' : BG} (hW : W g) (h : SInv g.ne [] g') (hE : Ext g g')
    (hr : Regular g.ne (fun i j => j ∈ (g.e i).orig) (fun j => (g.v j).anti)) : ¬ SingularSet g' := by
  rintro ⟨E, hEl, hS⟩
  obtain ⟨f, f1, f2⟩ := hr
  have key : ∀ k, ∃ j, k < g'.ne → ∃ i n, i < g.ne ∧ up (dE g') n i = some k ∧ up (dV g') n (f i) = some j ∧ j ∈ (g'.e k).orig := by
    intro k
    by_cases hk : k < g'.ne
    · obtain ⟨i, hi, n, hn⟩ := h.frame.lk.root k hk
      obtain ⟨j, h1, h2⟩ := h.frame.lk.upw (a := f i) (by rw [hE.orig i hi]; exact f1 i hi) n k hn
      exact ⟨j, fun _ => ⟨i, n, hi, hn, h2, h1⟩⟩
    · exact ⟨0, fun x => absurd x hk⟩
  choose F hF using key
  -- derivatives among the variables of the original equations are derivatives in the original graph
  have back : ∀ n a b, b < g.nv → up (dV g') n a = some b → DerivOf (fun j => (g.v j).anti) a b := by
    intro n
    induction n with
    | zero => intro a b _ hab; cases hab; exact .refl
    | succ n ih =>
      intro a b hb hab
      simp only [up, Option.bind_eq_some_iff] at hab
      obtain ⟨c, h1, h2⟩ := hab
      have h3 := (h.frame.w.link c b h2).2.2
      rw [hE.anti b hb] at h3
      have h4 := hW.unlink c b hb h3
      exact .step (ih a c (hW.link c b h4).1 h1) h3
  have rk : ∀ n a, up (dV g') n a = some a → n = 0 := by
    obtain ⟨r, hr⟩ := h.frame.rank
    have : ∀ n a b, up (dV g') n a = some b → r a + n ≤ r b := by
      intro n
      induction n with
      | zero => intro a b hab; cases hab; exact Nat.le_refl _
      | succ n ih =>
        intro a b hab
        simp only [up, Option.bind_eq_some_iff] at hab
        obtain ⟨c, h1, h2⟩ := hab
        have := ih a c h1
        have := hr c b h2
        omega
    intro n a ha
    have := this n a a ha
    omega
  have two : ∀ i i' n n' j, i < g.ne → i' < g.ne → up (dV g') n (f i) = some j → up (dV g') n' (f i') = some j → n ≤ n' →
      i = i' ∧ n = n' := by
    intro i i' n n' j hi hi' h1 h2 hle
    obtain ⟨r, rfl⟩ := Nat.exists_eq_add_of_le' hle
    have h3 := up_back h.frame.w.dV_inj n r _ _ j h1 h2
    have h4 := f2 i' i hi' hi (back r _ _ (hW.bound i _ (f1 i hi)) h3)
    subst h4
    exact ⟨rfl, by have := rk r _ h3; omega⟩
  refine not_singular (a := fun k => if k < g'.ne then some (F k) else none) ⟨fun k j hj => ?_, fun k k' j hk hk' => ?_⟩ (fun k hk => ?_) hS
  · simp only at hj
    split at hj
    · rename_i hk
      cases hj
      obtain ⟨_, _, _, _, _, h6⟩ := hF k hk
      rw [h.frame.vars]
      exact h6
    · cases hj
  · simp only at hk hk'
    split at hk
    · split at hk'
      · rename_i l1 l2
        cases hk
        simp only [Option.some.injEq] at hk'
        obtain ⟨i, n, b1, b2, b3, _⟩ := hF k l1
        obtain ⟨i', n', c1, c2, c3, _⟩ := hF k' l2
        rw [hk'] at c3
        have : i = i' ∧ n = n' := by
          rcases Nat.le_total n n' with hl | hl
          · exact two i i' n n' _ b1 c1 b3 c3 hl
          · obtain ⟨e1, e2⟩ := two i' i n' n _ c1 b1 c3 b3 hl
            exact ⟨e1.symm, e2.symm⟩
        obtain ⟨rfl, rfl⟩ := this
        rw [b2] at c2
        exact Option.some.inj c2
      · cases hk'
    · cases hk
  · simp only [hEl k hk, if_pos]
    simp

end Verif.Dae.Soares
