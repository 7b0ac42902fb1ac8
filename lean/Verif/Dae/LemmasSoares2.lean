import Verif.Dae.LemmasSoares
namespace Verif.Dae.Soares

/-- equations and their derivatives: the derivative contains exactly the derivatives of the variables -/
structure Lk (m : Nat) (g : BG) : Prop where
  link : ∀ i d, (g.e i).diff = some d → i < g.ne ∧ d < g.ne ∧ (g.e d).diffOf = some i ∧ i < d ∧
    (∀ j ∈ (g.e i).orig, ∃ dj, (g.v j).deriv = some dj ∧ dj ∈ (g.e d).orig) ∧
    ∀ j ∈ (g.e d).orig, ∃ a ∈ (g.e i).orig, (g.v a).deriv = some j
  unlink : ∀ i d, d < g.ne → (g.e d).diffOf = some i → (g.e i).diff = some d
  first : ∀ d, d < g.ne → ((g.e d).diffOf = none ↔ d < m)
  le : m ≤ g.ne

/-- what is not changed by assignments -/
structure Frame (m : Nat) (g : BG) : Prop where
  w : W g
  nodel : ∀ j, (g.v j).deleted = false
  lk : Lk m g
  rank : ∃ r : Nat → Nat, ∀ j d, (g.v j).deriv = some d → r j < r d

theorem W.same {g g' : BG} (s : Same g g') (h : W g) : W g' where
  nodup i := by rw [s.orig]; exact h.nodup i
  vars i := by rw [s.orig, s.vars, h.vars i]; exact List.filter_congr fun j _ => by rw [s.deleted]
  eqs i j := by rw [s.eqs, s.vars]; exact h.eqs i j
  bound i j := by rw [s.orig, s.nv]; exact h.bound i j
  fresh i := by rw [s.ne, s.orig]; exact h.fresh i
  link j d := by rw [s.deriv, s.nv, s.anti]; exact h.link j d
  unlink j d := by rw [s.nv, s.anti, s.deriv]; exact h.unlink j d
  param j := by rw [s.param]; exact h.param j
  deleted j := by rw [s.deleted, s.deriv]; exact h.deleted j

theorem Lk.same {m : Nat} {g g' : BG} (s : Same g g') (h : Lk m g) : Lk m g' where
  link i d hd := by
    rw [s.diff] at hd
    simp only [s.ne, s.diffOf, s.orig, s.deriv]
    exact h.link i d hd
  unlink i d := by rw [s.ne, s.diffOf, s.diff]; exact h.unlink i d
  first d := by rw [s.ne, s.diffOf]; exact h.first d
  le := by rw [s.ne]; exact h.le

theorem Frame.same {m : Nat} {g g' : BG} (s : Same g g') (h : Frame m g) : Frame m g' where
  w := W.same s h.w
  nodel j := by rw [s.deleted]; exact h.nodel j
  lk := h.lk.same s
  rank := by
    obtain ⟨r, hr⟩ := h.rank
    exact ⟨r, fun j d hd => hr j d (by rw [s.deriv] at hd; exact hd)⟩

theorem Frame.vars {m : Nat} {g : BG} (h : Frame m g) (k : Nat) : (g.e k).vars = (g.e k).orig := by
  rw [h.w.vars]
  exact List.filter_eq_self.mpr fun j _ => by rw [h.nodel]; rfl

/-- differentiated equations contain no highest derivatives -/
theorem Frame.low {m : Nat} {g : BG} (h : Frame m g) {k : Nat} (hk : (g.e k).diff ≠ none) {j : Nat} (hj : j ∈ (g.e k).vars) :
    consA (g.v j) = false := by
  obtain ⟨d, hd⟩ := Option.ne_none_iff_exists'.mp hk
  rw [h.vars] at hj
  obtain ⟨dj, h1, _⟩ := (h.lk.link k d hd).2.2.2.2.1 j hj
  simp [consA, h1]

/-- the state within a round; `Mk` are the marked equations -/
structure SInv (m : Nat) (Mk : List Nat) (g : BG) : Prop where
  frame : Frame m g
  agree : Mut g
  inc : ∀ k j, (g.e k).assign = some j → j ∈ (g.e k).vars
  uncV : ∀ j, (g.v j).colored = false
  col : ∀ k, (g.e k).colored = true → k ∈ Mk ∨ (g.e k).diff ≠ none
  dass : ∀ k, (g.e k).diff ≠ none → (g.e k).assign ≠ none
  mks : ∀ k ∈ Mk, k < g.ne ∧ (g.e k).diff = none ∧ (g.e k).assign ≠ none
  nodup : Mk.Nodup
  full : Full consA (· ∈ Mk) g
  high : ∀ k, (g.e k).diff = none → k ∉ Mk → ∀ j, (g.e k).assign = some j → consA (g.v j) = true
  hall : Mk ≠ [] → Singular (incOf consA g) Mk.toFinset

theorem found_mut {cons : VN → Bool} {g g' : BG} {i : Nat} (hm : Mut g) (hi : i < g.ne) (hun : (g.e i).assign = none)
    (F : Found cons g i g') : Mut g' := by
  refine ⟨fun k j => ⟨F.e2v k j, fun h => ?_⟩, fun j k h => ?_⟩
  · rcases F.v2e j k h with h1 | ⟨_, h2⟩
    · exact h1
    · rw [hun] at h2; cases h2
  · rw [F.same.ne]
    rcases F.lt j k h with h1 | h1 | ⟨j', h1⟩
    · exact hm.lt j k h1
    · rw [h1]; exact hi
    · exact hm.lt j' k h1

theorem unc_le (g : BG) : unc g ≤ g.ne := by
  unfold unc
  refine Nat.le_trans (List.length_filter_le _ _) ?_
  rw [List.length_range]

/-! ### coloring -/

theorem same_uncolorE (g : BG) : Same g (uncolorE g) :=
  ⟨rfl, rfl, fun _ => rfl, fun _ => rfl, fun _ => rfl, fun _ => rfl, fun _ => rfl, fun _ => rfl, fun _ => rfl, fun _ => rfl, fun _ => rfl⟩

theorem same_uncolorV (g : BG) : Same g (uncolorV g) :=
  ⟨rfl, rfl, fun _ => rfl, fun _ => rfl, fun _ => rfl, fun _ => rfl, fun _ => rfl, fun _ => rfl, fun _ => rfl, fun _ => rfl, fun _ => rfl⟩

theorem uncolorMarked_e (all : Bool) (g : BG) (k : Nat) : (uncolorMarked all g).e k =
    if all || (g.e k).diff.isNone then { g.e k with colored := false } else g.e k := rfl

theorem same_uncolorMarked (all : Bool) (g : BG) : Same g (uncolorMarked all g) := by
  refine ⟨rfl, rfl, fun _ => rfl, fun _ => rfl, fun _ => rfl, fun _ => rfl, fun _ => rfl, ?_, ?_, ?_, ?_⟩ <;>
    (intro k; rw [uncolorMarked_e]; split <;> rfl)

theorem uncolorMarked_assign (all : Bool) (g : BG) (k : Nat) : ((uncolorMarked all g).e k).assign = (g.e k).assign := by
  rw [uncolorMarked_e]; split <;> rfl

theorem mem_toMark {g : BG} {k : Nat} : k ∈ toMark g ↔ k < g.ne ∧ (g.e k).colored = true ∧ (g.e k).diff = none := by
  unfold toMark
  rw [List.mem_filter, List.mem_range, Bool.and_eq_true, Option.isNone_iff_eq_none]

theorem mem_insertAll {a b : List Nat} {k : Nat} : k ∈ insertAll a b ↔ k ∈ a ∨ k ∈ b := by
  unfold insertAll
  rw [List.mem_append, List.mem_filter]
  by_cases h : k ∈ a <;> simp [h]

theorem nodup_insertAll {a b : List Nat} (ha : a.Nodup) (hb : b.Nodup) : (insertAll a b).Nodup := by
  unfold insertAll
  refine List.nodup_append.mpr ⟨ha, hb.filter _, fun x hx y hy hxy => ?_⟩
  have := (List.mem_filter.mp hy).2
  subst hxy
  simp [hx] at this

theorem nodup_toMark (g : BG) : (toMark g).Nodup := List.nodup_range.filter _

/-! ### an equation -/

theorem incOf_same {g g' : BG} (s : Same g g') : incOf consA g' = incOf consA g := by
  funext k
  unfold incOf
  rw [s.vars]
  exact List.filter_congr fun j _ => by rw [s.cons static_consA]

/-- the outcome of an iteration which is not an exception -/
structure Next (m : Nat) (g : BG) (k : Nat) (g' : BG) (Mk' : List Nat) : Prop where
  inv : SInv m Mk' g'
  same : Same g g'
  keep : ∀ q, (g.e q).assign ≠ none → (g'.e q).assign ≠ none
  self : (g'.e k).assign ≠ none

/-- equations of a structurally singular set -/
def SingularSet (g : BG) : Prop := ∃ E : Finset Nat, (∀ k ∈ E, k < g.ne) ∧ Singular (fun k => (g.e k).vars) E

theorem assignOne_ok {m : Nat} {Mk : List Nat} {g : BG} (all : Bool) (h : SInv m Mk g) {k : Nat} (hk : k < g.ne) :
    (assignOne all (g, Mk) k = .error .exception ∧ ((all = true ∨ ∀ q, (g.e q).diff = none) → SingularSet g)) ∨
    ∃ g' Mk', assignOne all (g, Mk) k = .ok (g', Mk') ∧ Next m g k g' Mk' := by
  unfold assignOne
  simp only
  cases hun : (g.e k).assign with
  | some j => exact .inr ⟨g, Mk, rfl, h, Same.refl g, fun _ x => x, by rw [hun]; simp⟩
  | none =>
    simp only
    have hkd : (g.e k).diff = none := by
      by_contra hd
      exact h.dass k hd hun
    have hkm : k ∉ Mk := fun hm => (h.mks k hm).2.2 hun
    have hkc : (g.e k).colored = false := by
      cases hc : (g.e k).colored with
      | false => rfl
      | true =>
        rcases h.col k hc with h1 | h1
        · exact absurd h1 hkm
        · exact absurd hkd h1
    have hA : augmentPathA g.ne = augG pickA consA false g.ne := by funext i g'; exact augmentPathA_eq _ i g'
    have hA' : ∀ x : BG, augmentPath x.ne = augG pick1 (fun _ => true) true x.ne := by
      intro x; funext i g'; exact augmentPath_eq _ i g'
    have dA := augG_does (mark := false) static_consA pickA_ok g.ne
    rcases dA k g h.agree hkc hk (fun j hj => by rw [h.uncV] at hj; cases hj) (unc_le g) with ⟨g1, e1, F⟩ | ⟨g1, e1, hc1, F⟩
    · -- a highest derivative was found
      rw [hA, e1]
      right
      refine ⟨_, _, rfl, ?_⟩
      have hm1 := found_mut h.agree hk hun F
      have av := augG_avoid (M := (· ∈ Mk)) static_consA pickA_ok g.ne k g true g1 h.full e1
      have st := augG_stay (S := fun _ => True) static_consA g.ne k g true g1 (fun _ _ _ _ _ _ _ => trivial) trivial e1
      have s1 : Same g (uncolorE g1) := F.same.trans (same_uncolorE g1)
      have hself : (g1.e k).assign ≠ none := by
        obtain ⟨j, hj, _⟩ := F.self
        rw [hj]; simp
      refine ⟨⟨h.frame.same s1, ⟨hm1.iff, hm1.lt⟩, ?_, ?_, ?_, ?_, ?_, h.nodup, ?_, ?_, ?_⟩, s1, F.keep, hself⟩
      · intro q j hq
        rw [s1.vars]
        rcases F.inc q j hq with h1 | h1
        · exact h.inc q j h1
        · exact h1.1
      · intro j
        show (g1.v j).colored = false
        rw [st.cv rfl, h.uncV]
      · intro q hq; cases hq
      · intro q hq
        rw [s1.diff] at hq
        exact F.keep q (h.dass q hq)
      · intro q hq
        obtain ⟨a1, a2, a3⟩ := h.mks q hq
        exact ⟨by rw [s1.ne]; exact a1, by rw [s1.diff]; exact a2, F.keep q a3⟩
      · intro q hq j hj hc
        rw [s1.vars] at hj
        rw [s1.cons static_consA] at hc
        obtain ⟨q', b1, b2⟩ := h.full q hq j hj hc
        refine ⟨q', b1, ?_⟩
        refine (hm1.iff q' j).mp ?_
        rw [av.ae q' b1]
        exact (h.agree.iff q' j).mpr b2
      · intro q hq hqm j hj
        rw [s1.diff] at hq
        rw [s1.cons static_consA]
        rcases F.inc q j hj with h1 | h1
        · exact h.high q hq hqm j h1
        · exact h1.2
      · intro hne
        rw [incOf_same s1]
        exact h.hall hne
    · -- the reached equations are marked
      rw [hA, e1]
      simp only
      obtain ⟨g2, hg2⟩ : ∃ g2, g2 = uncolorMarked all g1 := ⟨_, rfl⟩
      rw [← hg2]
      have s1 := F.same
      have s2 : Same g g2 := by rw [hg2]; exact s1.trans (same_uncolorMarked all g1)
      have a2 : ∀ q, (g2.e q).assign = (g.e q).assign := fun q => by rw [hg2, uncolorMarked_assign, F.ae]
      have v2 : ∀ j, (g2.v j).assign = (g.v j).assign := fun j => by rw [hg2]; exact F.av j
      have st := augG_stay (S := fun _ => True) static_consA g.ne k g false g1 (fun _ _ _ _ _ _ _ => trivial) trivial e1
      have uv2 : ∀ j, (g2.v j).colored = false := fun j => by
        rw [hg2]; show (g1.v j).colored = false; rw [st.cv rfl, h.uncV]
      have m2 : Mut g2 := ⟨fun q j => by rw [a2, v2]; exact h.agree.iff q j, fun j q hq => by
        rw [v2] at hq; rw [s2.ne]; exact h.agree.lt j q hq⟩
      -- the new marked equations
      obtain ⟨Mk', hMk⟩ : ∃ Mk', Mk' = insertAll Mk (toMark g1) := ⟨_, rfl⟩
      have lt1 : ∀ q, (g1.e q).colored = true → (g.e q).colored = false → q < g.ne := fun q c1 c2 =>
        F.reach (fun q => q < g.ne) hk (fun _ j q _ _ _ hq => h.agree.lt j q hq) q c1 c2
      have memMk : ∀ q, q ∈ Mk' ↔ q ∈ Mk ∨ (q < g.ne ∧ (g1.e q).colored = true ∧ (g.e q).diff = none) := by
        intro q
        rw [hMk, mem_insertAll, mem_toMark, s1.diff, s1.ne]
      have hkMk : k ∈ Mk' := (memMk k).mpr (.inr ⟨hk, hc1, hkd⟩)
      -- no equation which has a derivative is reached
      have newc : ∀ q, (g1.e q).colored = true → (g.e q).colored = false → (g.e q).diff = none := by
        intro q c1 c2
        refine F.reach (fun q => (g.e q).diff = none) hkd ?_ q c1 c2
        intro q0 j q' _ hj hc hq'
        by_contra hd
        have := h.frame.low hd (h.inc q' j ((h.agree.iff q' j).mpr hq'))
        rw [hc] at this
        cases this
      have full' : Full consA (· ∈ Mk') g := by
        intro q hq j hj hc
        have old : q ∈ Mk → ∃ k', k' ∈ Mk' ∧ (g.v j).assign = some k' := by
          intro hq
          obtain ⟨q', b1, b2⟩ := h.full q hq j hj hc
          exact ⟨q', (memMk q').mpr (.inl b1), b2⟩
        rcases (memMk q).mp hq with hq | ⟨q1, q2, q3⟩
        · exact old hq
        · cases hcol : (g.e q).colored with
          | true =>
            rcases h.col q hcol with h1 | h1
            · exact old h1
            · exact absurd q3 h1
          | false =>
            obtain ⟨_, q', b1, b2⟩ := F.done q q2 hcol j hj hc
            refine ⟨q', ?_, b1⟩
            have hd : (g.e q').diff = none := by
              by_contra hd
              have := h.frame.low hd (h.inc q' j ((h.agree.iff q' j).mpr b1))
              rw [hc] at this
              cases this
            exact (memMk q').mpr (.inr ⟨h.agree.lt j q' b1, b2, hd⟩)
      have mk' : ∀ q ∈ Mk', q < g.ne ∧ (g.e q).diff = none := by
        intro q hq
        rcases (memMk q).mp hq with hq | ⟨q1, q2, q3⟩
        · exact ⟨(h.mks q hq).1, (h.mks q hq).2.1⟩
        · exact ⟨q1, q3⟩
      have hall' : Singular (incOf consA g) Mk'.toFinset := by
        unfold Singular
        have hsub : (Mk'.toFinset.biUnion fun q => (incOf consA g q).toFinset).card ≤ (Mk'.toFinset.erase k).card := by
          refine Finset.card_le_card_of_injOn (fun j => ((g.v j).assign).getD 0) ?_ ?_
          · intro j hj
            simp only [Finset.coe_biUnion, Set.mem_iUnion, incOf] at hj
            obtain ⟨q, hq, hj⟩ := hj
            simp only [List.coe_toFinset, Set.mem_setOf_eq, List.mem_filter] at hj hq
            obtain ⟨q', b1, b2⟩ := full' q hq j hj.1 hj.2
            simp only [b2, Option.getD_some, Finset.coe_erase, Set.mem_diff, Set.mem_singleton_iff, List.coe_toFinset,
              Set.mem_setOf_eq]
            refine ⟨b1, ?_⟩
            rintro rfl
            rw [(h.agree.iff q' j).mpr b2] at hun; cases hun
          · intro j hj j' hj' heq
            simp only [Finset.coe_biUnion, Set.mem_iUnion, incOf] at hj hj'
            obtain ⟨q, hq, hj⟩ := hj
            obtain ⟨q', hq', hj'⟩ := hj'
            simp only [List.coe_toFinset, Set.mem_setOf_eq, List.mem_filter] at hj hj' hq hq'
            obtain ⟨n, b1, b2⟩ := full' q hq j hj.1 hj.2
            obtain ⟨n', b1', b2'⟩ := full' q' hq' j' hj'.1 hj'.2
            simp only [b2, b2', Option.getD_some] at heq
            subst heq
            have e1 := (h.agree.iff n j).mpr b2
            rw [(h.agree.iff n j').mpr b2'] at e1
            exact (Option.some.inj e1).symm
        have := Finset.card_erase_lt_of_mem (List.mem_toFinset.mpr hkMk)
        omega
      -- the second search
      have hkc2 : (g2.e k).colored = false := by
        rw [hg2, uncolorMarked_e, s1.diff, hkd]
        simp
      have dB := augG_does (mark := true) static_true pick1_ok g2.ne
      rcases dB k g2 m2 hkc2 (by rw [s2.ne]; exact hk) (fun j hj => by rw [uv2] at hj; cases hj) (unc_le g2) with
        ⟨g3, e3, F3⟩ | ⟨g3, e3, hc3, F3⟩
      · rw [hA', e3]
        right
        refine ⟨_, _, rfl, ?_⟩
        rw [← hMk]
        have hun2 : (g2.e k).assign = none := by rw [a2, hun]
        have hk2 : k < g2.ne := by rw [s2.ne]; exact hk
        have hm3 := found_mut m2 hk2 hun2 F3
        have cl : Closed (fun _ => true) (fun q => q ∈ Mk' ∨ (g.e q).diff ≠ none) g2 := by
          intro q hq j hj _ q' hq'
          rw [s2.vars] at hj
          rw [v2] at hq'
          by_cases hd : (g.e q').diff = none
          · left
            by_contra hq'm
            have hh := h.high q' hd (fun x => hq'm ((memMk q').mpr (.inl x))) j ((h.agree.iff q' j).mpr hq')
            rcases hq with hq | hq
            · obtain ⟨q'', b1, b2⟩ := full' q hq j hj hh
              rw [hq'] at b2
              cases b2
              exact hq'm b1
            · have := h.frame.low hq hj
              rw [hh] at this
              cases this
          · exact .inr hd
        have st3 := augG_stay static_true g2.ne k g2 true g3 cl (.inl hkMk) e3
        have s3 : Same g (uncolorV g3) := (s2.trans F3.same).trans (same_uncolorV g3)
        have hself : (g3.e k).assign ≠ none := by
          obtain ⟨j, hj, _⟩ := F3.self
          rw [hj]; simp
        have keep : ∀ q, (g.e q).assign ≠ none → (g3.e q).assign ≠ none := fun q hq => F3.keep q (by rw [a2]; exact hq)
        have inc3 : ∀ q j, (g3.e q).assign = some j → j ∈ (g.e q).vars := by
          intro q j hq
          rcases F3.inc q j hq with h1 | h1
          · rw [a2] at h1; exact h.inc q j h1
          · have := h1.1; rw [s2.vars] at this; exact this
        have full3 : Full consA (· ∈ Mk') (uncolorV g3) := by
          intro q hq j hj hc
          rw [s3.vars] at hj
          rw [s3.cons static_consA] at hc
          obtain ⟨q', b1, b2⟩ := full' q hq j hj hc
          obtain ⟨p, hp⟩ := Option.ne_none_iff_exists'.mp (F3.keepV j (by rw [v2, b2]; simp))
          refine ⟨p, ?_, hp⟩
          have hp' := (hm3.iff p j).mpr hp
          by_cases hS : p ∈ Mk' ∨ (g.e p).diff ≠ none
          · rcases hS with hS | hS
            · exact hS
            · have := h.frame.low hS (inc3 p j hp')
              rw [hc] at this
              cases this
          · rw [st3.out p hS, a2] at hp'
            rw [(h.agree.iff p j).mp hp'] at b2
            cases b2
            exact b1
        refine ⟨⟨h.frame.same s3, ⟨hm3.iff, hm3.lt⟩, ?_, fun _ => rfl, ?_, ?_, ?_, ?_, full3, ?_, ?_⟩, s3, keep, hself⟩
        · intro q j hq
          rw [s3.vars]
          exact inc3 q j hq
        · intro q hq
          rw [s3.diff]
          by_contra hS
          have hq : (g3.e q).colored = true := hq
          rw [st3.out q hS] at hq
          have hd : (g.e q).diff = none := Decidable.not_not.mp fun x => hS (.inr x)
          rw [hg2, uncolorMarked_e, s1.diff, hd] at hq
          simp at hq
        · intro q hq
          rw [s3.diff] at hq
          exact keep q (h.dass q hq)
        · intro q hq
          obtain ⟨b1, b2⟩ := mk' q hq
          refine ⟨by rw [s3.ne]; exact b1, by rw [s3.diff]; exact b2, ?_⟩
          by_cases hqk : q = k
          · rw [hqk]; exact hself
          · refine keep q ?_
            rcases (memMk q).mp hq with hq | ⟨_, q2, q3⟩
            · exact (h.mks q hq).2.2
            · cases hcol : (g.e q).colored with
              | true =>
                rcases h.col q hcol with h1 | h1
                · exact (h.mks q h1).2.2
                · exact absurd q3 h1
              | false =>
                have := F.reach (fun q => q = k ∨ (g.e q).assign ≠ none) (.inl rfl) (fun _ j q _ _ _ hq => .inr (by
                  rw [(h.agree.iff q j).mpr hq]; simp)) q q2 hcol
                exact this.resolve_left hqk
        · rw [hMk]; exact nodup_insertAll h.nodup (nodup_toMark g1)
        · intro q hq hqm j hj
          rw [s3.diff] at hq
          rw [s3.cons static_consA]
          have hj : (g3.e q).assign = some j := hj
          rw [st3.out q (by rintro (x | x); exact hqm x; exact x hq), a2] at hj
          exact h.high q hq (fun x => hqm ((memMk q).mpr (.inl x))) j hj
        · intro _
          rw [incOf_same s3]
          exact hall'
      · left
        rw [hA', e3]
        refine ⟨rfl, fun hcase => ?_⟩
        have hce : ∀ q, (g2.e q).colored = false := by
          intro q
          rw [hg2, uncolorMarked_e, s1.diff]
          rcases hcase with rfl | hd
          · simp
          · simp [hd]
        rcases search_result dB m2 uv2 hce (by rw [s2.ne]; exact hk) (by rw [a2, hun]) (Nat.le_refl _) with
          ⟨g4, e4, _⟩ | ⟨g4, e4, F4, _, b2, _, b4⟩
        · rw [e3] at e4; cases e4
        · refine ⟨coloredE g4, fun q hq => ?_, ?_⟩
          · rw [← s2.ne]
            exact b2 q (Finset.mem_filter.mp hq).2
          · have : incOf (fun _ => true) g2 = fun k => (g.e k).vars := by
              funext q; unfold incOf; simp [s2.vars]
            rw [this] at b4
            exact b4

/-! ### a round -/

theorem assignAll_fold {m : Nat} (all : Bool) : ∀ (n a : Nat) (g : BG) (Mk : List Nat), SInv m Mk g → a + n = g.ne →
    (∀ q, q < a → (g.e q).assign ≠ none) →
    ((List.range' a n).foldlM (assignOne all) (g, Mk) = .error .exception ∧
      ((all = true ∨ ∀ q, (g.e q).diff = none) → SingularSet g)) ∨
    ∃ g' Mk', (List.range' a n).foldlM (assignOne all) (g, Mk) = .ok (g', Mk') ∧ SInv m Mk' g' ∧ Same g g' ∧
      ∀ q, q < g.ne → (g'.e q).assign ≠ none := by
  intro n
  induction n with
  | zero =>
    intro a g Mk h ha hd
    exact .inr ⟨g, Mk, rfl, h, Same.refl g, fun q hq => hd q (by omega)⟩
  | succ n ih =>
    intro a g Mk h ha hd
    rw [List.range'_succ, List.foldlM_cons]
    rcases assignOne_ok all h (k := a) (by omega) with ⟨e, hs⟩ | ⟨g1, Mk1, e, N⟩
    · exact .inl ⟨by rw [e]; rfl, hs⟩
    · rw [e]
      show ((List.range' (a + 1) n).foldlM (assignOne all) (g1, Mk1) = _ ∧ _) ∨ _
      rcases ih (a + 1) g1 Mk1 N.inv (by rw [N.same.ne]; omega) (fun q hq => by
        by_cases hqa : q = a
        · rw [hqa]; exact N.self
        · exact N.keep q (hd q (by omega))) with ⟨e2, hs⟩ | ⟨g2, Mk2, e2, h2, s2, d2⟩
      · refine .inl ⟨e2, fun hc => ?_⟩
        obtain ⟨E, b1, b2⟩ := hs (hc.imp id fun x q => by rw [N.same.diff]; exact x q)
        refine ⟨E, fun q hq => by rw [← N.same.ne]; exact b1 q hq, ?_⟩
        have : (fun k => (g1.e k).vars) = fun k => (g.e k).vars := by funext q; exact N.same.vars q
        rw [this] at b2
        exact b2
      · exact .inr ⟨g2, Mk2, e2, h2, N.same.trans s2, fun q hq => d2 q (by rw [N.same.ne]; exact hq)⟩

theorem assignAll_ok {m : Nat} (all : Bool) {g : BG} (h : SInv m [] g) :
    (assignAll all g = .error .exception ∧ ((all = true ∨ ∀ q, (g.e q).diff = none) → SingularSet g)) ∨
    ∃ g' Mk', assignAll all g = .ok (g', Mk') ∧ SInv m Mk' g' ∧ Same g g' ∧ ∀ q, q < g.ne → (g'.e q).assign ≠ none := by
  have := assignAll_fold all g.ne 0 g [] h (Nat.zero_add _) (fun q hq => by omega)
  rw [← List.range_eq_range'] at this
  exact this

end Verif.Dae.Soares
