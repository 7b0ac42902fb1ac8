import Verif.Loops.LemmasGen

/-
The contributions to constant locations are the blocks of the chain rule without an index, and the part with the second derivatives
of the temporaries.
-/
namespace Verif.Loops

open Verif.Index Verif.Ranges

variable {α : Type} [CommRing α]

/-- the blocks without an index -/
def constBlocks (c : Cx) (Hg : Nat → Nat → α) (Z : Nat → Nat → α) (j1 j2 : Nat) : α :=
  (SumN c.l j1 fun p1 => SumN c.l j2 (Hg p1)) + (SumN c.l j1 fun p1 => SumT c.l Z j2 (Hg p1)) +
  (SumT c.l Z j1 fun pk => SumN c.l j2 (Hg pk)) + (SumT c.l Z j1 fun pk => SumT c.l Z j2 (Hg pk))

/-- the pattern row of a temporary contains the number of a non-indexed variable if it contains its tape variable: what the search in
the code assumes -/
def Lucky (c : Cx) (req : List (Nat × Nat × Nat)) : Prop :=
  ∀ g j1 j2 e fr k pk p2, (j1, j2, e) ∈ req → CT c fr j1 k pk → nonTape c.l j2 = some p2 → p2 ∈ c.row g pk → j2 ∈ c.row g pk

section
variable {c : Cx} (hc : CxOk c) {req : List (Nat × Nat × Nat)}
include hc

theorem tmp_at {k : Nat} (hk : k ∈ c.l.tmp) : ∃ p fr, c.fr = some fr ∧ tmpTape c.l k = some (c.l.ind.length + c.l.non.length + p) := by
  obtain ⟨p, hp⟩ := List.getElem?_of_mem hk
  obtain ⟨fr, hf, _⟩ := hc.temps k hk
  exact ⟨p, fr, hf, (tmpTape_eq hc.tmp).mpr ⟨p, hp, rfl⟩⟩

theorem mem_tmp_of {k pk : Nat} (h : tmpTape c.l k = some pk) : k ∈ c.l.tmp := by
  obtain ⟨p, h1, _⟩ := (tmpTape_eq hc.tmp).mp h
  exact List.mem_of_getElem? h1

variable (hE : Lucky c req) {W : Int → α} {H : Nat → Nat → Nat → Nat → α} {G : Nat → Nat → α}
  {ne : Nat} (hne : ∀ fr, c.fr = some fr → fr.eqs.length = ne) {all : List (Nat × Wr)} (hall : ∀ w ∈ req.flatMap (wLoop c), w ∈ all)
include hE hne hall

theorem constVal_ok {g : Nat} {gr : Group} (hg : (g, gr) ∈ c.gs) (hd : ∀ it, Der c g (fun t1 t2 => hgv c.l W H gr t1 t2 it) fun k j => G (ne + k) j) {j1 j2 e : Nat}
    (ho : (j1, j2, e) ∈ req) :
    ∃ u, constVal c.l (hv c.l W H (req.flatMap (wLoop c)) g gr) (dzDx ne G all) (req.flatMap (wLoop c)) g (j1, j2) = some u ∧
      ∀ it, u it = constBlocks c (fun t1 t2 => hgv c.l W H gr t1 t2 it) (fun k j => G (ne + k) j) j1 j2 := by
  generalize hws : req.flatMap (wLoop c) = ws at *
  have hmem : ∀ {g w}, (g, w) ∈ ws ↔ ∃ j1 j2 e, (j1, j2, e) ∈ req ∧ Leaf c j1 j2 e g w := fun {g w} => by rw [← hws]; exact mem_ws hc
  unfold constVal
  simp only
  -- non-indexed - non-indexed
  obtain ⟨v1, a1, a2⟩ : ∃ v, (if (g, Wr.nnE (j1, j2)) ∈ ws then (nonTape c.l j1).bind fun a => (nonTape c.l j2).bind fun b => hv c.l W H ws g gr a b else some fun _ => 0) = some v ∧
      ∀ it, v it = SumN c.l j1 fun p1 => SumN c.l j2 fun p2 => hgv c.l W H gr p1 p2 it := by
    by_cases h : (g, Wr.nnE (j1, j2)) ∈ ws
    · obtain ⟨j1', j2', e', hm, hl⟩ := hmem.mp h
      cases hl with
      | nnV hn =>
        rw [if_pos h, hn.non1, hn.non2]
        refine ⟨_, hv_some (hmem.mpr ⟨j1, j2, e', hm, .nnE hn⟩), fun it => ?_⟩
        simp only [SumN, hn.non1, hn.non2]
    · rw [if_neg h]
      refine ⟨_, rfl, fun it => ?_⟩
      unfold SumN
      cases hp1 : nonTape c.l j1 with
      | none => rfl
      | some p1 =>
        cases hp2 : nonTape c.l j2 with
        | none => rfl
        | some p2 =>
          refine ((hd it).cov p1 p2 fun hrow => h ?_).symm
          exact hmem.mpr ⟨j1, j2, e, ho, .nnV ⟨⟨gr, hg⟩, hp1, hp2, hrow⟩⟩
  rw [a1]
  simp only [Option.bind_some]
  -- non-indexed - temporary
  obtain ⟨v2, b1, b2⟩ : ∃ v, tmpDot (fun k => (nonTape c.l j1).bind fun a => (tmpTape c.l k).bind fun b => hv c.l W H ws g gr a b) (fun k => dzDx ne G all k j2) (ntEvals ws g (j1, j2)) v1 = some v ∧
      ∀ it, v it = v1 it + SumN c.l j1 fun p1 => SumT c.l (fun k j => G (ne + k) j) j2 fun pk => hgv c.l W H gr p1 pk it := by
    cases hp1 : nonTape c.l j1 with
    | none =>
      have : ntEvals ws g (j1, j2) = [] := by
        rw [List.eq_nil_iff_forall_not_mem]
        intro k hk
        obtain ⟨_, _, _, _, hl⟩ := hmem.mp (mem_ntEvals.mp hk)
        cases hl with
        | ntV hn => rw [hn.non1] at hp1; simp at hp1
      rw [this]
      exact ⟨v1, rfl, fun it => by simp [SumN, hp1]⟩
    | some p1 =>
      have hs : ∀ k ∈ ntEvals ws g (j1, j2), ((some p1).bind fun a => (tmpTape c.l k).bind fun b => hv c.l W H ws g gr a b) = some (hgv c.l W H gr p1 ((tmpTape c.l k).getD 0)) := by
        intro k hk
        obtain ⟨_, _, e', hm, hl⟩ := hmem.mp (mem_ntEvals.mp hk)
        cases hl with
        | ntV hn =>
          rw [hn.tmp.1]
          have := hn.non1
          rw [hp1] at this
          obtain rfl := Option.some.inj this
          exact hv_some (hmem.mpr ⟨j1, j2, e', hm, .ntE hn⟩)
      obtain ⟨u, h1, h2⟩ := tmpDot_ok (dz := fun k => dzDx ne G all k j2) _ hs v1
      refine ⟨u, h1, fun it => ?_⟩
      rw [h2, SumN, hp1]
      simp only [SumT]
      congr 1
      symm
      refine Eq.trans (lsum_subset (l' := ntEvals ws g (j1, j2)) hc.tmp (nub_nodup _) ?_ ?_) (lsum_congr ?_)
      · intro k hk
        obtain ⟨_, _, _, _, hl⟩ := hmem.mp (mem_ntEvals.mp hk)
        cases hl with
        | ntV hn => exact mem_tmp_of hc hn.tmp.1
      · intro k hk hk'
        obtain ⟨p, fr, hf, ht⟩ := tmp_at hc hk
        by_cases hrow : c.l.ind.length + c.l.non.length + p ∈ c.row g p1
        · have : fr.dep k j2 = false := by
            by_contra hn
            exact hk' (mem_ntEvals.mpr (hmem.mpr ⟨j1, j2, e, ho, .ntV ⟨hf, ⟨gr, hg⟩, hp1, ht, hrow, by simpa using hn⟩⟩))
          rw [(hd it).dz fr hf k hk j2 this, mul_zero]
        · rw [ht, Option.getD_some, (hd it).cov _ _ hrow, zero_mul]
      · intro k hk
        obtain ⟨_, _, e', hm, hl⟩ := hmem.mp (mem_ntEvals.mp hk)
        cases hl with
        | ntV hn =>
          have := hmem.mpr ⟨j1, j2, e', hm, .ntN hn⟩
          rw [hne _ hn.free] at this
          rw [dzDx_eq (hall _ this)]
  rw [b1]
  simp only [Option.bind_some]
  -- temporary - non-indexed
  obtain ⟨v3, c1, c2⟩ : ∃ v, tmpDot (fun k => (tmpTape c.l k).bind fun a => (nonTape c.l j2).bind fun b => hv c.l W H ws g gr a b) (fun k => dzDx ne G all k j1) (tnEvals ws g (j1, j2)) v2 = some v ∧
      ∀ it, v it = v2 it + SumT c.l (fun k j => G (ne + k) j) j1 fun pk => SumN c.l j2 fun p2 => hgv c.l W H gr pk p2 it := by
    cases hp2 : nonTape c.l j2 with
    | none =>
      have : tnEvals ws g (j1, j2) = [] := by
        rw [List.eq_nil_iff_forall_not_mem]
        intro k hk
        obtain ⟨_, _, _, _, hl⟩ := hmem.mp (mem_tnEvals.mp hk)
        cases hl with
        | tnV _ _ hn => rw [hn] at hp2; simp at hp2
      rw [this]
      refine ⟨v2, rfl, fun it => ?_⟩
      have h0 : ∀ f : Nat → α, SumN c.l j2 f = 0 := fun f => by simp [SumN, hp2]
      simp only [h0, SumT, zero_mul]
      rw [lsum_zero fun _ _ => rfl, add_zero]
    | some p2 =>
      have hs : ∀ k ∈ tnEvals ws g (j1, j2), ((tmpTape c.l k).bind fun a => (some p2).bind fun b => hv c.l W H ws g gr a b) = some (hgv c.l W H gr ((tmpTape c.l k).getD 0) p2) := by
        intro k hk
        obtain ⟨_, _, e', hm, hl⟩ := hmem.mp (mem_tnEvals.mp hk)
        cases hl with
        | tnV ht hgr hn hrow =>
          rw [ht.tape]
          have h' := hn
          rw [hp2] at h'
          obtain rfl := Option.some.inj h'
          exact hv_some (hmem.mpr ⟨j1, j2, e', hm, .tnE ht hgr hn hrow⟩)
      obtain ⟨u, h1, h2⟩ := tmpDot_ok (dz := fun k => dzDx ne G all k j1) _ hs v2
      refine ⟨u, h1, fun it => ?_⟩
      rw [h2]
      simp only [SumT, SumN, hp2]
      congr 1
      symm
      refine Eq.trans (lsum_subset (l' := tnEvals ws g (j1, j2)) hc.tmp (nub_nodup _) ?_ ?_) (lsum_congr ?_)
      · intro k hk
        obtain ⟨_, _, _, _, hl⟩ := hmem.mp (mem_tnEvals.mp hk)
        cases hl with
        | tnV ht => exact mem_tmp_of hc ht.tape
      · intro k hk hk'
        obtain ⟨p, fr, hf, ht⟩ := tmp_at hc hk
        by_cases hdep : fr.dep k j1 = true
        · by_cases hrow : p2 ∈ c.row g (c.l.ind.length + c.l.non.length + p)
          · exfalso
            have hct : CT c fr j1 k (c.l.ind.length + c.l.non.length + p) := ⟨hf, hdep, ht⟩
            exact hk' (mem_tnEvals.mpr (hmem.mpr ⟨j1, j2, e, ho, .tnV hct ⟨gr, hg⟩ hp2 (hE g j1 j2 e fr k _ p2 ho hct hp2 hrow)⟩))
          · rw [ht, Option.getD_some, (hd it).cov _ _ hrow, zero_mul]
        · rw [(hd it).dz fr hf k hk j1 (by simpa using hdep), mul_zero]
      · intro k hk
        obtain ⟨_, _, e', hm, hl⟩ := hmem.mp (mem_tnEvals.mp hk)
        cases hl with
        | tnV ht hgr hn hrow =>
          have := hmem.mpr ⟨j1, j2, e', hm, .tN ht⟩
          rw [hne _ ht.free] at this
          rw [dzDx_eq (hall _ this)]
  rw [c1]
  simp only [Option.bind_some]
  -- temporary - temporary
  have hin : ∀ k1 ∈ ttKeys ws g (j1, j2), tmpDot (fun k2 => (tmpTape c.l k1).bind fun a => (tmpTape c.l k2).bind fun b => hv c.l W H ws g gr a b) (fun k2 => dzDx ne G all k2 j2) (ttEvals ws g (j1, j2) k1) (fun _ => 0) =
      some (fun it => SumT c.l (fun k j => G (ne + k) j) j2 fun pk2 => hgv c.l W H gr ((tmpTape c.l k1).getD 0) pk2 it) := by
    intro k1 hk1
    obtain ⟨k0, hk0⟩ := mem_ttKeys.mp hk1
    obtain ⟨_, _, e0, hm0, hl0⟩ := hmem.mp hk0
    cases hl0 with
    | ttV ht1 hgr htt0 =>
      rename_i fr pk1 pk0
      have hs : ∀ k2 ∈ ttEvals ws g (j1, j2) k1, ((tmpTape c.l k1).bind fun a => (tmpTape c.l k2).bind fun b => hv c.l W H ws g gr a b) = some (hgv c.l W H gr pk1 ((tmpTape c.l k2).getD 0)) := by
        intro k2 hk2
        obtain ⟨_, _, e', hm, hl⟩ := hmem.mp (mem_ttEvals.mp hk2)
        cases hl with
        | ttV ht hgr' htt =>
          have h' := ht.tape
          rw [ht1.tape] at h'
          obtain rfl := Option.some.inj h'
          rw [ht1.tape, htt.1]
          exact hv_some (hmem.mpr ⟨j1, j2, e', hm, .ttE ht hgr' htt⟩)
      obtain ⟨u, h1, h2⟩ := tmpDot_ok (dz := fun k => dzDx ne G all k j2) _ hs fun _ => 0
      rw [h1]
      congr 1
      funext it
      rw [h2, zero_add, ht1.tape, Option.getD_some, SumT]
      symm
      refine Eq.trans (lsum_subset (l' := ttEvals ws g (j1, j2) k1) hc.tmp (nub_nodup _) ?_ ?_) (lsum_congr ?_)
      · intro k hk
        obtain ⟨_, _, _, _, hl⟩ := hmem.mp (mem_ttEvals.mp hk)
        cases hl with
        | ttV _ _ htt => exact mem_tmp_of hc htt.1
      · intro k hk hk'
        obtain ⟨p, fr', hf, ht⟩ := tmp_at hc hk
        have hff := ht1.free
        rw [hf] at hff
        obtain rfl := Option.some.inj hff
        by_cases hrow : c.l.ind.length + c.l.non.length + p ∈ c.row g pk1
        · have : fr'.dep k j2 = false := by
            by_contra hn
            exact hk' (mem_ttEvals.mpr (hmem.mpr ⟨j1, j2, e, ho, .ttV ht1 ⟨gr, hg⟩ ⟨ht, hrow, by simpa using hn⟩⟩))
          rw [(hd it).dz fr' hf k hk j2 this, mul_zero]
        · rw [ht, Option.getD_some, (hd it).cov _ _ hrow, zero_mul]
      · intro k hk
        obtain ⟨_, _, e', hm, hl⟩ := hmem.mp (mem_ttEvals.mp hk)
        cases hl with
        | ttV ht hgr' htt =>
          have := hmem.mpr ⟨j1, j2, e', hm, .ttN ht hgr' htt⟩
          rw [hne _ ht.free] at this
          rw [dzDx_eq (hall _ this)]
  obtain ⟨v4, d1, d2⟩ := tmpDot_ok (dz := fun k => dzDx ne G all k j1) _ hin fun _ => 0
  rw [d1]
  refine ⟨_, rfl, fun it => ?_⟩
  simp only
  rw [c2, b2, a2, d2, constBlocks, zero_add]
  congr 1
  rw [SumT]
  symm
  refine Eq.trans (lsum_subset (l' := ttKeys ws g (j1, j2)) hc.tmp (nub_nodup _) ?_ ?_) (lsum_congr ?_)
  · intro k hk
    obtain ⟨_, hk⟩ := mem_ttKeys.mp hk
    obtain ⟨_, _, _, _, hl⟩ := hmem.mp hk
    cases hl with
    | ttV ht => exact mem_tmp_of hc ht.tape
  · intro k hk hk'
    obtain ⟨p, fr, hf, ht⟩ := tmp_at hc hk
    by_cases hdep : fr.dep k j1 = true
    · have hct : CT c fr j1 k (c.l.ind.length + c.l.non.length + p) := ⟨hf, hdep, ht⟩
      rw [ht, Option.getD_some]
      rw [SumT_zero hc (hd it) hf, zero_mul]
      rintro ⟨k2, pk2, htt⟩
      exact hk' (mem_ttKeys.mpr ⟨k2, hmem.mpr ⟨j1, j2, e, ho, .ttV hct ⟨gr, hg⟩ htt⟩⟩)
    · rw [(hd it).dz fr hf k hk j1 (by simpa using hdep), mul_zero]
  · intro k hk
    obtain ⟨_, hk⟩ := mem_ttKeys.mp hk
    obtain ⟨_, _, e', hm, hl⟩ := hmem.mp hk
    cases hl with
    | ttV ht hgr htt =>
      have := hmem.mpr ⟨j1, j2, e', hm, .tN ht⟩
      rw [hne _ ht.free] at this
      rw [dzDx_eq (hall _ this)]

end

/-! ### constant locations -/

/-- the blocks without an index of all groups -/
def constSum (c : Cx) (W : Int → α) (H : Nat → Nat → Nat → Nat → α) (Z : Nat → Nat → α) (gs : List (Nat × Group)) (j1 j2 it : Nat) : α :=
  lsum gs fun gp => if it ∈ gp.2.its then constBlocks c (fun t1 t2 => hgv c.l W H gp.2 t1 t2 it) Z j1 j2 else 0

theorem full_mem {its : List Nat} {n : Nat} (hnd : its.Nodup) (hlt : ∀ i ∈ its, i < n) (hlen : its.length = n) {it : Nat} (hit : it < n) : it ∈ its := by
  have h1 : its.toFinset ⊆ Finset.range n := by
    intro x hx
    rw [List.mem_toFinset] at hx
    exact Finset.mem_range.mpr (hlt x hx)
  have h2 : its.toFinset = Finset.range n := Finset.eq_of_subset_of_card_le h1 (by
    rw [List.toFinset_card_of_nodup hnd, Finset.card_range, hlen])
  have : it ∈ its.toFinset := by rw [h2]; exact Finset.mem_range.mpr hit
  exact List.mem_toFinset.mp this

section
variable {c : Cx} (hc : CxOk c) {req : List (Nat × Nat × Nat)} (hE : Lucky c req) {W : Int → α} {H : Nat → Nat → Nat → Nat → α} {G : Nat → Nat → α}
  {ne : Nat} (hne : ∀ fr, c.fr = some fr → fr.eqs.length = ne) {all : List (Nat × Wr)} (hall : ∀ w ∈ req.flatMap (wLoop c), w ∈ all)
  {isZ : (Nat → α) → Bool} (hz : ∀ f, isZ f = true → ∀ it, f it = 0) (hmax : c.l.iters - 1 ≤ sizeMax)
include hc hE hne hall hz hmax

theorem genConstGroups_ok {j1 j2 e : Nat} (ho : (j1, j2, e) ∈ req) :
    ∀ (gs : List (Nat × Group)), (∀ gp ∈ gs, gp ∈ c.gs) → (∀ gp ∈ gs, ∀ it, Der c gp.1 (fun t1 t2 => hgv c.l W H gp.2 t1 t2 it) fun k j => G (ne + k) j) →
    ∀ (v : Nat → α) {b : Body α} {cs : List (Contr α)}, Meets c.l.iters true b cs →
    ∃ v' b' cs', genConstGroups isZ c.l (hv c.l W H (req.flatMap (wLoop c))) (dzDx ne G all) (req.flatMap (wLoop c)) (j1, j2) e gs v b = .ok (v', b') ∧
      Meets c.l.iters true b' (cs ++ cs') ∧ ∀ it < c.l.iters, ∀ e', csum cs' e' it + (if e' = e then v' it else 0) =
        if e' = e then v it + constSum c W H (fun k j => G (ne + k) j) gs j1 j2 it else 0
  | [], _, _, v, b, cs, hb => ⟨v, b, [], rfl, by simpa using hb, fun it _ e' => by simp [csum, constSum]⟩
  | (g, gr) :: gs, hin, hd, v, b, cs, hb => by
    have hg := hin (g, gr) List.mem_cons_self
    have hgm := List.mem_of_getElem? (hc.mem_gs.mp hg)
    obtain ⟨u, h1, h2⟩ := constVal_ok hc hE hne hall hg (hd (g, gr) List.mem_cons_self) ho
    rw [genConstGroups, h1]
    simp only
    have hin' := fun gp (h : gp ∈ gs) => hin gp (List.mem_cons_of_mem _ h)
    have hd' := fun gp (h : gp ∈ gs) => hd gp (List.mem_cons_of_mem _ h)
    by_cases hlen : gr.its.length ≠ c.l.iters
    · rw [if_pos hlen]
      by_cases hzu : isZ u = true
      · rw [if_pos hzu]
        obtain ⟨v', b', cs', a1, a2, a3⟩ := genConstGroups_ok ho gs hin' hd' v hb
        refine ⟨v', b', cs', a1, a2, fun it hit e' => ?_⟩
        rw [a3 it hit, constSum, constSum, lsum_cons]
        simp only
        rw [← h2 it, hz u hzu it]
        simp
      · rw [if_neg hzu]
        obtain ⟨b1, k1, k2⟩ := meets_constContr hmax hb e (group_its_lt hgm) (hc.its _ hg) u
        rw [k1]
        simp only
        obtain ⟨v', b', cs', a1, a2, a3⟩ := genConstGroups_ok ho gs hin' hd' v k2
        refine ⟨v', b', _ :: cs', a1, by rwa [List.append_assoc, List.singleton_append] at a2, fun it hit e' => ?_⟩
        have := a3 it hit e'
        rw [csum, List.map_cons, List.sum_cons]
        change _ + csum cs' e' it + _ = _
        rw [add_assoc, this, constSum, constSum, lsum_cons]
        simp only
        rw [← h2 it]
        by_cases he : e' = e
        · subst he
          by_cases hm : it ∈ gr.its
          · simp only [hm, if_true]; ring
          · simp [hm]
        · have he' : e ≠ e' := fun h => he h.symm
          by_cases hm : it ∈ gr.its <;> simp [hm, he, he']
    · rw [if_neg hlen]
      have hlen : gr.its.length = c.l.iters := by simpa using hlen
      obtain ⟨v', b', cs', a1, a2, a3⟩ := genConstGroups_ok ho gs hin' hd' (fun it => v it + u it) hb
      refine ⟨v', b', cs', a1, a2, fun it hit e' => ?_⟩
      rw [a3 it hit, constSum, constSum, lsum_cons]
      simp only
      rw [if_pos (full_mem (group_its_nodup hgm) (group_its_lt hgm) hlen hit), h2 it, add_assoc]

theorem genConst_ok {dzz : Nat → Nat → Option (Nat → α)} {dd : Nat → Nat → Nat → α}
    (hdz : ∀ j1 j2 e, (j1, j2, e) ∈ req → nlFound (req.flatMap (wLoop c)) (j1, j2) = true → ∃ u, dzz j1 j2 = some u ∧ ∀ it < c.l.iters, u it = dd it j1 j2)
    (hdz0 : ∀ j1 j2 e, (j1, j2, e) ∈ req → nlFound (req.flatMap (wLoop c)) (j1, j2) = false → ∀ it, dd it j1 j2 = 0)
    (hd : ∀ gp ∈ c.gs, ∀ it, Der c gp.1 (fun t1 t2 => hgv c.l W H gp.2 t1 t2 it) fun k j => G (ne + k) j) :
    ∀ (L : List ((Nat × Nat) × Nat)), (∀ p ∈ L, (p.1.1, p.1.2, p.2) ∈ req) → ∀ {b : Body α} {cs : List (Contr α)}, Meets c.l.iters true b cs →
    ∃ b' cs', genConst isZ c.l (hv c.l W H (req.flatMap (wLoop c))) (dzDx ne G all) dzz (req.flatMap (wLoop c)) c.gs L b = .ok b' ∧
      Meets c.l.iters true b' (cs ++ cs') ∧ ∀ it < c.l.iters, ∀ e, csum cs' e it =
        lsum L fun p => if p.2 = e then constSum c W H (fun k j => G (ne + k) j) c.gs p.1.1 p.1.2 it + dd it p.1.1 p.1.2 else 0
  | [], _, b, cs, hb => ⟨b, [], rfl, by simpa using hb, fun it _ e' => by simp [csum]⟩
  | ((j1, j2), e) :: L, hL, b, cs, hb => by
    have ho : (j1, j2, e) ∈ req := hL _ List.mem_cons_self
    obtain ⟨v, b1, cs1, a1, a2, a3⟩ := genConstGroups_ok hc hE hne hall hz hmax ho c.gs (fun _ h => h) hd (fun _ => 0) hb
    rw [genConst, a1]
    simp only
    obtain ⟨w, h1, h2⟩ : ∃ w, (if nlFound (req.flatMap (wLoop c)) (j1, j2) then (dzz j1 j2).map fun d it => v it + d it else some v) = some w ∧
        ∀ it < c.l.iters, w it = v it + dd it j1 j2 := by
      cases hnl : nlFound (req.flatMap (wLoop c)) (j1, j2) with
      | true =>
        obtain ⟨u, h1, h2⟩ := hdz j1 j2 e ho hnl
        exact ⟨_, by rw [h1]; rfl, fun it hit => by simp only; rw [h2 it hit]⟩
      | false => exact ⟨v, rfl, fun it _ => by rw [hdz0 j1 j2 e ho hnl it, add_zero]⟩
    rw [h1]
    simp only
    have hLL := fun p (h : p ∈ L) => hL p (List.mem_cons_of_mem _ h)
    by_cases hzw : isZ w = true
    · rw [if_pos hzw]
      obtain ⟨b2, cs2, k1, k2, k3⟩ := genConst_ok hdz hdz0 hd L hLL a2
      refine ⟨b2, cs1 ++ cs2, k1, by rwa [← List.append_assoc], fun it hit e' => ?_⟩
      rw [csum_append, k3 it hit, lsum_cons]
      congr 1
      have := a3 it hit e'
      have hw := h2 it hit
      rw [hz w hzw it] at hw
      simp only [zero_add] at this
      by_cases he : e' = e
      · subst he
        simp only [if_true] at this ⊢
        rw [← this, add_assoc, ← hw, add_zero]
      · have he' : e ≠ e' := fun h => he h.symm
        simp only [he, he', if_false, add_zero] at this ⊢
        exact this
    · rw [if_neg hzw]
      obtain ⟨b2, cs2, k1, k2, k3⟩ := genConst_ok hdz hdz0 hd L hLL (meets_const a2 e w)
      refine ⟨b2, cs1 ++ (⟨w, fun _ => some e⟩ :: cs2), k1, ?_, fun it hit e' => ?_⟩
      · rw [List.append_assoc, List.append_assoc, List.singleton_append] at k2
        exact k2
      · have hcons : csum (⟨w, fun _ => some e⟩ :: cs2) e' it = (if e = e' then w it else 0) + csum cs2 e' it := by simp [csum]
        rw [csum_append, hcons, k3 it hit, lsum_cons, ← add_assoc]
        congr 1
        have := a3 it hit e'
        simp only [zero_add] at this
        by_cases he : e' = e
        · subst he
          simp only [if_true] at this ⊢
          rw [← this, h2 it hit, add_assoc]
        · have he' : e ≠ e' := fun h => he h.symm
          simp only [he, he', if_false, add_zero] at this ⊢
          exact this

end

/-! ### entries of the table -/

theorem mem_constWr {ws : List (Nat × Wr)} {o : Nat × Nat} {e : Nat} : (o, e) ∈ constWr ws ↔ ∃ g, (g, Wr.const o e) ∈ ws := by
  rw [constWr, List.mem_filterMap]
  constructor
  · rintro ⟨⟨g, w⟩, h1, h2⟩
    cases w with
    | const o' e' =>
      obtain ⟨rfl, rfl⟩ := Prod.mk.inj (Option.some.inj h2)
      exact ⟨g, h1⟩
    | _ => simp at h2
  · rintro ⟨g, h⟩
    exact ⟨_, h, rfl⟩

theorem constPos_mem {ws : List (Nat × Wr)} {p : (Nat × Nat) × Nat} (h : p ∈ constPos ws) : p ∈ constWr ws := by
  obtain ⟨o, _, h2⟩ := List.mem_filterMap.mp h
  exact (List.mem_filter.mp (List.mem_of_getLast? h2)).1

theorem mem_constPos {ws : List (Nat × Wr)} (hu : ∀ o e e', (o, e) ∈ constWr ws → (o, e') ∈ constWr ws → e = e') {p : (Nat × Nat) × Nat} :
    p ∈ constPos ws ↔ p ∈ constWr ws := by
  refine ⟨constPos_mem, fun h => ?_⟩
  obtain ⟨o, e⟩ := p
  refine List.mem_filterMap.mpr ⟨o, mem_nub.mpr (List.mem_map.mpr ⟨_, h, rfl⟩), ?_⟩
  cases hl : ((constWr ws).filter fun p => p.1 = o).getLast? with
  | none =>
    rw [List.getLast?_eq_none_iff] at hl
    have : (o, e) ∈ (constWr ws).filter fun p => p.1 = o := List.mem_filter.mpr ⟨h, by simp⟩
    rw [hl] at this; simp at this
  | some q =>
    obtain ⟨o', e'⟩ := q
    have hq := List.mem_filter.mp (List.mem_of_getLast? hl)
    have ho : o' = o := by simpa using hq.2
    subst ho
    rw [hu _ _ _ h hq.1]

theorem constPos_nodup (ws : List (Nat × Wr)) : (constPos ws).Nodup := by
  unfold constPos
  refine (nub_nodup _).filterMap ?_
  intro o o' p h h'
  have h1 := (List.mem_filter.mp (List.mem_of_getLast? h)).2
  have h2 := (List.mem_filter.mp (List.mem_of_getLast? h')).2
  simp only [decide_eq_true_eq] at h1 h2
  rw [← h1, ← h2]

/-! ### second derivatives of the temporaries -/

/-- weight of a temporary -/
def tmpW (l : Loop) (W : Int → α) (D : Nat → Nat → Nat → α) (gs : List (Nat × Group)) (pk it : Nat) : α :=
  lsum gs fun gp => if it ∈ gp.2.its then lsum gp.2.tapeI fun i => weight l W i it * D i pk it else 0

/-- the part of the chain rule with the second derivatives of the temporaries -/
def ddSum (c : Cx) (W : Int → α) (D : Nat → Nat → Nat → α) (G2 : Nat → Nat → Nat → α) (ne it j1 j2 : Nat) : α :=
  lsum c.l.tmp fun k => tmpW c.l W D c.gs ((tmpTape c.l k).getD 0) it * G2 (ne + k) j1 j2

theorem condOp_ok {isZ : (Nat → α) → Bool} (hz : ∀ f, isZ f = true → ∀ it, f it = 0) {its : List Nat} {n : Nat} (hnd : its.Nodup) (hlt : ∀ i ∈ its, i < n)
    (hne : its ≠ []) (hmax : n - 1 ≤ sizeMax) (v : Nat → α) : ∃ u, condOp isZ its n v = some u ∧ ∀ it < n, u it = if it ∈ its then v it else 0 := by
  unfold condOp
  split
  · rename_i hlen
    exact ⟨v, rfl, fun it hit => by rw [if_pos (full_mem hnd hlt hlen hit)]⟩
  · split
    · rename_i hzv
      exact ⟨v, rfl, fun it _ => by rw [hz v hzv it]; split <;> rfl⟩
    · have hspec := createIndexCondition_spec its [] (n - 1) hmax (fun i hi => by have := hlt i hi; omega) (by simp) hne
      obtain ⟨i0, hi0⟩ := List.exists_mem_of_ne_nil its hne
      have hn : 0 < n := by have := hlt i0 hi0; omega
      obtain ⟨c0, hc0, _⟩ := hspec 0 (by omega)
      rw [hc0]
      refine ⟨_, rfl, fun it hit => ?_⟩
      obtain ⟨c1, h1, h2, h3⟩ := hspec it (by omega)
      rw [hc0] at h1
      obtain rfl := Option.some.inj h1
      simp only
      by_cases hm : it ∈ its
      · rw [h2 hm, if_pos hm]; rfl
      · rw [h3 hm (by simp), if_neg hm]; rfl

theorem tmpWeight_ok {c : Cx} (hc : CxOk c) {isZ : (Nat → α) → Bool} (hz : ∀ f, isZ f = true → ∀ it, f it = 0) (hmax : c.l.iters - 1 ≤ sizeMax)
    (W : Int → α) (D : Nat → Nat → Nat → α) (ws : List (Nat × Wr)) (pk : Nat) : ∀ (gs : List Group), (∀ gr ∈ gs, gr ∈ groups c.l) → (∀ gr ∈ gs, gr.its ≠ []) → ∀ v : Nat → α,
    ∃ u, tmpWeight isZ c.l W D ws pk gs v = some u ∧ ∀ it < c.l.iters, u it = v it + lsum gs fun gr => if it ∈ gr.its then
      lsum (gr.tapeI.filter fun i => ws.any fun w => decide (w.2 = Wr.evJac i pk)) (fun i => weight c.l W i it * D i pk it) else 0
  | [], _, _, v => ⟨v, rfl, fun it _ => by simp⟩
  | gr :: gs, hin, hne, v => by
    have hg := hin gr List.mem_cons_self
    obtain ⟨u, h1, h2⟩ := condOp_ok hz (group_its_nodup hg) (group_its_lt hg) (hne gr List.mem_cons_self) hmax
      fun it => ((gr.tapeI.filter fun i => ws.any fun w => decide (w.2 = Wr.evJac i pk)).map fun i => D i pk it * weight c.l W i it).sum
    rw [tmpWeight, h1]
    simp only
    obtain ⟨u', k1, k2⟩ := tmpWeight_ok hc hz hmax W D ws pk gs (fun g h => hin g (List.mem_cons_of_mem _ h)) (fun g h => hne g (List.mem_cons_of_mem _ h))
      fun it => v it + u it
    refine ⟨u', k1, fun it hit => ?_⟩
    rw [k2 it hit, h2 it hit, lsum_cons, add_assoc]
    congr 2
    split
    · change lsum _ _ = _
      exact lsum_congr fun i _ => mul_comm _ _
    · rfl

section
variable {c : Cx} (hc : CxOk c) {req : List (Nat × Nat × Nat)} {W : Int → α} {D : Nat → Nat → Nat → α} {G2 : Nat → Nat → Nat → α}
  {ne : Nat} (hne : ∀ fr, c.fr = some fr → fr.eqs.length = ne) {all : List (Nat × Wr)} (hall : ∀ w ∈ req.flatMap (wLoop c), w ∈ all)
  (hD : ∀ (i : Nat) (row : List Nat), c.jac[i]? = some row → ∀ t, t ∉ row → ∀ it, D i t it = 0)
  (hGa : ∀ fr, c.fr = some fr → ∀ k ∈ c.l.tmp, ∀ j1 j2, fr.dep k j1 = false → G2 (ne + k) j1 j2 = 0)
  (hGb : ∀ k ∈ c.l.tmp, ∀ j1 j2, j2 ∉ c.hesTmp j1 → G2 (ne + k) j1 j2 = 0)
include hc hD hGa hGb

theorem nlFound_iff {o : Nat × Nat} {ws : List (Nat × Wr)} : nlFound ws o = true ↔ ∃ g k, (g, Wr.nl o k) ∈ ws := by
  unfold nlFound
  rw [List.any_eq_true]
  constructor
  · rintro ⟨⟨g, w⟩, h1, h2⟩
    cases w with
    | nl o' k =>
      simp only [decide_eq_true_eq] at h2
      subst h2
      exact ⟨g, k, h1⟩
    | _ => simp at h2
  · rintro ⟨g, k, h⟩
    exact ⟨_, h, by simp⟩

theorem group_row {gp : Nat × Group} (hg : gp ∈ c.gs) {i : Nat} (hi : i ∈ gp.2.tapeI) : ∃ row, c.jac[i]? = some row := by
  obtain ⟨g, gr⟩ := gp
  have := (group_tapeI (List.mem_of_getElem? (hc.mem_gs.mp hg)) hi).1
  rw [← hc.jac] at this
  exact ⟨_, List.getElem?_eq_getElem this⟩

/-- no write, nothing to add -/
theorem dd_zero {j1 j2 e : Nat} (ho : (j1, j2, e) ∈ req) (h : nlFound (req.flatMap (wLoop c)) (j1, j2) = false) (it : Nat) : ddSum c W D G2 ne it j1 j2 = 0 := by
  unfold ddSum
  refine lsum_zero fun k hk => ?_
  obtain ⟨p, fr, hf, ht⟩ := tmp_at hc hk
  by_cases hdep : fr.dep k j1 = true
  · by_cases hh : j2 ∈ c.hesTmp j1
    · rw [tmpW, lsum_zero, zero_mul]
      intro gp hgp
      split
      · refine lsum_zero fun i hi => ?_
        obtain ⟨row, hrow⟩ := group_row hc hD hGa hGb hgp hi
        rw [ht, Option.getD_some, hD i row hrow, mul_zero]
        intro hin
        have : nlFound (req.flatMap (wLoop c)) (j1, j2) = true :=
          (nlFound_iff hc hD hGa hGb).mpr ⟨0, k, (mem_ws hc).mpr ⟨j1, j2, e, ho, .dzN ⟨hf, hdep, ht⟩ hh hrow hin⟩⟩
        rw [h] at this
        simp at this
      · rfl
    · rw [hGb k hk j1 j2 hh, mul_zero]
  · rw [hGa fr hf k hk j1 j2 (by simpa using hdep), mul_zero]

include hne hall
theorem tmpHess_ok {isZ : (Nat → α) → Bool} (hz : ∀ f, isZ f = true → ∀ it, f it = 0) (hmax : c.l.iters - 1 ≤ sizeMax) {j1 j2 e : Nat}
    (ho : (j1, j2, e) ∈ req) (h : nlFound (req.flatMap (wLoop c)) (j1, j2) = true) :
    ∃ u, tmpHess isZ c.l W D G2 (req.flatMap (wLoop c)) all c.fr j1 j2 = some u ∧ ∀ it < c.l.iters, u it = ddSum c W D G2 ne it j1 j2 := by
  obtain ⟨g, k0, h0⟩ := (nlFound_iff hc hD hGa hGb).mp h
  obtain ⟨_, _, e', hm, hl⟩ := (mem_ws hc).mp h0
  cases hl with
  | dzN hct hh hi hr =>
    rename_i fr pk0 i0 row0
    have hany : (all.any fun w => decide (w.2 = Wr.tmpHes j1 j2)) = true := by
      rw [List.any_eq_true]
      exact ⟨_, hall _ ((mem_ws hc).mpr ⟨j1, j2, e', hm, .dzH hct hh hi hr⟩), by simp⟩
    unfold tmpHess
    rw [hct.free]
    simp only
    rw [if_pos hany]
    have hgs : ∀ gr ∈ groups c.l, gr.its ≠ [] := by
      intro gr hgr
      obtain ⟨g, hg⟩ := List.getElem?_of_mem hgr
      exact hc.its (g, gr) (hc.mem_gs.mpr hg)
    let wt : Nat → Nat → α := fun k => match tmpTape c.l k with
      | some pk => (Classical.choose (tmpWeight_ok hc hz hmax W D (req.flatMap (wLoop c)) pk (groups c.l) (fun _ h => h) hgs fun _ => 0))
      | none => fun _ => 0
    have hwt : ∀ k ∈ List.range (fr.jac.length - fr.eqs.length), (match tmpTape c.l k with
        | some pk => tmpWeight isZ c.l W D (req.flatMap (wLoop c)) pk (groups c.l) fun _ => 0
        | none => some fun _ => 0) = some (wt k) := by
      intro k _
      simp only [wt]
      cases tmpTape c.l k with
      | none => rfl
      | some pk => exact (Classical.choose_spec (tmpWeight_ok hc hz hmax W D (req.flatMap (wLoop c)) pk (groups c.l) (fun _ h => h) hgs fun _ => 0)).1
    obtain ⟨u, h1, h2⟩ := tmpDot_ok (dz := fun k => G2 (fr.eqs.length + k) j1 j2) _ hwt fun _ => 0
    refine ⟨u, h1, fun it hit => ?_⟩
    rw [h2, zero_add, hne fr hct.free, ddSum]
    refine Eq.trans (lsum_subset (l' := c.l.tmp) List.nodup_range hc.tmp ?_ ?_) (lsum_congr ?_)
    · intro k hk
      obtain ⟨p, fr', hf, ht⟩ := tmp_at hc hk
      exact List.mem_range.mpr (by rw [← hne fr hct.free]; exact hc.tmp_lt hct.free ht)
    · intro k _ hk
      have : tmpTape c.l k = none := by
        cases ht : tmpTape c.l k with
        | none => rfl
        | some pk => exact absurd (mem_tmp_of hc ht) hk
      simp only [wt, this, zero_mul]
    · intro k hk
      obtain ⟨p, fr', hf, ht⟩ := tmp_at hc hk
      have hff := hf
      rw [hct.free] at hff
      obtain rfl := Option.some.inj hff
      by_cases hdep : fr.dep k j1 = true
      · congr 1
        simp only [wt, ht, Option.getD_some]
        rw [(Classical.choose_spec (tmpWeight_ok hc hz hmax W D (req.flatMap (wLoop c)) (c.l.ind.length + c.l.non.length + p) (groups c.l) (fun _ h => h) hgs fun _ => 0)).2 it hit, zero_add]
        have hgsum : ∀ F : Group → α, lsum (groups c.l) F = lsum c.gs fun gp => F gp.2 := by
          intro F
          have : groups c.l = c.gs.map (·.2) := by
            rw [hc.gs, List.map_map]
            have : ((fun x : Nat × Group => x.2) ∘ fun p : Group × Nat => (p.2, p.1)) = Prod.fst := rfl
            rw [this, List.zipIdx_map_fst]
          rw [this, lsum, lsum, List.map_map]
          rfl
        rw [hgsum, tmpW]
        refine lsum_congr fun gp hgp => ?_
        split
        · rw [lsum_filter]
          refine lsum_congr fun i hii => ?_
          split
          · rfl
          · rename_i hno
            obtain ⟨row, hrow⟩ := group_row hc hD hGa hGb hgp hii
            rw [hD i row hrow, mul_zero]
            intro hin
            refine hno ?_
            rw [List.any_eq_true]
            exact ⟨_, (mem_ws hc).mpr ⟨j1, j2, e', hm, .dzE ⟨hct.free, hdep, ht⟩ hh hrow hin⟩, by simp⟩
        · rfl
      · rw [hGa fr hf k hk j1 j2 (by simpa using hdep), mul_zero, mul_zero]

end

end Verif.Loops
