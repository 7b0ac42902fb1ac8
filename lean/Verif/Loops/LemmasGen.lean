import Verif.Loops.LemmasBlocks

/-
The generated code for one group of equations adds the blocks of the chain rule with an index.
-/
namespace Verif.Loops

open Verif.Index Verif.Ranges

variable {α : Type} [CommRing α]

theorem lsum_subset {β : Type} [DecidableEq β] {l l' : List β} (hl : l.Nodup) (hl' : l'.Nodup) (hsub : ∀ x ∈ l', x ∈ l) {f : β → α}
    (h0 : ∀ x ∈ l, x ∉ l' → f x = 0) : lsum l f = lsum l' f := by
  unfold lsum
  rw [← List.sum_toFinset _ hl, ← List.sum_toFinset _ hl']
  symm
  refine Finset.sum_subset ?_ ?_
  · intro x hx
    simp only [List.mem_toFinset] at hx ⊢
    exact hsub x hx
  · intro x hx hx'
    simp only [List.mem_toFinset] at hx hx'
    exact h0 x hx hx'

theorem tmpDot_ok {h : Nat → Option (Nat → α)} {dz : Nat → α} {f : Nat → Nat → α} : ∀ (ks : List Nat), (∀ k ∈ ks, h k = some (f k)) → ∀ v : Nat → α,
    ∃ u, tmpDot h dz ks v = some u ∧ ∀ it, u it = v it + lsum ks fun k => f k it * dz k
  | [], _, v => ⟨v, rfl, fun it => by simp⟩
  | k :: ks, hk, v => by
    rw [tmpDot, hk k List.mem_cons_self]
    simp only
    obtain ⟨u, h1, h2⟩ := tmpDot_ok (dz := dz) ks (fun k' h' => hk k' (List.mem_cons_of_mem _ h')) fun it => v it + f k it * dz k
    exact ⟨u, h1, fun it => by rw [h2, lsum_cons]; ring⟩

/-- the second derivatives of a group -/
def hgv (l : Loop) (W : Int → α) (H : Nat → Nat → Nat → Nat → α) (gr : Group) (t1 t2 it : Nat) : α := lsum gr.tapeI fun i => weight l W i it * H i t1 t2 it

theorem hv_some {l : Loop} {W : Int → α} {H : Nat → Nat → Nat → Nat → α} {ws : List (Nat × Wr)} {g : Nat} {gr : Group} {t1 t2 : Nat}
    (h : (g, Wr.ev t1 t2) ∈ ws) : hv l W H ws g gr t1 t2 = some (hgv l W H gr t1 t2) := by
  rw [hv, if_pos h]; rfl

theorem dzDx_eq {ne : Nat} {G : Nat → Nat → α} {all : List (Nat × Wr)} {g k j : Nat} (h : (g, Wr.need (ne + k) j) ∈ all) : dzDx ne G all k j = G (ne + k) j := by
  rw [dzDx, if_pos]
  rw [List.any_eq_true]
  exact ⟨_, h, by simp⟩

/-! ### what is in the tables -/

section
variable {c : Cx} (hc : CxOk c) {req : List (Nat × Nat × Nat)}
include hc

theorem ev_ii {g it e : Nat} {K : Nat × Nat} (h : (g, Wr.pos .ii K it e) ∈ req.flatMap (wLoop c)) : (g, Wr.ev K.1 K.2) ∈ req.flatMap (wLoop c) := by
  obtain ⟨j1, j2, e0, hm, hl⟩ := (mem_ws hc).mp h
  refine (mem_ws hc).mpr ⟨j1, j2, e0, hm, ?_⟩
  cases hl with
  | iiP h => exact .iiE h

theorem ev_ni {g it e : Nat} {K : Nat × Nat} (h : (g, Wr.pos .ni K it e) ∈ req.flatMap (wLoop c)) : (g, Wr.ev K.1 K.2) ∈ req.flatMap (wLoop c) := by
  obtain ⟨j1, j2, e0, hm, hl⟩ := (mem_ws hc).mp h
  refine (mem_ws hc).mpr ⟨j1, j2, e0, hm, ?_⟩
  cases hl with
  | inP h => exact .inE h
  | niP h => exact .niE h

theorem no_inn {g it e : Nat} {K : Nat × Nat} : (g, Wr.pos .inn K it e) ∉ req.flatMap (wLoop c) := by
  intro h
  obtain ⟨j1, j2, e0, hm, hl⟩ := (mem_ws hc).mp h
  cases hl

theorem no_ti {g it e : Nat} {K : Nat × Nat} : (g, Wr.pos .ti K it e) ∉ req.flatMap (wLoop c) := by
  intro h
  obtain ⟨j1, j2, e0, hm, hl⟩ := (mem_ws hc).mp h
  cases hl

theorem itE_of_pos {g it e : Nat} {K : Nat × Nat} (h : (g, Wr.pos .it K it e) ∈ req.flatMap (wLoop c)) : ∃ k, (g, Wr.itE K k) ∈ req.flatMap (wLoop c) := by
  obtain ⟨j1, j2, e0, hm, hl⟩ := (mem_ws hc).mp h
  cases hl with
  | itP h => exact ⟨_, (mem_ws hc).mpr ⟨j1, j2, e, hm, .itV h⟩⟩
  | tiP h1 hi hl hv hr hu => exact ⟨_, (mem_ws hc).mpr ⟨j1, j2, e, hm, .tiV h1 hi hl hv hr⟩⟩

theorem itE_sound {g k : Nat} {K : Nat × Nat} (h : (g, Wr.itE K k) ∈ req.flatMap (wLoop c)) :
    ∃ fr pk, c.fr = some fr ∧ TmpOf c fr g K.1 K.2 k pk ∧ (g, Wr.ev K.1 pk) ∈ req.flatMap (wLoop c) ∧
      ∃ g', (g', Wr.need (fr.eqs.length + k) K.2) ∈ req.flatMap (wLoop c) := by
  obtain ⟨j1, j2, e0, hm, hl⟩ := (mem_ws hc).mp h
  cases hl with
  | itV h => exact ⟨_, _, h.free, h.tmp, (mem_ws hc).mpr ⟨j1, j2, e0, hm, .itE h⟩, _, (mem_ws hc).mpr ⟨j1, j2, e0, hm, .itN h⟩⟩
  | tiV h hi hl hv hr =>
    exact ⟨_, _, h.free, ⟨h.tape, hc.rowSym _ _ _ hr, h.dep⟩, (mem_ws hc).mpr ⟨j1, j2, e0, hm, .tiE h hi hl hv hr⟩, _,
      (mem_ws hc).mpr ⟨j1, j2, e0, hm, .tN h⟩⟩

theorem itE_complete {g k k' pk' : Nat} {K : Nat × Nat} (h : (g, Wr.itE K k) ∈ req.flatMap (wLoop c)) {fr : Free} (hf : c.fr = some fr)
    (hk : TmpOf c fr g K.1 K.2 k' pk') : (g, Wr.itE K k') ∈ req.flatMap (wLoop c) := by
  obtain ⟨j1, j2, e0, hm, hl⟩ := (mem_ws hc).mp h
  refine (mem_ws hc).mpr ⟨j1, j2, e0, hm, ?_⟩
  cases hl with
  | itV h => exact .itV ⟨hf, h.here, h.lt1, h.var1, hk⟩
  | tiV h hi hl hv hr => exact .tiV ⟨hf, hk.2.2, hk.1⟩ hi hl hv (hc.rowSym _ _ _ hk.2.1)

end

theorem mem_itEvals {ws : List (Nat × Wr)} {g k : Nat} {K : Nat × Nat} : k ∈ itEvals ws g K ↔ (g, Wr.itE K k) ∈ ws := by
  rw [itEvals, mem_nub, List.mem_filterMap]
  constructor
  · rintro ⟨⟨g', w⟩, h1, h2⟩
    cases w with
    | itE K' k' =>
      simp only at h2
      split at h2
      · rename_i h3
        obtain ⟨rfl, rfl⟩ := h3
        obtain rfl := Option.some.inj h2
        exact h1
      · simp at h2
    | _ => simp at h2
  · intro h
    exact ⟨_, h, by simp⟩

theorem mem_itKeys {ws : List (Nat × Wr)} {g : Nat} {K : Nat × Nat} : K ∈ itKeys ws g ↔ ∃ k, (g, Wr.itE K k) ∈ ws := by
  rw [itKeys, mem_nub, List.mem_filterMap]
  constructor
  · rintro ⟨⟨g', w⟩, h1, h2⟩
    cases w with
    | itE K' k' =>
      simp only at h2
      split at h2
      · rename_i h3
        subst h3
        obtain rfl := Option.some.inj h2
        exact ⟨k', h1⟩
      · simp at h2
    | _ => simp at h2
  · rintro ⟨k, h⟩
    exact ⟨_, h, by simp⟩

theorem mem_ntEvals {ws : List (Nat × Wr)} {g k : Nat} {o : Nat × Nat} : k ∈ ntEvals ws g o ↔ (g, Wr.ntE o k) ∈ ws := by
  rw [ntEvals, mem_nub, List.mem_filterMap]
  constructor
  · rintro ⟨⟨g', w⟩, h1, h2⟩
    cases w with
    | ntE K' k' =>
      simp only at h2
      split at h2
      · rename_i h3
        obtain ⟨rfl, rfl⟩ := h3
        obtain rfl := Option.some.inj h2
        exact h1
      · simp at h2
    | _ => simp at h2
  · intro h
    exact ⟨_, h, by simp⟩

theorem mem_tnEvals {ws : List (Nat × Wr)} {g k : Nat} {o : Nat × Nat} : k ∈ tnEvals ws g o ↔ (g, Wr.tnE o k) ∈ ws := by
  rw [tnEvals, mem_nub, List.mem_filterMap]
  constructor
  · rintro ⟨⟨g', w⟩, h1, h2⟩
    cases w with
    | tnE K' k' =>
      simp only at h2
      split at h2
      · rename_i h3
        obtain ⟨rfl, rfl⟩ := h3
        obtain rfl := Option.some.inj h2
        exact h1
      · simp at h2
    | _ => simp at h2
  · intro h
    exact ⟨_, h, by simp⟩

theorem mem_ttKeys {ws : List (Nat × Wr)} {g k : Nat} {o : Nat × Nat} : k ∈ ttKeys ws g o ↔ ∃ k2, (g, Wr.ttE o k k2) ∈ ws := by
  rw [ttKeys, mem_nub, List.mem_filterMap]
  constructor
  · rintro ⟨⟨g', w⟩, h1, h2⟩
    cases w with
    | ttE K' k' k2 =>
      simp only at h2
      split at h2
      · rename_i h3
        obtain ⟨rfl, rfl⟩ := h3
        obtain rfl := Option.some.inj h2
        exact ⟨k2, h1⟩
      · simp at h2
    | _ => simp at h2
  · rintro ⟨k2, h⟩
    exact ⟨_, h, by simp⟩

theorem mem_ttEvals {ws : List (Nat × Wr)} {g k k2 : Nat} {o : Nat × Nat} : k2 ∈ ttEvals ws g o k ↔ (g, Wr.ttE o k k2) ∈ ws := by
  rw [ttEvals, mem_nub, List.mem_filterMap]
  constructor
  · rintro ⟨⟨g', w⟩, h1, h2⟩
    cases w with
    | ttE K' k' k2' =>
      simp only at h2
      split at h2
      · rename_i h3
        obtain ⟨rfl, rfl, rfl⟩ := h3
        obtain rfl := Option.some.inj h2
        exact h1
      · simp at h2
    | _ => simp at h2
  · intro h
    exact ⟨_, h, by simp⟩

theorem mem_posWr {ws : List (Nat × Wr)} {g it e : Nat} {cat : Cat} {K : Nat × Nat} : (K, it, e) ∈ posWr ws g cat ↔ (g, Wr.pos cat K it e) ∈ ws := by
  rw [posWr, List.mem_filterMap]
  constructor
  · rintro ⟨⟨g', w⟩, h1, h2⟩
    cases w with
    | pos c' K' it' e' =>
      simp only at h2
      split at h2
      · rename_i h3
        obtain ⟨rfl, rfl⟩ := h3
        obtain ⟨rfl, h4⟩ := Prod.mk.inj (Option.some.inj h2)
        obtain ⟨rfl, rfl⟩ := Prod.mk.inj h4
        exact h1
      · simp at h2
    | _ => simp at h2
  · intro h
    exact ⟨_, h, by simp⟩

theorem mem_posKeys {ws : List (Nat × Wr)} {g : Nat} {cat : Cat} {K : Nat × Nat} : K ∈ (posWr ws g cat).map (·.1) ↔ ∃ it e, (g, Wr.pos cat K it e) ∈ ws := by
  rw [List.mem_map]
  constructor
  · rintro ⟨⟨K', it, e⟩, h1, rfl⟩
    exact ⟨it, e, mem_posWr.mp h1⟩
  · rintro ⟨it, e, h⟩
    exact ⟨_, mem_posWr.mpr h, rfl⟩

/-- sum over the positions of one table -/
theorem lsum_posWr {ws : List (Nat × Wr)} {g : Nat} {cat : Cat} (F : (Nat × Nat) × Nat × Nat → α) : lsum (posWr ws g cat) F =
    lsum ws fun w => match w.2 with
      | .pos c' K it e => if w.1 = g ∧ c' = cat then F (K, it, e) else 0
      | _ => 0 := by
  rw [posWr, lsum_filterMap]
  refine lsum_congr fun w _ => ?_
  obtain ⟨g', w⟩ := w
  cases w with
  | pos c' K it e =>
    simp only
    by_cases h : g' = g ∧ c' = cat
    · simp only [if_pos h]
    · simp only [if_neg h]
  | _ => rfl

section
variable {c : Cx} (hc : CxOk c) {req : List (Nat × Nat × Nat)} (hr : ReqOk req) {W : Int → α} {H : Nat → Nat → Nat → Nat → α} {G : Nat → Nat → α}
  {ne : Nat} (hne : ∀ fr, c.fr = some fr → fr.eqs.length = ne) {all : List (Nat × Wr)} (hall : ∀ w ∈ req.flatMap (wLoop c), w ∈ all)
include hc hne hall

/-- value of a key with a temporary -/
theorem itVal_ok {g : Nat} {gr : Group} (hd : ∀ it, Der c g (fun t1 t2 => hgv c.l W H gr t1 t2 it) fun k j => G (ne + k) j) {K : Nat × Nat}
    (hK : K ∈ itKeys (req.flatMap (wLoop c)) g) :
    ∃ u, itVal c.l (hv c.l W H (req.flatMap (wLoop c)) g gr) (dzDx ne G all) (itEvals (req.flatMap (wLoop c)) g K) K.1 K.2 false = some u ∧
      ∀ it, u it = SumT c.l (fun k j => G (ne + k) j) K.2 fun t2 => hgv c.l W H gr K.1 t2 it := by
  obtain ⟨k0, hk0⟩ := mem_itKeys.mp hK
  have hs : ∀ k ∈ itEvals (req.flatMap (wLoop c)) g K, (match tmpTape c.l k with
      | some pk => if false = true then hv c.l W H (req.flatMap (wLoop c)) g gr pk K.1 else hv c.l W H (req.flatMap (wLoop c)) g gr K.1 pk
      | none => none) = some (hgv c.l W H gr K.1 ((tmpTape c.l k).getD 0)) := by
    intro k hk
    obtain ⟨fr, pk, h1, h2, h3, _⟩ := itE_sound hc (mem_itEvals.mp hk)
    rw [h2.1]
    simp only [Bool.false_eq_true, if_false, Option.getD_some]
    exact hv_some h3
  obtain ⟨u, h1, h2⟩ := tmpDot_ok (dz := fun k => dzDx ne G all k K.2) _ hs fun _ => 0
  refine ⟨u, h1, fun it => ?_⟩
  rw [h2, zero_add, SumT]
  symm
  refine Eq.trans (lsum_subset (l' := itEvals (req.flatMap (wLoop c)) g K) hc.tmp (nub_nodup _) ?_ ?_) (lsum_congr ?_)
  · intro k hk
    obtain ⟨fr, pk, _, h2, _⟩ := itE_sound hc (mem_itEvals.mp hk)
    obtain ⟨p, h3, _⟩ := (tmpTape_eq hc.tmp).mp h2.1
    exact List.mem_of_getElem? h3
  · intro k hk hk'
    obtain ⟨p, hp⟩ := List.getElem?_of_mem hk
    obtain ⟨fr, hf, _⟩ := hc.temps k hk
    have ht := (tmpTape_eq hc.tmp).mpr ⟨p, hp, rfl⟩
    by_cases hrow : c.l.ind.length + c.l.non.length + p ∈ c.row g K.1
    · have : fr.dep k K.2 = false := by
        by_contra hn
        exact hk' (mem_itEvals.mpr (itE_complete hc hk0 hf ⟨ht, hrow, by simpa using hn⟩))
      have := (hd it).dz fr hf k hk K.2 this
      rw [this, mul_zero]
    · rw [ht, Option.getD_some]
      have := (hd it).cov _ _ hrow
      rw [this, zero_mul]
  · intro k hk
    obtain ⟨fr, pk, h1, _, _, g', h4⟩ := itE_sound hc (mem_itEvals.mp hk)
    rw [hne fr h1] at h4
    rw [dzDx_eq (hall _ h4)]

include hr
theorem genGroup_ok {isZ : (Nat → α) → Bool} (hz : ∀ f, isZ f = true → ∀ it, f it = 0) (hmax : c.l.iters - 1 ≤ sizeMax) {g : Nat} {gr : Group}
    (hd : ∀ it, Der c g (fun t1 t2 => hgv c.l W H gr t1 t2 it) fun k j => G (ne + k) j) {b : Body α} {cs : List (Contr α)} (hb : Meets c.l.iters true b cs) :
    ∃ b' cs', genGroup isZ c.l (hv c.l W H (req.flatMap (wLoop c)) g gr) (dzDx ne G all) (req.flatMap (wLoop c)) g b = .ok b' ∧
      Meets c.l.iters true b' (cs ++ cs') ∧
      ∀ e it, csum cs' e it = lsum (req.flatMap (wLoop c)) (addOf c g it e (fun t1 t2 => hgv c.l W H gr t1 t2 it) fun k j => G (ne + k) j) := by
  have hpg := posGood_ws hc hr g
  unfold genGroup
  simp only
  generalize hws : req.flatMap (wLoop c) = ws at *
  -- indexed - indexed
  obtain ⟨b1, cs1, a1, a2, a3⟩ := genPos_ok hz hmax (hpg .ii) (val := fun K => hv c.l W H ws g gr K.1 K.2) (V := fun K => hgv c.l W H gr K.1 K.2)
    (nub ((posWr ws g .ii).map (·.1))) (nub_nodup _) (fun K hK => mem_nub.mp hK)
    (by
      intro K hK
      obtain ⟨it, e, h⟩ := mem_posKeys.mp (mem_nub.mp hK)
      subst hws
      exact hv_some (ev_ii hc h)) hb
  rw [a1]
  simp only
  -- indexed - non-indexed
  have e1 : posWr ws g .inn = [] := by
    rw [List.eq_nil_iff_forall_not_mem]
    rintro ⟨K, it, e⟩ h
    subst hws
    exact no_inn hc (mem_posWr.mp h)
  have e2 : posWr ws g .ti = [] := by
    rw [List.eq_nil_iff_forall_not_mem]
    rintro ⟨K, it, e⟩ h
    subst hws
    exact no_ti hc (mem_posWr.mp h)
  rw [e1]
  have e3 : nub (([] : List ((Nat × Nat) × Nat × Nat)).map (·.1)) = [] := rfl
  rw [e3, genPos]
  simp only
  -- indexed - temporary
  have hitv : ∀ K ∈ (itKeys ws g).filter (fun K => K ∈ (posWr ws g .it).map (·.1)), itVal c.l (hv c.l W H ws g gr) (dzDx ne G all) (itEvals ws g K) K.1 K.2 false =
      some (fun it => SumT c.l (fun k j => G (ne + k) j) K.2 fun t2 => hgv c.l W H gr K.1 t2 it) := by
    intro K hK
    have hK := (List.mem_filter.mp hK).1
    subst hws
    obtain ⟨u, h1, h2⟩ := itVal_ok hc hne hall hd hK
    rw [h1]
    congr 1
    funext it
    exact h2 it
  obtain ⟨b2, cs2, c1, c2, c3⟩ := genPos_ok hz hmax (hpg .it) ((itKeys ws g).filter (fun K => K ∈ (posWr ws g .it).map (·.1)))
    ((nub_nodup _).filter _) (fun K hK => by
      have := (List.mem_filter.mp hK).2
      simpa using this) hitv a2
  rw [c1]
  simp only
  obtain ⟨b3, cs3, d1, d2, d3⟩ := genPos_ok hz hmax (hpg .ni) (val := fun K => hv c.l W H ws g gr K.1 K.2) (V := fun K => hgv c.l W H gr K.1 K.2)
    (nub ((posWr ws g .ni).map (·.1))) (nub_nodup _) (fun K hK => mem_nub.mp hK)
    (by
      intro K hK
      obtain ⟨it, e, h⟩ := mem_posKeys.mp (mem_nub.mp hK)
      subst hws
      exact hv_some (ev_ni hc h)) c2
  rw [d1]
  simp only [e2, List.map_nil, List.not_mem_nil, decide_false, List.filter_false]
  refine ⟨b3, cs1 ++ cs2 ++ cs3, ?_, ?_, ?_⟩
  · rfl
  · rwa [← List.append_assoc, ← List.append_assoc]
  · intro e it
    rw [csum_append, csum_append, a3, c3, d3, lsum_posWr, lsum_posWr, lsum_posWr, ← lsum_add, ← lsum_add]
    refine lsum_congr fun w hw => ?_
    obtain ⟨g', w⟩ := w
    cases w with
    | pos cat K it' e' =>
      simp only [addOf]
      by_cases hg : g' = g
      · subst hg
        cases cat with
        | ii =>
          have : K ∈ nub ((posWr ws g' .ii).map (·.1)) := mem_nub.mpr (mem_posKeys.mpr ⟨it', e', hw⟩)
          simp [this, valOf]
        | ni =>
          have : K ∈ nub ((posWr ws g' .ni).map (·.1)) := mem_nub.mpr (mem_posKeys.mpr ⟨it', e', hw⟩)
          simp [this, valOf]
        | it =>
          have h1 : K ∈ itKeys ws g' := by
            subst hws
            exact mem_itKeys.mpr (itE_of_pos hc hw)
          have h2 : K ∈ (itKeys ws g').filter (fun K => K ∈ (posWr ws g' .it).map (·.1)) :=
            List.mem_filter.mpr ⟨h1, decide_eq_true (mem_posKeys.mpr ⟨it', e', hw⟩)⟩
          simp only [h2, valOf]
          simp
        | inn =>
          subst hws
          exact absurd hw (no_inn hc)
        | ti =>
          subst hws
          exact absurd hw (no_ti hc)
      · simp [hg]
    | _ => simp [addOf]

theorem genGroups_ok {isZ : (Nat → α) → Bool} (hz : ∀ f, isZ f = true → ∀ it, f it = 0) (hmax : c.l.iters - 1 ≤ sizeMax) :
    ∀ (gs : List (Nat × Group)), (∀ gp ∈ gs, ∀ it, Der c gp.1 (fun t1 t2 => hgv c.l W H gp.2 t1 t2 it) fun k j => G (ne + k) j) →
    ∀ {b : Body α} {cs : List (Contr α)}, Meets c.l.iters true b cs →
    ∃ b' cs', genGroups isZ c.l (hv c.l W H (req.flatMap (wLoop c))) (dzDx ne G all) (req.flatMap (wLoop c)) gs b = .ok b' ∧
      Meets c.l.iters true b' (cs ++ cs') ∧
      ∀ e it, csum cs' e it = lsum gs fun gp => lsum (req.flatMap (wLoop c)) (addOf c gp.1 it e (fun t1 t2 => hgv c.l W H gp.2 t1 t2 it) fun k j => G (ne + k) j)
  | [], _, b, cs, hb => ⟨b, [], rfl, by simpa using hb, fun e it => by simp [csum]⟩
  | (g, gr) :: gs, hd, b, cs, hb => by
    obtain ⟨b1, cs1, a1, a2, a3⟩ := genGroup_ok hc hr hne hall hz hmax (hd (g, gr) List.mem_cons_self) hb
    obtain ⟨b2, cs2, c1, c2, c3⟩ := genGroups_ok hz hmax gs (fun gp h => hd gp (List.mem_cons_of_mem _ h)) a2
    rw [genGroups, a1]
    refine ⟨b2, cs1 ++ cs2, c1, by rwa [← List.append_assoc], fun e it => ?_⟩
    rw [csum_append, a3, c3, lsum_cons]

end

end Verif.Loops
