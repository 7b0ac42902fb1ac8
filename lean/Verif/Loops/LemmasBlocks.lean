import Verif.Loops.LemmasLeaf

/-
The contributions with an index are the blocks of the chain rule in which one of the tape variables is indexed.
-/
namespace Verif.Loops

open Verif.Index Verif.Ranges

variable {α : Type} [CommRing α]

/-! ### the chain rule in blocks -/

/-- the part of the chain rule for the indexed variables -/
def SumI (l : Loop) (it j : Nat) (f : Nat → α) : α := lsum (List.range l.ind.length) fun t => if l.var t it = some j then f t else 0

/-- the part for the non-indexed variables -/
def SumN (l : Loop) (j : Nat) (f : Nat → α) : α := match nonTape l j with | some t => f t | none => 0

/-- the part for the temporaries -/
def SumT (l : Loop) (Z : Nat → Nat → α) (j : Nat) (f : Nat → α) : α := lsum l.tmp fun k => f ((tmpTape l k).getD 0) * Z k j

theorem chain_blocks {l : Loop} (hn : l.non.Nodup) (ht : l.tmp.Nodup) (D : Nat → α) (Z : Nat → Nat → α) (it j : Nat) :
    l.chain D Z it j = SumI l it j D + SumN l j D + SumT l Z j D := by
  rw [chain_eq hn ht, SumI, lsum_range]
  rfl

theorem sum_dvar (l : Loop) (Z : Nat → Nat → α) (it j : Nat) (f : Nat → α) :
    (∑ t ∈ Finset.range l.vars, f t * l.dvar Z it t j) = l.chain f Z it j := by
  unfold Loop.vars Loop.chain
  rw [Finset.sum_range_add, Finset.sum_range_add]
  congr 1
  · congr 1
    · refine Finset.sum_congr rfl fun t ht => ?_
      rw [Finset.mem_range] at ht
      simp only [Loop.dvar, if_pos ht]
      split <;> simp
    · refine Finset.sum_congr rfl fun p hp => ?_
      rw [Finset.mem_range] at hp
      have h1 : ¬ l.ind.length + p < l.ind.length := by omega
      have h2 : l.ind.length + p < l.ind.length + l.non.length := by omega
      have h3 : l.ind.length + p - l.ind.length = p := by omega
      simp only [Loop.dvar, if_neg h1, if_pos h2, h3]
      split <;> simp
  · refine Finset.sum_congr rfl fun p hp => ?_
    have h1 : ¬ l.ind.length + l.non.length + p < l.ind.length := by omega
    have h2 : ¬ l.ind.length + l.non.length + p < l.ind.length + l.non.length := by omega
    have h3 : l.ind.length + l.non.length + p - (l.ind.length + l.non.length) = p := by omega
    simp only [Loop.dvar, if_neg h1, if_neg h2, h3]
    cases l.tmp[p]? <;> simp

theorem chain2_blocks {l : Loop} (H : Nat → Nat → α) (Z : Nat → Nat → α) (it j1 j2 : Nat) :
    (∑ t1 ∈ Finset.range l.vars, ∑ t2 ∈ Finset.range l.vars, l.dvar Z it t1 j1 * H t1 t2 * l.dvar Z it t2 j2) =
      l.chain (fun t1 => l.chain (H t1) Z it j2) Z it j1 := by
  rw [← sum_dvar]
  refine Finset.sum_congr rfl fun t1 _ => ?_
  rw [← sum_dvar, Finset.sum_mul]
  refine Finset.sum_congr rfl fun t2 _ => ?_
  ring

theorem SumI_add (l : Loop) (it j : Nat) (f g : Nat → α) : SumI l it j (fun t => f t + g t) = SumI l it j f + SumI l it j g := by
  unfold SumI
  rw [← lsum_add]
  refine lsum_congr fun t _ => ?_
  split <;> simp

theorem SumN_add (l : Loop) (j : Nat) (f g : Nat → α) : SumN l j (fun t => f t + g t) = SumN l j f + SumN l j g := by
  unfold SumN
  cases nonTape l j <;> simp

theorem SumT_add (l : Loop) (Z : Nat → Nat → α) (j : Nat) (f g : Nat → α) : SumT l Z j (fun t => f t + g t) = SumT l Z j f + SumT l Z j g := by
  unfold SumT
  rw [← lsum_add]
  refine lsum_congr fun k _ => ?_
  ring

theorem SumI_congr {l : Loop} {it j : Nat} {f g : Nat → α} (h : ∀ t < l.ind.length, l.var t it = some j → f t = g t) : SumI l it j f = SumI l it j g := by
  unfold SumI
  refine lsum_congr fun t ht => ?_
  split
  · rename_i hv; exact h t (List.mem_range.mp ht) hv
  · rfl

/-! ### sums over the writes -/

/-- second derivatives of one group, of the temporaries, and the patterns -/
structure Der (c : Cx) (g : Nat) (Hg : Nat → Nat → α) (Z : Nat → Nat → α) : Prop where
  sym : ∀ t1 t2, Hg t1 t2 = Hg t2 t1
  cov : ∀ t1 t2, t2 ∉ c.row g t1 → Hg t1 t2 = 0
  dz : ∀ fr, c.fr = some fr → ∀ k ∈ c.l.tmp, ∀ j, fr.dep k j = false → Z k j = 0

/-- the value of a key -/
def valOf (c : Cx) (Hg : Nat → Nat → α) (Z : Nat → Nat → α) : Cat → Nat × Nat → α
  | .ii, K => Hg K.1 K.2
  | .ni, K => Hg K.1 K.2
  | .it, K => SumT c.l Z K.2 (Hg K.1)
  | _, _ => 0

/-- what a write adds to location `e` at iteration `it` for group `g` -/
def addOf (c : Cx) (g it e : Nat) (Hg : Nat → Nat → α) (Z : Nat → Nat → α) (w : Nat × Wr) : α :=
  match w.2 with
  | .pos cat K it' e' => if w.1 = g ∧ it' = it ∧ e' = e then valOf c Hg Z cat K else 0
  | _ => 0

theorem SumT_zero {c : Cx} (hc : CxOk c) {g : Nat} {Hg : Nat → Nat → α} {Z : Nat → Nat → α} (hd : Der c g Hg Z) {fr : Free} (hf : c.fr = some fr) {t j : Nat}
    (h : ¬ ∃ k pk, TmpOf c fr g t j k pk) : SumT c.l Z j (Hg t) = 0 := by
  unfold SumT
  refine lsum_zero fun k hk => ?_
  obtain ⟨p, hp⟩ := List.getElem?_of_mem hk
  have ht := (tmpTape_eq hc.tmp).mpr ⟨p, hp, rfl⟩
  by_cases hr : c.l.ind.length + c.l.non.length + p ∈ c.row g t
  · have : fr.dep k j = false := by
      by_contra hne
      exact h ⟨k, _, ht, hr, by simpa using hne⟩
    rw [hd.dz fr hf k hk j this, mul_zero]
  · rw [ht, Option.getD_some, hd.cov _ _ hr, zero_mul]

theorem lsum_its {its : List Nat} (hnd : its.Nodup) {it : Nat} {X : Nat → α} (hX : ∀ it', it' ≠ it → X it' = 0) :
    lsum its X = if it ∈ its then X it else 0 := by
  rw [← lsum_if_eq hnd X it]
  refine lsum_congr fun it' _ => ?_
  by_cases h : it' = it
  · rw [if_pos h]
  · rw [if_neg h, hX it' h]

theorem CxOk.gs_nodup {c : Cx} (hc : CxOk c) : c.gs.Nodup := by
  refine List.Nodup.of_map Prod.fst ?_
  rw [hc.gs, List.map_map]
  have : (Prod.fst ∘ fun p : Group × Nat => (p.2, p.1)) = Prod.snd := rfl
  rw [this, List.zipIdx_map_snd]
  exact List.nodup_range'

theorem CxOk.gs_inj {c : Cx} (hc : CxOk c) {g : Nat} {gr gr' : Group} (h : (g, gr) ∈ c.gs) (h' : (g, gr') ∈ c.gs) : gr = gr' := by
  rw [hc.mem_gs] at h h'
  rw [h] at h'
  exact Option.some.inj h'

theorem lsum_gs {c : Cx} (hc : CxOk c) {g : Nat} {gr : Group} (hg : (g, gr) ∈ c.gs) {X : Nat × Group → α} (hX : ∀ gp ∈ c.gs, gp.1 ≠ g → X gp = 0) :
    lsum c.gs X = X (g, gr) := by
  classical
  exact list_sum_single hc.gs_nodup X hg fun gp hgp hne => hX gp hgp fun he => hne (by
    obtain ⟨g', gr'⟩ := gp
    simp only at he
    subst he
    rw [hc.gs_inj hg hgp])

section
variable {c : Cx} (hc : CxOk c) {g : Nat} {Hg : Nat → Nat → α} {Z : Nat → Nat → α} (hd : Der c g Hg Z) (it e : Nat)
include hc hd

theorem keyOf_val (t1 t2 : Nat) : valOf c Hg Z .ii (keyOf t1 t2) = Hg t1 t2 := by
  change Hg (keyOf t1 t2).1 (keyOf t1 t2).2 = _
  unfold keyOf
  by_cases h : t2 < t1
  · rw [if_pos h]; exact hd.sym _ _
  · rw [if_neg h]

theorem sum_wII (j1 j2 : Nat) {gr : Group} (hnd : gr.its.Nodup) : lsum (wII c j1 j2 e g gr) (addOf c g it e Hg Z) =
    if it ∈ gr.its then SumI c.l it j1 fun t1 => SumI c.l it j2 (Hg t1) else 0 := by
  rw [wII_eq hc, lsum_flatMap, lsum_its hnd (it := it)]
  · by_cases hit : it ∈ gr.its
    · rw [if_pos hit, if_pos hit, lsum_flatMap, lsum_filter, SumI]
      refine lsum_congr fun t1 _ => ?_
      by_cases h1 : c.l.var t1 it = some j1
      · simp only [h1, beq_self_eq_true, if_true]
        rw [lsum_flatMap, lsum_filter, SumI]
        refine lsum_congr fun t2 _ => ?_
        by_cases h2 : c.l.var t2 it = some j2
        · by_cases h3 : t2 ∈ c.row g t1
          · simp [h2, h3, addOf, keyOf_val hc hd]
          · simp [h3, hd.cov _ _ h3]
        · simp [h2]
      · simp [h1]
    · rw [if_neg hit, if_neg hit]
  · intro it' hne
    refine lsum_zero fun w hw => ?_
    simp only [List.mem_flatMap] at hw
    obtain ⟨t1, _, t2, _, hw⟩ := hw
    simp only [List.mem_cons, List.not_mem_nil, or_false] at hw
    rcases hw with rfl | rfl <;> simp [addOf, hne]

theorem sum_wIN (j1 j2 : Nat) {gr : Group} (hnd : gr.its.Nodup) : lsum (wIN c j1 j2 e g gr) (addOf c g it e Hg Z) =
    if it ∈ gr.its then SumI c.l it j1 fun t1 => SumN c.l j2 (Hg t1) else 0 := by
  cases hp : nonTape c.l j2 with
  | none =>
    unfold wIN SumN SumI
    rw [hp]
    simp only [lsum_nil]
    rw [lsum_zero]
    · simp
    · intros; simp
  | some p2 =>
    rw [wIN_eq hc gr hp, lsum_flatMap, lsum_its hnd (it := it)]
    · by_cases hit : it ∈ gr.its
      · rw [if_pos hit, if_pos hit, lsum_flatMap, lsum_filter, SumI]
        refine lsum_congr fun t1 _ => ?_
        rw [SumN, hp]
        simp only
        by_cases h1 : c.l.var t1 it = some j1
        · by_cases h3 : p2 ∈ c.row g t1
          · simp [h1, h3, addOf, valOf, hd.sym p2 t1]
          · simp [h3, hd.cov _ _ h3]
        · simp [h1]
      · rw [if_neg hit, if_neg hit]
    · intro it' hne
      refine lsum_zero fun w hw => ?_
      simp only [List.mem_flatMap] at hw
      obtain ⟨t1, _, hw⟩ := hw
      simp only [List.mem_cons, List.not_mem_nil, or_false] at hw
      rcases hw with rfl | rfl <;> simp [addOf, hne]

theorem sum_wNI (j1 j2 : Nat) {gr : Group} (hnd : gr.its.Nodup) : lsum (wNI c j1 j2 e g gr) (addOf c g it e Hg Z) =
    if it ∈ gr.its then SumN c.l j1 fun p1 => SumI c.l it j2 (Hg p1) else 0 := by
  cases hp : nonTape c.l j1 with
  | none =>
    unfold wNI SumN
    rw [hp]
    simp
  | some p1 =>
    rw [wNI_eq hc gr hp, lsum_flatMap, lsum_its hnd (it := it)]
    · by_cases hit : it ∈ gr.its
      · rw [if_pos hit, if_pos hit, lsum_flatMap, lsum_filter, SumN, hp]
        simp only
        rw [SumI]
        refine lsum_congr fun t2 _ => ?_
        by_cases h1 : c.l.var t2 it = some j2
        · by_cases h3 : t2 ∈ c.row g p1
          · simp [h1, h3, addOf, valOf]
          · simp [h3, hd.cov _ _ h3]
        · simp [h1]
      · rw [if_neg hit, if_neg hit]
    · intro it' hne
      refine lsum_zero fun w hw => ?_
      simp only [List.mem_flatMap] at hw
      obtain ⟨t1, _, hw⟩ := hw
      simp only [List.mem_cons, List.not_mem_nil, or_false] at hw
      rcases hw with rfl | rfl <;> simp [addOf, hne]

theorem sum_wIT {fr : Free} (hf : c.fr = some fr) (j1 j2 it' : Nat) (gr : Group) : lsum (wIT c fr j1 j2 e it' g gr) (addOf c g it e Hg Z) =
    if it' = it then if it ∈ gr.its then SumI c.l it j1 fun t1 => SumT c.l Z j2 (Hg t1) else 0 else 0 := by
  unfold wIT
  by_cases hit : it' = it
  · subst hit
    rw [if_pos rfl]
    by_cases hm : it' ∈ gr.its
    · rw [if_pos hm, if_pos hm, lsum_flatMap, lsum_filter, SumI]
      refine lsum_congr fun t1 _ => ?_
      by_cases h1 : c.l.var t1 it' = some j1
      · simp only [h1, beq_self_eq_true, if_true]
        rw [lsum_append, lsum_zero, zero_add]
        · split
          · rename_i hnil
            rw [lsum_nil, SumT_zero hc hd hf ((ks_nil hc).mp hnil)]
          · simp [addOf, valOf]
        · intro w hw
          simp only [List.mem_flatMap] at hw
          obtain ⟨p, _, hw⟩ := hw
          simp only [List.mem_cons, List.not_mem_nil, or_false] at hw
          rcases hw with rfl | rfl | rfl <;> simp [addOf]
      · simp [h1]
    · rw [if_neg hm, if_neg hm, lsum_nil]
  · rw [if_neg hit]
    refine lsum_zero fun w hw => ?_
    have := (mem_wIT hc (w := w)).mp (by unfold wIT; exact hw)
    obtain ⟨_, t1, _, _, k, pk, _, hw⟩ := this
    rcases hw with rfl | rfl | rfl | rfl <;> simp [addOf, hit]

end

theorem sum_other {c : Cx} {g it e : Nat} {Hg : Nat → Nat → α} {Z : Nat → Nat → α} {l : List (Nat × Wr)} (h : ∀ w ∈ l, w.1 ≠ g) : lsum l (addOf c g it e Hg Z) = 0 := by
  refine lsum_zero fun w hw => ?_
  unfold addOf
  split
  · rw [if_neg fun hh => h w hw hh.1]
  · rfl

/-- the first one -/
theorem lsum_first (p : Nat → Prop) [DecidablePred p] (x : α) : ∀ n, (lsum (List.range n) fun k => if p k ∧ ¬ ∃ k' < k, p k' then x else 0) =
    if ∃ k < n, p k then x else 0
  | 0 => by simp
  | n + 1 => by
    rw [List.range_succ, lsum_append, lsum_first p x n, lsum_cons, lsum_nil, add_zero]
    by_cases h : ∃ k < n, p k
    · rw [if_pos h, if_neg (fun h' => h'.2 h), if_pos (by obtain ⟨k, h1, h2⟩ := h; exact ⟨k, by omega, h2⟩), add_zero]
    · rw [if_neg h, zero_add]
      by_cases hp : p n
      · rw [if_pos ⟨hp, h⟩, if_pos ⟨n, by omega, hp⟩]
      · rw [if_neg (fun h' => hp h'.1), if_neg]
        rintro ⟨k, h1, h2⟩
        by_cases hk : k = n
        · rw [hk] at h2; exact hp h2
        · exact h ⟨k, by omega, h2⟩

theorem sum_wTI {c : Cx} (hc : CxOk c) {g : Nat} {Hg : Nat → Nat → α} {Z : Nat → Nat → α} (it e : Nat) (fr : Free) (j1 j2 k1 pk : Nat) {gr : Group} (hnd : gr.its.Nodup) :
    lsum (wTI c fr j1 j2 e k1 pk g gr) (addOf c g it e Hg Z) =
    if it ∈ gr.its then SumI c.l it j2 fun t2 => if t2 ∈ c.row g pk ∧ usedTape c fr j1 g k1 t2 = false then SumT c.l Z j1 (Hg t2) else 0 else 0 := by
  rw [wTI_eq hc, lsum_flatMap, lsum_filter, SumI]
  have : ∀ t2, (lsum ((gr.its.filter fun it => c.l.var t2 it == some j2).flatMap fun it' =>
      (if usedTape c fr j1 g k1 t2 then [] else [(g, .pos .it (t2, j1) it' e)]) ++ [(g, .ev t2 pk), (g, .itE (t2, j1) k1)]) (addOf c g it e Hg Z)) =
      if it ∈ gr.its then if c.l.var t2 it = some j2 ∧ usedTape c fr j1 g k1 t2 = false then SumT c.l Z j1 (Hg t2) else 0 else 0 := by
    intro t2
    rw [lsum_flatMap, lsum_filter, lsum_its hnd (it := it)]
    · by_cases hit : it ∈ gr.its
      · rw [if_pos hit, if_pos hit]
        by_cases h1 : c.l.var t2 it = some j2
        · by_cases hu : usedTape c fr j1 g k1 t2 = true
          · simp [h1, hu, addOf]
          · have hu : usedTape c fr j1 g k1 t2 = false := by simpa using hu
            simp [h1, hu, addOf, valOf]
        · simp [h1]
      · rw [if_neg hit, if_neg hit]
    · intro it' hne
      split
      · refine lsum_zero fun w hw => ?_
        rcases List.mem_append.mp hw with hw | hw
        · split at hw
          · simp at hw
          · rw [List.mem_singleton.mp hw]; simp [addOf, hne]
        · simp only [List.mem_cons, List.not_mem_nil, or_false] at hw
          rcases hw with rfl | rfl <;> simp [addOf]
      · rfl
  simp only [this]
  by_cases hit : it ∈ gr.its
  · simp only [hit, if_true]
    refine lsum_congr fun t2 _ => ?_
    by_cases h1 : t2 ∈ c.row g pk <;> by_cases h2 : c.l.var t2 it = some j2 <;> simp [h1, h2]
  · simp only [hit, if_false]
    refine lsum_zero fun t2 _ => ?_
    split <;> rfl

theorem sum_wTmp {c : Cx} (hc : CxOk c) {g : Nat} {Hg : Nat → Nat → α} {Z : Nat → Nat → α} (it e : Nat) (fr : Free) (j1 j2 k1 : Nat) {gr : Group} (hg : (g, gr) ∈ c.gs) :
    lsum (wTmp c fr j1 j2 e k1) (addOf c g it e Hg Z) =
    if it ∈ gr.its then SumI c.l it j2 fun t2 => if (fr.dep k1 j1 = true ∧ ∃ pk, tmpTape c.l k1 = some pk ∧ t2 ∈ c.row g pk) ∧
      ¬ ∃ k < k1, fr.dep k j1 = true ∧ ∃ pk, tmpTape c.l k = some pk ∧ t2 ∈ c.row g pk then SumT c.l Z j1 (Hg t2) else 0 else 0 := by
  unfold wTmp
  by_cases hdep : fr.dep k1 j1 = true
  · rw [if_pos hdep]
    cases ht : tmpTape c.l k1 with
    | none =>
      simp [SumI]
      rw [lsum_zero]
      · simp
      · intros; rfl
    | some pk =>
      simp only
      rw [lsum_append, lsum_append, lsum_flatMap]
      have h1 : lsum (wDZ c j1 j2 e k1 pk) (addOf c g it e Hg Z) = 0 := by
        refine lsum_zero fun w hw => ?_
        obtain ⟨_, i, row, _, _, hw⟩ := mem_wDZ.mp hw
        rcases hw with rfl | rfl | rfl | rfl <;> simp [addOf]
      have h2 : lsum [((0, .need (fr.eqs.length + k1) j1) : Nat × Wr)] (addOf c g it e Hg Z) = 0 := by simp [addOf]
      rw [h1, h2, add_zero, add_zero, lsum_gs hc hg]
      · simp only
        rw [lsum_append, lsum_append]
        have h3 : lsum (wTN c j1 j2 e k1 pk g) (addOf c g it e Hg Z) = 0 := by
          refine lsum_zero fun w hw => ?_
          obtain ⟨_, _, _, hw⟩ := mem_wTN.mp hw
          rcases hw with rfl | rfl | rfl <;> simp [addOf]
        have h4 : lsum (wTT c fr j1 j2 e k1 pk g) (addOf c g it e Hg Z) = 0 := by
          refine lsum_zero fun w hw => ?_
          obtain ⟨_, _, _, hw⟩ := (mem_wTT hc).mp hw
          rcases hw with rfl | rfl | rfl | rfl <;> simp [addOf]
        rw [h3, h4, add_zero, add_zero, sum_wTI hc it e fr j1 j2 k1 pk (group_its_nodup (List.mem_of_getElem? (hc.mem_gs.mp hg)))]
        simp only [hdep, Option.some.injEq, exists_eq_left', true_and, Bool.eq_false_iff, ne_eq, usedTape_iff]
      · intro gp _ hne
        refine sum_other fun w hw => ?_
        rcases List.mem_append.mp hw with hw | hw
        · rcases List.mem_append.mp hw with hw | hw
          · obtain ⟨_, _, _, _, _, _, hw⟩ := (mem_wTI hc).mp hw
            rcases hw with rfl | rfl | ⟨_, rfl⟩ <;> exact hne
          · obtain ⟨_, _, _, hw⟩ := mem_wTN.mp hw
            rcases hw with rfl | rfl | rfl <;> exact hne
        · obtain ⟨_, _, _, hw⟩ := (mem_wTT hc).mp hw
          rcases hw with rfl | rfl | rfl | rfl <;> exact hne
  · rw [if_neg hdep]
    simp [hdep, SumI]
    rw [lsum_zero]
    · simp
    · intros; rfl

/-- exchange the sums over indexed variables and temporaries -/
theorem SumT_SumI {l : Loop} {Hg : Nat → Nat → α} (hs : ∀ t1 t2, Hg t1 t2 = Hg t2 t1) (Z : Nat → Nat → α) (it j1 j2 : Nat) :
    (SumT l Z j1 fun pk => SumI l it j2 (Hg pk)) = SumI l it j2 fun t2 => SumT l Z j1 (Hg t2) := by
  unfold SumT SumI
  simp only [← lsum_mul_right, ite_mul, zero_mul]
  rw [lsum_comm]
  refine lsum_congr fun t2 _ => ?_
  rw [lsum_ite]
  split
  · exact lsum_congr fun k _ => by rw [hs]
  · rfl

/-- the blocks with an index -/
def idxBlocks (c : Cx) (Hg : Nat → Nat → α) (Z : Nat → Nat → α) (it j1 j2 : Nat) : α :=
  (SumI c.l it j1 fun t1 => SumI c.l it j2 (Hg t1)) + (SumI c.l it j1 fun t1 => SumN c.l j2 (Hg t1)) +
  (SumI c.l it j1 fun t1 => SumT c.l Z j2 (Hg t1)) + (SumN c.l j1 fun p1 => SumI c.l it j2 (Hg p1)) +
  (SumT c.l Z j1 fun pk => SumI c.l it j2 (Hg pk))

theorem sum_wLoop {c : Cx} (hc : CxOk c) {g : Nat} {Hg : Nat → Nat → α} {Z : Nat → Nat → α} (hd : Der c g Hg Z) (it e j1 j2 : Nat) {gr : Group} (hg : (g, gr) ∈ c.gs) :
    lsum (wLoop c (j1, j2, e)) (addOf c g it e Hg Z) = if it ∈ gr.its then idxBlocks c Hg Z it j1 j2 else 0 := by
  have hnd : gr.its.Nodup := group_its_nodup (List.mem_of_getElem? (hc.mem_gs.mp hg))
  have hlt := group_its_lt (List.mem_of_getElem? (hc.mem_gs.mp hg))
  unfold wLoop
  simp only
  rw [lsum_append, lsum_append, lsum_append, lsum_append, lsum_flatMap, lsum_flatMap, lsum_flatMap]
  rw [lsum_gs hc hg (X := fun x => lsum (wII c j1 j2 e x.1 x.2 ++ wIN c j1 j2 e x.1 x.2) (addOf c g it e Hg Z))
    (by
      intro gp _ hne
      refine sum_other fun w hw => ?_
      rcases List.mem_append.mp hw with hw | hw
      · obtain ⟨_, _, _, _, _, _, _, _, _, hw⟩ := (mem_wII hc).mp hw
        rcases hw with rfl | rfl <;> exact hne
      · obtain ⟨_, _, _, _, _, _, _, _, hw⟩ := (mem_wIN hc).mp hw
        rcases hw with rfl | rfl <;> exact hne)]
  rw [lsum_gs hc hg (X := fun x => lsum (wNI c j1 j2 e x.1 x.2) (addOf c g it e Hg Z))
    (by
      intro gp _ hne
      refine sum_other fun w hw => ?_
      obtain ⟨_, _, _, _, _, _, _, _, hw⟩ := (mem_wNI hc).mp hw
      rcases hw with rfl | rfl <;> exact hne)]
  have hNN : (lsum c.gs fun x => lsum (wNN c j1 j2 e x.1 x.2) (addOf c g it e Hg Z)) = 0 := by
    refine lsum_zero fun gp hgp => lsum_zero fun w hw => ?_
    obtain ⟨_, _, _, _, _, hw⟩ := (mem_wNN hc (hc.its _ hgp)).mp hw
    rcases hw with rfl | rfl | rfl <;> simp [addOf]
  rw [hNN, lsum_append, sum_wII hc hd it e j1 j2 hnd, sum_wIN hc hd it e j1 j2 hnd, sum_wNI hc hd it e j1 j2 hnd]
  cases hf : c.fr with
  | none =>
    have ht : c.l.tmp = [] := by
      rw [List.eq_nil_iff_forall_not_mem]
      intro k hk
      obtain ⟨fr, h, _⟩ := hc.temps k hk
      rw [hf] at h; simp at h
    simp only [lsum_nil, add_zero, idxBlocks]
    have h0 : ∀ j f, SumT c.l Z j f = 0 := fun j f => by simp [SumT, ht]
    simp only [h0]
    have h1 : (SumI c.l it j1 fun _ => (0 : α)) = 0 := by
      unfold SumI
      exact lsum_zero fun _ _ => by split <;> rfl
    rw [h1]
    split <;> simp
  | some fr =>
    simp only
    rw [lsum_append, lsum_flatMap, lsum_flatMap, lsum_flatMap]
    have hNT : (lsum c.gs fun x => lsum (wNT c fr j1 j2 e x.1) (addOf c g it e Hg Z)) = 0 := by
      refine lsum_zero fun gp _ => lsum_zero fun w hw => ?_
      obtain ⟨_, _, _, _, _, hw⟩ := (mem_wNT hc).mp hw
      rcases hw with rfl | rfl | rfl | rfl <;> simp [addOf]
    rw [hNT]
    have hIT : (lsum (List.range c.l.iters) fun it' => lsum (c.gs.flatMap fun x => wIT c fr j1 j2 e it' x.1 x.2) (addOf c g it e Hg Z)) =
        if it ∈ gr.its then SumI c.l it j1 fun t1 => SumT c.l Z j2 (Hg t1) else 0 := by
      have : ∀ it' ∈ List.range c.l.iters, lsum (c.gs.flatMap fun x => wIT c fr j1 j2 e it' x.1 x.2) (addOf c g it e Hg Z) =
          if it' = it then (if it ∈ gr.its then SumI c.l it j1 fun t1 => SumT c.l Z j2 (Hg t1) else 0) else 0 := by
        intro it' _
        rw [lsum_flatMap, lsum_gs hc hg]
        · exact sum_wIT hc hd it e hf j1 j2 it' gr
        · intro gp _ hne
          refine sum_other fun w hw => ?_
          obtain ⟨_, _, _, _, _, _, _, hw⟩ := (mem_wIT hc).mp hw
          rcases hw with rfl | rfl | rfl | rfl <;> exact hne
      rw [lsum_congr this, lsum_if_eq List.nodup_range (fun _ => if it ∈ gr.its then SumI c.l it j1 fun t1 => SumT c.l Z j2 (Hg t1) else 0) it]
      by_cases hit : it ∈ gr.its
      · rw [if_pos (List.mem_range.mpr (hlt it hit))]
      · simp [hit]
    rw [hIT]
    have hTm : (lsum (List.range (fr.jac.length - fr.eqs.length)) fun k1 => lsum (wTmp c fr j1 j2 e k1) (addOf c g it e Hg Z)) =
        if it ∈ gr.its then SumT c.l Z j1 fun pk => SumI c.l it j2 (Hg pk) else 0 := by
      rw [SumT_SumI hd.sym]
      rw [lsum_congr fun k1 _ => sum_wTmp hc it e fr j1 j2 k1 hg, lsum_ite]
      by_cases hit : it ∈ gr.its
      · rw [if_pos hit, if_pos hit]
        unfold SumI
        rw [lsum_comm]
        refine lsum_congr fun t2 _ => ?_
        rw [lsum_ite]
        by_cases hv : c.l.var t2 it = some j2
        · rw [if_pos hv, if_pos hv]
          classical
          have := lsum_first (fun k => fr.dep k j1 = true ∧ ∃ pk, tmpTape c.l k = some pk ∧ t2 ∈ c.row g pk) (SumT c.l Z j1 (Hg t2)) (fr.jac.length - fr.eqs.length)
          refine Eq.trans (lsum_congr fun k _ => ?_) (this.trans ?_)
          · exact if_congr Iff.rfl rfl rfl
          · by_cases hex : ∃ k < fr.jac.length - fr.eqs.length, fr.dep k j1 = true ∧ ∃ pk, tmpTape c.l k = some pk ∧ t2 ∈ c.row g pk
            · rw [if_pos hex]
            · rw [if_neg hex]
              refine (SumT_zero hc hd hf ?_).symm
              rintro ⟨k, pk, h1, h2, h3⟩
              exact hex ⟨k, hc.tmp_lt hf h1, h3, pk, h1, hc.rowSym _ _ _ h2⟩
        · rw [if_neg hv, if_neg hv]
      · rw [if_neg hit, if_neg hit]
    rw [hTm, zero_add, add_zero]
    unfold idxBlocks
    split <;> simp

end Verif.Loops
