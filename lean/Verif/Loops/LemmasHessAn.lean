import Verif.Loops.LemmasHess

/-
The analysis of a requested Hessian element: which writes to the tables it makes.
-/
namespace Verif.Loops

open Verif.Index Verif.Ranges

/-- what the theorems need about the loop and the patterns -/
structure CxOk (c : Cx) : Prop where
  sym : c.sym = true
  gs : c.gs = (groups c.l).zipIdx.map fun p => (p.2, p.1)
  non : c.l.non.Nodup
  tmp : c.l.tmp.Nodup
  temps : ∀ k ∈ c.l.tmp, ∃ fr, c.fr = some fr ∧ fr.eqs.length + k < fr.jac.length
  rowSym : ∀ g t1 t2, t2 ∈ c.row g t1 → t1 ∈ c.row g t2
  its : ∀ p ∈ c.gs, p.2.its ≠ []
  jac : c.jac.length = c.l.dep.length

theorem tmpTape_eq {l : Loop} (hn : l.tmp.Nodup) {k t : Nat} : tmpTape l k = some t ↔ ∃ p, l.tmp[p]? = some k ∧ t = l.ind.length + l.non.length + p := by
  unfold tmpTape
  constructor
  · intro h
    obtain ⟨p, h1, rfl⟩ := Option.map_eq_some_iff.mp h
    exact ⟨p, lastIdx_some h1, rfl⟩
  · rintro ⟨p, h1, rfl⟩
    rw [lastIdx_eq hn h1]; rfl

theorem nonAny_iff {l : Loop} (hn : l.non.Nodup) {j p : Nat} (hp : nonTape l j = some p) (f : Nat → Bool) : nonAny l j f = true ↔ f p = true := by
  obtain ⟨q, h1, rfl⟩ := (nonTape_eq hn).mp hp
  unfold nonAny
  rw [List.any_eq_true]
  simp only [List.mem_range, Bool.and_eq_true, beq_iff_eq]
  constructor
  · rintro ⟨q', _, h3, h4⟩
    have e1 := lastIdx_eq hn h1
    rw [lastIdx_eq hn h3] at e1
    rw [Option.some.inj e1] at h4
    exact h4
  · exact fun h => ⟨q, (List.getElem?_eq_some_iff.mp h1).1, h1, h⟩

theorem mem_tmpsIn {l : Loop} (hn : l.tmp.Nodup) {row : List Nat} {t k : Nat} : (t, k) ∈ tmpsIn l row ↔ tmpTape l k = some t ∧ t ∈ row := by
  unfold tmpsIn
  rw [List.mem_filterMap, tmpTape_eq hn]
  constructor
  · rintro ⟨p, _, h2⟩
    split at h2
    · rename_i hm
      obtain ⟨k', h3, h4⟩ := Option.map_eq_some_iff.mp h2
      obtain ⟨rfl, rfl⟩ := Prod.mk.inj h4
      exact ⟨⟨p, h3, rfl⟩, hm⟩
    · simp at h2
  · rintro ⟨⟨p, h1, rfl⟩, h2⟩
    refine ⟨p, List.mem_range.mpr (List.getElem?_eq_some_iff.mp h1).1, ?_⟩
    rw [if_pos h2, h1]; rfl

/-- the key of two indexed tape variables -/
def keyOf (t1 t2 : Nat) : Nat × Nat := if t2 < t1 then (t2, t1) else (t1, t2)

theorem wII_eq {c : Cx} (hc : CxOk c) (j1 j2 e g : Nat) (gr : Group) : wII c j1 j2 e g gr =
    gr.its.flatMap fun it => ((List.range c.l.ind.length).filter fun t1 => c.l.var t1 it == some j1).flatMap fun t1 =>
      ((List.range c.l.ind.length).filter fun t2 => decide (t2 ∈ c.row g t1) && c.l.var t2 it == some j2).flatMap fun t2 =>
        [(g, .pos .ii (keyOf t1 t2) it e), (g, .ev (keyOf t1 t2).1 (keyOf t1 t2).2)] := by
  unfold wII
  congr 1; funext it
  congr 1; funext t1
  rw [List.flatMap_def, List.flatMap_def]
  congr 1
  refine List.map_congr_left fun t2 ht2 => ?_
  have hm : t2 ∈ c.row g t1 := by
    have := (List.mem_filter.mp ht2).2
    simp at this; exact this.1
  have := hc.rowSym _ _ _ hm
  unfold keyOf
  by_cases h : t2 < t1 <;> simp [h, this, hc.sym]

theorem mem_wII {c : Cx} (hc : CxOk c) {j1 j2 e g : Nat} {gr : Group} {w : Nat × Wr} : w ∈ wII c j1 j2 e g gr ↔
    ∃ it ∈ gr.its, ∃ t1 t2, t1 < c.l.ind.length ∧ t2 < c.l.ind.length ∧ c.l.var t1 it = some j1 ∧ c.l.var t2 it = some j2 ∧ t2 ∈ c.row g t1 ∧
      (w = (g, .pos .ii (keyOf t1 t2) it e) ∨ w = (g, .ev (keyOf t1 t2).1 (keyOf t1 t2).2)) := by
  rw [wII_eq hc]
  simp only [List.mem_flatMap, List.mem_filter, List.mem_range, Bool.and_eq_true, decide_eq_true_eq, beq_iff_eq, List.mem_cons, List.not_mem_nil, or_false]
  constructor
  · rintro ⟨it, h1, t1, ⟨h2, h3⟩, t2, ⟨h4, h5, h6⟩, h7⟩
    exact ⟨it, h1, t1, t2, h2, h4, h3, h6, h5, h7⟩
  · rintro ⟨it, h1, t1, t2, h2, h4, h3, h6, h5, h7⟩
    exact ⟨it, h1, t1, ⟨h2, h3⟩, t2, ⟨h4, h5, h6⟩, h7⟩

theorem wIN_eq {c : Cx} (hc : CxOk c) {j1 j2 e g p2 : Nat} (gr : Group) (hp : nonTape c.l j2 = some p2) : wIN c j1 j2 e g gr =
    gr.its.flatMap fun it => ((List.range c.l.ind.length).filter fun t1 => c.l.var t1 it == some j1 && decide (p2 ∈ c.row g t1)).flatMap fun t1 =>
      [(g, .ev p2 t1), (g, .pos .ni (p2, t1) it e)] := by
  unfold wIN
  rw [hp]
  simp only
  congr 1; funext it
  have : ((List.range c.l.ind.length).filter fun t1 => c.l.var t1 it == some j1 && nonAny c.l j2 fun t2 => decide (t2 ∈ c.row g t1)) =
      ((List.range c.l.ind.length).filter fun t1 => c.l.var t1 it == some j1 && decide (p2 ∈ c.row g t1)) := by
    refine List.filter_congr fun t1 _ => ?_
    congr 1
    have := nonAny_iff hc.non hp fun t2 => decide (t2 ∈ c.row g t1)
    exact Bool.eq_iff_iff.mpr this
  rw [this, List.flatMap_def, List.flatMap_def]
  congr 1
  refine List.map_congr_left fun t1 ht1 => ?_
  have hm : p2 ∈ c.row g t1 := by
    have := (List.mem_filter.mp ht1).2
    simp at this; exact this.2
  simp [hc.sym, hc.rowSym _ _ _ hm]

theorem mem_wIN {c : Cx} (hc : CxOk c) {j1 j2 e g : Nat} {gr : Group} {w : Nat × Wr} : w ∈ wIN c j1 j2 e g gr ↔
    ∃ p2, nonTape c.l j2 = some p2 ∧ ∃ it ∈ gr.its, ∃ t1, t1 < c.l.ind.length ∧ c.l.var t1 it = some j1 ∧ p2 ∈ c.row g t1 ∧
      (w = (g, .pos .ni (p2, t1) it e) ∨ w = (g, .ev p2 t1)) := by
  cases hp : nonTape c.l j2 with
  | none => unfold wIN; rw [hp]; simp
  | some p2 =>
    rw [wIN_eq hc gr hp]
    simp only [List.mem_flatMap, List.mem_filter, List.mem_range, Bool.and_eq_true, decide_eq_true_eq, beq_iff_eq, List.mem_cons, List.not_mem_nil, or_false]
    constructor
    · rintro ⟨it, h1, t1, ⟨h2, h3, h4⟩, h5⟩
      exact ⟨p2, rfl, it, h1, t1, h2, h3, h4, h5.symm⟩
    · rintro ⟨p, hpp, it, h1, t1, h2, h3, h4, h5⟩
      obtain rfl := Option.some.inj hpp
      exact ⟨it, h1, t1, ⟨h2, h3, h4⟩, h5.symm⟩

/-- the temporaries which the second derivatives of the tape variable `t` with respect to temporaries, and so to variable `j`, need -/
def TmpOf (c : Cx) (fr : Free) (g t j k pk : Nat) : Prop := tmpTape c.l k = some pk ∧ pk ∈ c.row g t ∧ fr.dep k j = true

theorem mem_ks {c : Cx} (hc : CxOk c) {fr : Free} {g t j pk k : Nat} :
    (pk, k) ∈ ((tmpsIn c.l (c.row g t)).filter fun p => fr.dep p.2 j) ↔ TmpOf c fr g t j k pk := by
  rw [List.mem_filter, mem_tmpsIn hc.tmp, TmpOf, and_assoc]

theorem ks_nil {c : Cx} (hc : CxOk c) {fr : Free} {g t j : Nat} :
    ((tmpsIn c.l (c.row g t)).filter fun p => fr.dep p.2 j) = [] ↔ ¬ ∃ k pk, TmpOf c fr g t j k pk := by
  constructor
  · rintro h ⟨k, pk, hk⟩
    have := (mem_ks hc).mpr hk
    rw [h] at this; simp at this
  · intro h
    rw [List.eq_nil_iff_forall_not_mem]
    rintro ⟨pk, k⟩ hm
    exact h ⟨k, pk, (mem_ks hc).mp hm⟩

theorem mem_wIT {c : Cx} (hc : CxOk c) {fr : Free} {j1 j2 e it g : Nat} {gr : Group} {w : Nat × Wr} : w ∈ wIT c fr j1 j2 e it g gr ↔
    it ∈ gr.its ∧ ∃ t1, t1 < c.l.ind.length ∧ c.l.var t1 it = some j1 ∧ ∃ k pk, TmpOf c fr g t1 j2 k pk ∧
      (w = (g, .need (fr.eqs.length + k) j2) ∨ w = (g, .itE (t1, j2) k) ∨ w = (g, .ev t1 pk) ∨ w = (g, .pos .it (t1, j2) it e)) := by
  unfold wIT
  by_cases hit : it ∈ gr.its
  · rw [if_pos hit]
    simp only [List.mem_flatMap, List.mem_filter, List.mem_range, beq_iff_eq, List.mem_append]
    constructor
    · rintro ⟨t1, ⟨h1, h2⟩, h3⟩
      refine ⟨hit, t1, h1, h2, ?_⟩
      rcases h3 with ⟨⟨pk, k⟩, h4, h5⟩ | h4
      · have hk := (mem_ks hc).mp (List.mem_filter.mpr h4)
        refine ⟨k, pk, hk, ?_⟩
        simp only [hk.1, Option.getD_some, List.mem_cons, List.not_mem_nil, or_false] at h5
        rcases h5 with h5 | h5 | h5
        · exact Or.inl h5
        · exact Or.inr (Or.inl h5)
        · exact Or.inr (Or.inr (Or.inl h5))
      · split at h4
        · simp at h4
        · rename_i hne
          rw [ks_nil hc, not_not] at hne
          obtain ⟨k, pk, hk⟩ := hne
          exact ⟨k, pk, hk, Or.inr (Or.inr (Or.inr (List.mem_singleton.mp h4)))⟩
    · rintro ⟨_, t1, h1, h2, k, pk, hk, h3⟩
      refine ⟨t1, ⟨h1, h2⟩, ?_⟩
      have hkm := (mem_ks hc).mpr hk
      have hk1 := hk.1
      rcases h3 with rfl | rfl | rfl | rfl
      · exact Or.inl ⟨(pk, k), List.mem_filter.mp hkm, by simp⟩
      · exact Or.inl ⟨(pk, k), List.mem_filter.mp hkm, by simp⟩
      · exact Or.inl ⟨(pk, k), List.mem_filter.mp hkm, by simp [hk1]⟩
      · refine Or.inr ?_
        rw [if_neg]
        · simp
        · rw [ks_nil hc, not_not]; exact ⟨k, pk, hk⟩
  · rw [if_neg hit]; simp [hit]

theorem wNI_eq {c : Cx} (hc : CxOk c) {j1 j2 e g p1 : Nat} (gr : Group) (hp : nonTape c.l j1 = some p1) : wNI c j1 j2 e g gr =
    gr.its.flatMap fun it => ((List.range c.l.ind.length).filter fun t2 => c.l.var t2 it == some j2 && decide (t2 ∈ c.row g p1)).flatMap fun t2 =>
      [(g, .pos .ni (p1, t2) it e), (g, .ev p1 t2)] := by
  unfold wNI
  rw [hp]
  simp only
  congr 1; funext it
  congr 1
  refine List.filter_congr fun t2 _ => ?_
  congr 1
  have := nonAny_iff hc.non hp fun t1 => decide (t2 ∈ c.row g t1)
  exact Bool.eq_iff_iff.mpr this

theorem mem_wNI {c : Cx} (hc : CxOk c) {j1 j2 e g : Nat} {gr : Group} {w : Nat × Wr} : w ∈ wNI c j1 j2 e g gr ↔
    ∃ p1, nonTape c.l j1 = some p1 ∧ ∃ it ∈ gr.its, ∃ t2, t2 < c.l.ind.length ∧ c.l.var t2 it = some j2 ∧ t2 ∈ c.row g p1 ∧
      (w = (g, .pos .ni (p1, t2) it e) ∨ w = (g, .ev p1 t2)) := by
  cases hp : nonTape c.l j1 with
  | none => unfold wNI; rw [hp]; simp
  | some p1 =>
    rw [wNI_eq hc gr hp]
    simp only [List.mem_flatMap, List.mem_filter, List.mem_range, Bool.and_eq_true, decide_eq_true_eq, beq_iff_eq, List.mem_cons, List.not_mem_nil, or_false]
    constructor
    · rintro ⟨it, h1, t1, ⟨h2, h3, h4⟩, h5⟩
      exact ⟨p1, rfl, it, h1, t1, h2, h3, h4, h5⟩
    · rintro ⟨p, hpp, it, h1, t1, h2, h3, h4, h5⟩
      obtain rfl := Option.some.inj hpp
      exact ⟨it, h1, t1, ⟨h2, h3, h4⟩, h5⟩

theorem mem_wNN {c : Cx} (hc : CxOk c) {j1 j2 e g : Nat} {gr : Group} (hne : gr.its ≠ []) {w : Nat × Wr} : w ∈ wNN c j1 j2 e g gr ↔
    ∃ p1 p2, nonTape c.l j1 = some p1 ∧ nonTape c.l j2 = some p2 ∧ p2 ∈ c.row g p1 ∧
      (w = (g, .nnE (j1, j2)) ∨ w = (g, .ev p1 p2) ∨ w = (g, .const (j1, j2) e)) := by
  unfold wNN
  cases hp1 : nonTape c.l j1 with
  | none => simp
  | some p1 =>
    cases hp2 : nonTape c.l j2 with
    | none => simp
    | some p2 =>
      simp only [Option.some.injEq]
      have : nonAny c.l j1 (fun t1 => nonAny c.l j2 fun t2 => decide (t2 ∈ c.row g t1)) = true ↔ p2 ∈ c.row g p1 := by
        rw [nonAny_iff hc.non hp1, nonAny_iff hc.non hp2, decide_eq_true_eq]
      by_cases hm : p2 ∈ c.row g p1
      · rw [if_pos ⟨hne, this.mpr hm⟩]
        simp only [List.mem_cons, List.not_mem_nil, or_false]
        constructor
        · exact fun h => ⟨p1, p2, rfl, rfl, hm, h⟩
        · rintro ⟨_, _, rfl, rfl, _, h⟩; exact h
      · rw [if_neg fun h => hm (this.mp h.2)]
        simp only [List.not_mem_nil, false_iff]
        rintro ⟨_, _, rfl, rfl, h, _⟩; exact hm h

theorem mem_wNT {c : Cx} (hc : CxOk c) {fr : Free} {j1 j2 e g : Nat} {w : Nat × Wr} : w ∈ wNT c fr j1 j2 e g ↔
    ∃ p1, nonTape c.l j1 = some p1 ∧ ∃ k pk, TmpOf c fr g p1 j2 k pk ∧
      (w = (g, .need (fr.eqs.length + k) j2) ∨ w = (g, .const (j1, j2) e) ∨ w = (g, .ntE (j1, j2) k) ∨ w = (g, .ev p1 pk)) := by
  unfold wNT
  cases hp : nonTape c.l j1 with
  | none => simp
  | some p1 =>
    simp only [List.mem_flatMap, Prod.exists]
    constructor
    · rintro ⟨pk, k, h1, h2⟩
      have hk := (mem_ks hc).mp h1
      refine ⟨p1, rfl, k, pk, hk, ?_⟩
      simpa [hk.1] using h2
    · rintro ⟨p, hpp, k, pk, hk, h2⟩
      obtain rfl := Option.some.inj hpp
      refine ⟨pk, k, (mem_ks hc).mpr hk, ?_⟩
      simpa [hk.1] using h2

/-- an earlier temporary wrote the positions -/
theorem usedTape_iff {c : Cx} {fr : Free} {j1 g k1 t2 : Nat} : usedTape c fr j1 g k1 t2 = true ↔
    ∃ k < k1, fr.dep k j1 = true ∧ ∃ pk, tmpTape c.l k = some pk ∧ t2 ∈ c.row g pk := by
  unfold usedTape
  rw [List.any_eq_true]
  simp only [List.mem_range, Bool.and_eq_true]
  refine exists_congr fun k => and_congr_right fun _ => and_congr_right fun _ => ?_
  cases tmpTape c.l k with
  | none => simp
  | some pk => simp

theorem wTI_eq {c : Cx} (hc : CxOk c) (fr : Free) (j1 j2 e k1 pk g : Nat) (gr : Group) : wTI c fr j1 j2 e k1 pk g gr =
    ((List.range c.l.ind.length).filter fun t2 => t2 ∈ c.row g pk).flatMap fun t2 => (gr.its.filter fun it => c.l.var t2 it == some j2).flatMap fun it =>
      (if usedTape c fr j1 g k1 t2 then [] else [(g, .pos .it (t2, j1) it e)]) ++ [(g, .ev t2 pk), (g, .itE (t2, j1) k1)] := by
  unfold wTI
  rw [List.flatMap_def, List.flatMap_def]
  congr 1
  refine List.map_congr_left fun t2 ht2 => ?_
  have hm : t2 ∈ c.row g pk := by
    have := (List.mem_filter.mp ht2).2
    simpa using this
  congr 1; funext it
  simp [hc.sym, hc.rowSym _ _ _ hm]

theorem mem_wTI {c : Cx} (hc : CxOk c) {fr : Free} {j1 j2 e k1 pk g : Nat} {gr : Group} {w : Nat × Wr} : w ∈ wTI c fr j1 j2 e k1 pk g gr ↔
    ∃ it ∈ gr.its, ∃ t2, t2 < c.l.ind.length ∧ c.l.var t2 it = some j2 ∧ t2 ∈ c.row g pk ∧
      (w = (g, .ev t2 pk) ∨ w = (g, .itE (t2, j1) k1) ∨ (usedTape c fr j1 g k1 t2 = false ∧ w = (g, .pos .it (t2, j1) it e))) := by
  rw [wTI_eq hc]
  simp only [List.mem_flatMap, List.mem_filter, List.mem_range, beq_iff_eq, decide_eq_true_eq, List.mem_append]
  constructor
  · rintro ⟨t2, ⟨h1, h2⟩, it, ⟨h3, h4⟩, h5⟩
    refine ⟨it, h3, t2, h1, h4, h2, ?_⟩
    rcases h5 with h5 | h5
    · split at h5
      · simp at h5
      · rename_i hu
        exact Or.inr (Or.inr ⟨by simpa using hu, List.mem_singleton.mp h5⟩)
    · simp only [List.mem_cons, List.not_mem_nil, or_false] at h5
      rcases h5 with h5 | h5
      · exact Or.inl h5
      · exact Or.inr (Or.inl h5)
  · rintro ⟨it, h3, t2, h1, h4, h2, h5⟩
    refine ⟨t2, ⟨h1, h2⟩, it, ⟨h3, h4⟩, ?_⟩
    rcases h5 with rfl | rfl | ⟨hu, rfl⟩
    · exact Or.inr (by simp)
    · exact Or.inr (by simp)
    · exact Or.inl (by simp [hu])

theorem mem_wTN {c : Cx} {j1 j2 e k1 pk g : Nat} {w : Nat × Wr} : w ∈ wTN c j1 j2 e k1 pk g ↔
    ∃ p2, nonTape c.l j2 = some p2 ∧ j2 ∈ c.row g pk ∧
      (w = (g, .const (j1, j2) e) ∨ w = (g, .tnE (j1, j2) k1) ∨ w = (g, .ev pk p2)) := by
  unfold wTN
  cases hp : nonTape c.l j2 with
  | none => simp
  | some p2 =>
    simp only [Option.some.injEq, exists_eq_left']
    by_cases h : j2 ∈ c.row g pk <;> simp [h]

theorem mem_wTT {c : Cx} (hc : CxOk c) {fr : Free} {j1 j2 e k1 pk g : Nat} {w : Nat × Wr} : w ∈ wTT c fr j1 j2 e k1 pk g ↔
    ∃ k2 pk2, TmpOf c fr g pk j2 k2 pk2 ∧
      (w = (g, .const (j1, j2) e) ∨ w = (g, .ttE (j1, j2) k1 k2) ∨ w = (g, .ev pk pk2) ∨ w = (g, .need (fr.eqs.length + k2) j2)) := by
  unfold wTT
  simp only [List.mem_flatMap, Prod.exists, List.mem_cons, List.not_mem_nil, or_false]
  constructor
  · rintro ⟨pk2, k2, h1, h2⟩
    exact ⟨k2, pk2, (mem_ks hc).mp h1, h2⟩
  · rintro ⟨k2, pk2, h1, h2⟩
    exact ⟨pk2, k2, (mem_ks hc).mpr h1, h2⟩

theorem mem_wDZ {c : Cx} {j1 j2 e k1 pk : Nat} {w : Nat × Wr} : w ∈ wDZ c j1 j2 e k1 pk ↔
    j2 ∈ c.hesTmp j1 ∧ ∃ i row, c.jac[i]? = some row ∧ pk ∈ row ∧
      (w = (0, .const (j1, j2) e) ∨ w = (0, .nl (j1, j2) k1) ∨ w = (0, .evJac i pk) ∨ w = (0, .tmpHes j1 j2)) := by
  unfold wDZ
  by_cases h : j2 ∈ c.hesTmp j1
  · rw [if_pos h]
    simp only [List.mem_flatMap, List.mem_filter, List.mem_range, decide_eq_true_eq, List.mem_cons, List.not_mem_nil, or_false, h, true_and]
    constructor
    · rintro ⟨i, ⟨h1, h2⟩, h3⟩
      rw [List.getElem?_eq_getElem h1, Option.getD_some] at h2
      exact ⟨i, _, List.getElem?_eq_getElem h1, h2, h3⟩
    · rintro ⟨i, row, h1, h2, h3⟩
      refine ⟨i, ⟨(List.getElem?_eq_some_iff.mp h1).1, ?_⟩, h3⟩
      rw [h1]; exact h2
  · rw [if_neg h]; simp [h]

theorem mem_wTmp {c : Cx} {fr : Free} {j1 j2 e k1 : Nat} {w : Nat × Wr} : w ∈ wTmp c fr j1 j2 e k1 ↔
    fr.dep k1 j1 = true ∧ ∃ pk, tmpTape c.l k1 = some pk ∧
      ((∃ gp ∈ c.gs, w ∈ wTI c fr j1 j2 e k1 pk gp.1 gp.2 ∨ w ∈ wTN c j1 j2 e k1 pk gp.1 ∨ w ∈ wTT c fr j1 j2 e k1 pk gp.1) ∨
        w = (0, .need (fr.eqs.length + k1) j1) ∨ w ∈ wDZ c j1 j2 e k1 pk) := by
  unfold wTmp
  by_cases h : fr.dep k1 j1 = true
  · rw [if_pos h]
    cases hp : tmpTape c.l k1 with
    | none => simp
    | some pk => simp [h, or_assoc]
  · rw [if_neg h]; simp [h]

/-- all writes for one request -/
theorem mem_wLoop {c : Cx} {r : Nat × Nat × Nat} {w : Nat × Wr} : w ∈ wLoop c r ↔
    (∃ gp ∈ c.gs, w ∈ wII c r.1 r.2.1 r.2.2 gp.1 gp.2) ∨ (∃ gp ∈ c.gs, w ∈ wIN c r.1 r.2.1 r.2.2 gp.1 gp.2) ∨
    (∃ fr, c.fr = some fr ∧ ∃ it < c.l.iters, ∃ gp ∈ c.gs, w ∈ wIT c fr r.1 r.2.1 r.2.2 it gp.1 gp.2) ∨
    (∃ gp ∈ c.gs, w ∈ wNI c r.1 r.2.1 r.2.2 gp.1 gp.2) ∨ (∃ gp ∈ c.gs, w ∈ wNN c r.1 r.2.1 r.2.2 gp.1 gp.2) ∨
    (∃ fr, c.fr = some fr ∧ ∃ gp ∈ c.gs, w ∈ wNT c fr r.1 r.2.1 r.2.2 gp.1) ∨
    (∃ fr, c.fr = some fr ∧ ∃ k1 < fr.jac.length - fr.eqs.length, w ∈ wTmp c fr r.1 r.2.1 r.2.2 k1) := by
  unfold wLoop
  cases hf : c.fr with
  | none =>
    simp only [List.append_nil, List.mem_append, List.mem_flatMap]
    constructor
    · rintro ((⟨gp, h, h1 | h1⟩ | ⟨gp, h, h1⟩) | ⟨gp, h, h1⟩)
      · exact Or.inl ⟨gp, h, h1⟩
      · exact Or.inr (Or.inl ⟨gp, h, h1⟩)
      · exact Or.inr (Or.inr (Or.inr (Or.inl ⟨gp, h, h1⟩)))
      · exact Or.inr (Or.inr (Or.inr (Or.inr (Or.inl ⟨gp, h, h1⟩))))
    · rintro (⟨gp, h, h1⟩ | ⟨gp, h, h1⟩ | ⟨_, h, _⟩ | ⟨gp, h, h1⟩ | ⟨gp, h, h1⟩ | ⟨_, h, _⟩ | ⟨_, h, _⟩)
      · exact Or.inl (Or.inl ⟨gp, h, Or.inl h1⟩)
      · exact Or.inl (Or.inl ⟨gp, h, Or.inr h1⟩)
      · simp at h
      · exact Or.inl (Or.inr ⟨gp, h, h1⟩)
      · exact Or.inr ⟨gp, h, h1⟩
      · simp at h
      · simp at h
  | some fr =>
    simp only [List.mem_append, List.mem_flatMap, List.mem_range, Option.some.injEq, exists_eq_left']
    constructor
    · rintro ((((⟨gp, h, h1 | h1⟩ | h) | ⟨gp, h, h1⟩) | ⟨gp, h, h1⟩) | (h | h))
      · exact Or.inl ⟨gp, h, h1⟩
      · exact Or.inr (Or.inl ⟨gp, h, h1⟩)
      · exact Or.inr (Or.inr (Or.inl h))
      · exact Or.inr (Or.inr (Or.inr (Or.inl ⟨gp, h, h1⟩)))
      · exact Or.inr (Or.inr (Or.inr (Or.inr (Or.inl ⟨gp, h, h1⟩))))
      · exact Or.inr (Or.inr (Or.inr (Or.inr (Or.inr (Or.inl h)))))
      · exact Or.inr (Or.inr (Or.inr (Or.inr (Or.inr (Or.inr h)))))
    · rintro (⟨gp, h, h1⟩ | ⟨gp, h, h1⟩ | h | ⟨gp, h, h1⟩ | ⟨gp, h, h1⟩ | h | h)
      · exact Or.inl (Or.inl (Or.inl (Or.inl ⟨gp, h, Or.inl h1⟩)))
      · exact Or.inl (Or.inl (Or.inl (Or.inl ⟨gp, h, Or.inr h1⟩)))
      · exact Or.inl (Or.inl (Or.inl (Or.inr h)))
      · exact Or.inl (Or.inl (Or.inr ⟨gp, h, h1⟩))
      · exact Or.inl (Or.inr ⟨gp, h, h1⟩)
      · exact Or.inr (Or.inl h)
      · exact Or.inr (Or.inr h)

end Verif.Loops
