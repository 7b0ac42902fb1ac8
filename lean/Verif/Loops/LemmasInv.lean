import Verif.Loops.LemmasAn

/-
What the analysis of the requested Jacobian elements has found.
-/
namespace Verif.Loops

open Verif.Index Verif.Ranges

/-- the tape equation uses variable `j` as a non-indexed variable -/
def NonUse (l : Loop) (row : List Nat) (j : Nat) : Prop := ∃ t, nonTape l j = some t ∧ t ∈ row

/-- the tape equation uses temporary `k` which depends on variable `j` -/
def TmpUse (M : Model) (l : Loop) (row : List Nat) (j k : Nat) : Prop :=
  ∃ fr t, M.free = some fr ∧ t ∈ row ∧ l.ind.length + l.non.length ≤ t ∧ TmpAt l fr j t k

def Uses (M : Model) (l : Loop) (row : List Nat) (j : Nat) : Prop := NonUse l row j ∨ ∃ k, TmpUse M l row j k

/-- effect of one requested element on one tape equation -/
theorem stepRow_ok {M : Model} {l : Loop} {row : List Nat} {it : Nat} (hit : it < l.iters)
    (hcol : ∀ t ∈ row, t < l.ind.length + l.non.length + l.tmp.length)
    (htmp : ∀ k ∈ l.tmp, ∃ fr, M.free = some fr ∧ fr.eqs.length + k < fr.jac.length)
    (e i j : Nat) {info : RowInfo} {ev : List Nat} {nl : Nat → List Nat}
    (hp : PosOk l.iters info.idxPos) (hq : PosOk l.iters info.nonPos)
    (hc : ∀ t, l.var t it = some j → t ∈ row → cell info.idxPos t it = none) (hd : cell info.nonPos j it = none) :
    ∃ info' ev' nl', stepRow M l row it e i j info ev nl = .ok (info', ev', nl') ∧
      PosOk l.iters info'.idxPos ∧ PosOk l.iters info'.nonPos ∧
      (∀ t it', cell info'.idxPos t it' = if (l.var t it = some j ∧ t ∈ row) ∧ it' = it then some e else cell info.idxPos t it') ∧
      (∀ j' it', (¬ (j' = j ∧ it' = it ∧ Uses M l row j) → cell info'.nonPos j' it' = cell info.nonPos j' it')) ∧
      (Uses M l row j → cell info'.nonPos j it = some e) ∧
      (∀ j', ((info.tmpEvals.get j').getD []).Nodup → ((info'.tmpEvals.get j').getD []).Nodup) ∧
      (∀ j' k, k ∈ (info'.tmpEvals.get j').getD [] ↔ k ∈ (info.tmpEvals.get j').getD [] ∨ (j' = j ∧ TmpUse M l row j k)) ∧
      (∀ t, t ∈ ev' ↔ t ∈ ev ∨ (t ∈ row ∧ (l.var t it = some j ∨ nonTape l j = some t ∨
        ∃ fr k, M.free = some fr ∧ l.ind.length + l.non.length ≤ t ∧ TmpAt l fr j t k))) ∧
      (∀ r x, x ∈ nl' r ↔ x ∈ nl r ∨ (x = j ∧ ∃ k, TmpUse M l row j k ∧ r = M.nFree + k)) := by
  obtain ⟨m1, ev1, a1, a2, a3, a4⟩ := stepIndexed_ok hit e i j row (tapeIndexes l it j) (tapeIndexes_nodup l it j) info ev hp
    fun t ht hr => hc t (mem_tapeIndexes.mp ht) hr
  obtain ⟨m2, ne2, ev2, inNon, b1, b2, b3, b4, b5⟩ := stepNon_ok hit e i j row (nonTape l j) { info with idxPos := m1 } ev1 hq
    fun _ => hd
  simp only at b4
  unfold stepRow
  rw [a1]
  simp only
  rw [b1]
  simp only
  have hnon : inNon = true ↔ NonUse l row j := b3
  cases hfree : M.free with
  | none =>
    have hno : ∀ k, ¬ TmpUse M l row j k := by
      rintro k ⟨fr, t, h, _⟩
      rw [hfree] at h; simp at h
    have huse : Uses M l row j ↔ inNon = true := by
      rw [hnon]
      exact ⟨fun h => h.elim id fun ⟨k, h⟩ => absurd h (hno k), Or.inl⟩
    refine ⟨_, _, _, rfl, a2, b2, ?_, ?_, ?_, fun _ h => h, ?_, ?_, ?_⟩
    · intro t it'
      simp only [a3, mem_tapeIndexes]
    · intro j' it' h
      simp only
      rw [b4, if_neg]
      rintro ⟨⟨h1, h2⟩, h3⟩
      exact h ⟨h2, h3, huse.mpr h1⟩
    · intro h
      simp only
      rw [b4, if_pos ⟨⟨huse.mp h, rfl⟩, rfl⟩]
    · intro j' k
      simp [hno]
    · intro t
      rw [b5, a4, mem_tapeIndexes]
      constructor
      · rintro ((h | ⟨h1, h2⟩) | ⟨h1, h2⟩)
        · exact Or.inl h
        · exact Or.inr ⟨h2, Or.inl h1⟩
        · exact Or.inr ⟨h2, Or.inr (Or.inl h1)⟩
      · rintro (h | ⟨h2, h1 | h1 | ⟨fr, k, h, _⟩⟩)
        · exact Or.inl (Or.inl h)
        · exact Or.inl (Or.inr ⟨h1, h2⟩)
        · exact Or.inr ⟨h1, h2⟩
        · simp at h
    · intro r x
      simp [hno]
  | some fr =>
    simp only
    have hte : ∀ k, TmpUse M l row j k ↔ ∃ t ∈ row.filter (l.ind.length + l.non.length ≤ ·), TmpAt l fr j t k := by
      intro k
      constructor
      · rintro ⟨fr', t, h1, h2, h3, h4⟩
        rw [hfree] at h1
        obtain rfl := Option.some.inj h1
        exact ⟨t, List.mem_filter.mpr ⟨h2, by simpa using h3⟩, h4⟩
      · rintro ⟨t, h1, h2⟩
        rw [List.mem_filter] at h1
        exact ⟨fr, t, hfree, h1.1, by simpa using h1.2, h2⟩
    have hex : (∃ t ∈ row.filter (l.ind.length + l.non.length ≤ ·), ∃ k, TmpAt l fr j t k) ↔ ∃ k, TmpUse M l row j k := by
      constructor
      · rintro ⟨t, ht, k, h⟩; exact ⟨k, (hte k).mpr ⟨t, ht, h⟩⟩
      · rintro ⟨k, h⟩
        obtain ⟨t, ht, h⟩ := (hte k).mp h
        exact ⟨t, ht, k, h⟩
    have hnf : M.nFree = fr.eqs.length := by unfold Model.nFree; rw [hfree]
    obtain ⟨m3, te, ev3, nl3, c1, c2, c3, c4, c5, c6, c7, c8⟩ := stepTmp_ok hit e i j l fr
      (row.filter (l.ind.length + l.non.length ≤ ·)) (by
        intro t ht
        rw [List.mem_filter] at ht
        have h1 := hcol t ht.1
        have h2 : l.ind.length + l.non.length ≤ t := by simpa using ht.2
        have h3 : t - l.ind.length - l.non.length < l.tmp.length := by omega
        refine ⟨l.tmp[t - l.ind.length - l.non.length], ?_⟩
        obtain ⟨fr', h4, h5⟩ := htmp _ (List.getElem_mem h3)
        rw [hfree] at h4
        obtain rfl := Option.some.inj h4
        exact ⟨fr.jac[fr.eqs.length + l.tmp[t - l.ind.length - l.non.length]], List.getElem?_eq_getElem h3, List.getElem?_eq_getElem h5⟩)
      { info with idxPos := m1, nonPos := m2, nonEvals := ne2 } ev2 inNon nl b2 (by
        cases hin : inNon with
        | true => exact Or.inl rfl
        | false =>
          right
          simp only
          rw [b4, if_neg (by simp [hin])]
          exact hd)
    simp only at c3 c4 c5 c6
    refine ⟨_, _, _, c1, a2, c2, ?_, ?_, ?_, c5, ?_, ?_, ?_⟩
    · intro t it'
      simp only [a3, mem_tapeIndexes]
    · intro j' it' h
      simp only
      have key : j' ≠ j ∨ it' ≠ it ∨ ¬ Uses M l row j := by
        by_contra hn
        simp only [not_or, not_not] at hn
        exact h hn
      rw [c3, b4, if_neg]
      · rintro ⟨⟨h1, h2⟩, h3⟩
        exact h ⟨h2, h3, Or.inl (hnon.mp h1)⟩
      · rcases key with h' | h' | h'
        · exact Or.inl h'
        · exact Or.inr (Or.inl h')
        · right; right; right
          rw [hex]
          exact fun h'' => h' (Or.inr h'')
    · intro h
      simp only
      cases hin : inNon with
      | true =>
        rw [c3 j it (Or.inr (Or.inr (Or.inl hin))), b4, if_pos ⟨⟨hin, rfl⟩, rfl⟩]
      | false =>
        refine c4 hin (hex.mpr ?_)
        rcases h with h | h
        · rw [hnon.mpr h] at hin; simp at hin
        · exact h
    · intro j' k
      rw [c6, hte]
    · intro t
      rw [c7, b5, a4, mem_tapeIndexes]
      constructor
      · rintro (((h | ⟨h1, h2⟩) | ⟨h1, h2⟩) | ⟨h1, k, h2⟩)
        · exact Or.inl h
        · exact Or.inr ⟨h2, Or.inl h1⟩
        · exact Or.inr ⟨h2, Or.inr (Or.inl h1)⟩
        · rw [List.mem_filter] at h1
          exact Or.inr ⟨h1.1, Or.inr (Or.inr ⟨fr, k, rfl, by simpa using h1.2, h2⟩)⟩
      · rintro (h | ⟨h2, h1 | h1 | ⟨fr', k, h3, h4, h5⟩⟩)
        · exact Or.inl (Or.inl (Or.inl h))
        · exact Or.inl (Or.inl (Or.inr ⟨h1, h2⟩))
        · exact Or.inl (Or.inr ⟨h1, h2⟩)
        · obtain rfl := Option.some.inj h3
          exact Or.inr ⟨List.mem_filter.mpr ⟨h2, by simpa using h4⟩, k, h5⟩
    · intro r x
      rw [c8, hnf]
      constructor
      · rintro (h | ⟨rfl, t, ht, k, h, h'⟩)
        · exact Or.inl h
        · exact Or.inr ⟨rfl, k, (hte k).mpr ⟨t, ht, h⟩, h'⟩
      · rintro (h | ⟨rfl, k, h, h'⟩)
        · exact Or.inl h
        · obtain ⟨t, ht, h⟩ := (hte k).mp h
          exact Or.inr ⟨rfl, t, ht, k, h, h'⟩

/-- what is known of one tape equation after the requests `rs` -/
structure RowInv (M : Model) (rs : List (Nat × Nat × Nat)) (l : Loop) (row : List Nat) (tapeI : Nat) (info : RowInfo) (ev : List Nat)
    (nl : Nat → List Nat) : Prop where
  pi : PosOk l.iters info.idxPos
  pn : PosOk l.iters info.nonPos
  ci : ∀ t it e, cell info.idxPos t it = some e ↔
    ∃ i j, (i, j, e) ∈ rs ∧ l.eq tapeI it = some i ∧ l.var t it = some j ∧ t ∈ row
  cn : ∀ j it e, cell info.nonPos j it = some e ↔ ∃ i, (i, j, e) ∈ rs ∧ l.eq tapeI it = some i ∧ Uses M l row j
  ei : ∀ t it e, cell info.idxPos t it = some e → t ∈ ev
  en : ∀ j it e, cell info.nonPos j it = some e → ∀ t, nonTape l j = some t → t ∈ row → t ∈ ev
  et : ∀ j it e, cell info.nonPos j it = some e → ∀ fr t k, M.free = some fr → t ∈ row → l.ind.length + l.non.length ≤ t →
    TmpAt l fr j t k → t ∈ ev ∧ j ∈ nl (M.nFree + k)
  td : ∀ j, ((info.tmpEvals.get j).getD []).Nodup
  tu : ∀ j k, k ∈ (info.tmpEvals.get j).getD [] → TmpUse M l row j k
  tl : ∀ j it e, cell info.nonPos j it = some e → ∀ k, TmpUse M l row j k → k ∈ (info.tmpEvals.get j).getD []

/-- what is known after the requests `rs` -/
structure Inv (M : Model) (rs : List (Nat × Nat × Nat)) (a : An) : Prop where
  row : ∀ (q : Nat) (l : Loop) (jac : List (List Nat)), M.loops[q]? = some (l, jac) → ∀ (tapeI : Nat) (row : List Nat),
    jac[tapeI]? = some row → RowInv M rs l row tapeI (a.row q tapeI) (a.ev q tapeI) a.nlEval
  loc : ∀ fr, M.free = some fr → ∀ (r j e : Nat), e ∈ a.nlLoc r j ↔ ∃ i, fr.eqs[r]? = some i ∧ (i, j, e) ∈ rs
  ev : ∀ fr, M.free = some fr → ∀ (r j e : Nat), e ∈ a.nlLoc r j → j ∈ a.nlEval r

theorem rowInv_nil (M : Model) (l : Loop) (row : List Nat) (tapeI : Nat) (nl : Nat → List Nat) : RowInv M [] l row tapeI {} [] nl where
  pi := posOk_nil _
  pn := posOk_nil _
  ci t it e := by simp [cell, Map.get]
  cn t it e := by simp [cell, Map.get]
  ei t it e h := by simp [cell, Map.get] at h
  en t it e h := by simp [cell, Map.get] at h
  et t it e h := by simp [cell, Map.get] at h
  td j := by simp [Map.get]
  tu j k h := by simp [Map.get] at h
  tl t it e h := by simp [cell, Map.get] at h

theorem inv_nil (M : Model) : Inv M [] {} where
  row _ l _ _ tapeI row _ := rowInv_nil M l row tapeI _
  loc _ _ r j e := by simp
  ev _ _ r j e h := by simp at h

/-- rows which a request does not concern -/
theorem rowInv_other {M : Model} {rs : List (Nat × Nat × Nat)} {l : Loop} {row : List Nat} {tapeI : Nat} {info : RowInfo} {ev : List Nat}
    {nl nl' : Nat → List Nat} (h : RowInv M rs l row tapeI info ev nl) {i j e : Nat} (hno : ∀ it, l.eq tapeI it ≠ some i)
    (hnl : ∀ r x, x ∈ nl r → x ∈ nl' r) : RowInv M ((i, j, e) :: rs) l row tapeI info ev nl' where
  pi := h.pi
  pn := h.pn
  ci t it e' := by
    rw [h.ci]
    constructor
    · rintro ⟨i', j', h1, h2⟩; exact ⟨i', j', List.mem_cons_of_mem _ h1, h2⟩
    · rintro ⟨i', j', h1, h2, h3⟩
      rcases List.mem_cons.mp h1 with h1 | h1
      · simp only [Prod.mk.injEq] at h1
        rw [h1.1] at h2; exact absurd h2 (hno it)
      · exact ⟨i', j', h1, h2, h3⟩
  cn j' it e' := by
    rw [h.cn]
    constructor
    · rintro ⟨i', h1, h2⟩; exact ⟨i', List.mem_cons_of_mem _ h1, h2⟩
    · rintro ⟨i', h1, h2, h3⟩
      rcases List.mem_cons.mp h1 with h1 | h1
      · simp only [Prod.mk.injEq] at h1
        rw [h1.1] at h2; exact absurd h2 (hno it)
      · exact ⟨i', h1, h2, h3⟩
  ei := h.ei
  en := h.en
  et j' it e' hc fr t k h1 h2 h3 h4 := by
    obtain ⟨g1, g2⟩ := h.et j' it e' hc fr t k h1 h2 h3 h4
    exact ⟨g1, hnl _ _ g2⟩
  td := h.td
  tu := h.tu
  tl := h.tl

theorem nonTape_eq {l : Loop} (hn : l.non.Nodup) {j t : Nat} : nonTape l j = some t ↔ ∃ p, l.non[p]? = some j ∧ t = l.ind.length + p := by
  unfold nonTape
  constructor
  · intro h
    rw [Option.map_eq_some_iff] at h
    obtain ⟨p, h1, h2⟩ := h
    exact ⟨p, lastIdx_some h1, h2.symm⟩
  · rintro ⟨p, h1, rfl⟩
    rw [lastIdx_eq hn h1]; rfl

theorem tmpUse_eq {M : Model} {l : Loop} {row : List Nat} {j k : Nat} : TmpUse M l row j k ↔
    ∃ p fr sp, l.ind.length + l.non.length + p ∈ row ∧ l.tmp[p]? = some k ∧ M.free = some fr ∧ fr.jac[fr.eqs.length + k]? = some sp ∧ j ∈ sp := by
  constructor
  · rintro ⟨fr, t, h1, h2, h3, h4, sp, h5, h6⟩
    refine ⟨t - l.ind.length - l.non.length, fr, sp, ?_, h4, h1, h5, h6⟩
    rwa [show l.ind.length + l.non.length + (t - l.ind.length - l.non.length) = t by omega]
  · rintro ⟨p, fr, sp, h1, h2, h3, h4, h5⟩
    refine ⟨fr, _, h3, h1, by omega, ?_, sp, h4, h5⟩
    rwa [show l.ind.length + l.non.length + p - l.ind.length - l.non.length = p by omega]

/-- the uses found by the analysis are those of the specification -/
theorem loopDep_iff {M : Model} (hM : M.Ok) {i j q tapeI it : Nat} {l : Loop} {jac : List (List Nat)} {row : List Nat} (hl : M.loops[q]? = some (l, jac))
    (hi : l.eq tapeI it = some i) (hrow : jac[tapeI]? = some row) :
    M.LoopDep i j ↔ (∃ t, l.var t it = some j ∧ t ∈ row) ∨ Uses M l row j := by
  constructor
  · rintro ⟨q', tapeI', it', t, l', jac', row', h1, h2, h3, h4, h5⟩
    obtain ⟨rfl, rfl, rfl⟩ := hM.once q' q l' l jac' jac tapeI' tapeI it' it i h1 hl h2 hi
    rw [hl] at h1
    simp only [Option.some.injEq, Prod.mk.injEq] at h1
    obtain ⟨rfl, rfl⟩ := h1
    rw [hrow] at h3
    obtain rfl := Option.some.inj h3
    rcases h5 with h5 | h5 | ⟨p, k, fr, sp, h5, rfl, h6, h7, h8⟩
    · exact Or.inl ⟨t, h5, h4⟩
    · exact Or.inr (Or.inl ⟨t, (nonTape_eq (hM.non _ _ _ hl)).mpr h5, h4⟩)
    · exact Or.inr (Or.inr ⟨k, tmpUse_eq.mpr ⟨p, fr, sp, h4, h5, h6, h7, h8⟩⟩)
  · rintro (⟨t, h1, h2⟩ | ⟨t, h1, h2⟩ | ⟨k, h⟩)
    · exact ⟨q, tapeI, it, t, l, jac, row, hl, hi, hrow, h2, Or.inl h1⟩
    · exact ⟨q, tapeI, it, t, l, jac, row, hl, hi, hrow, h2, Or.inr (Or.inl ((nonTape_eq (hM.non _ _ _ hl)).mp h1))⟩
    · obtain ⟨p, fr, sp, h1, h2, h3, h4, h5⟩ := tmpUse_eq.mp h
      exact ⟨q, tapeI, it, _, l, jac, row, hl, hi, hrow, h1, Or.inr (Or.inr ⟨p, k, fr, sp, h2, rfl, h3, h4, h5⟩)⟩

theorem analyse_inv {M : Model} (hM : M.Ok) {rs : List (Nat × Nat × Nat)} {a : An} (h : Inv M rs a) {i j e : Nat}
    (hnew : M.LoopDep i j → ∀ e', (i, j, e') ∉ rs) (hex : M.Computes i) :
    ∃ a', analyse M a (i, j, e) = .ok a' ∧ Inv M ((i, j, e) :: rs) a' := by
  unfold analyse
  simp only
  cases hf : findLoop M.loops i with
  | none =>
    have hno := findLoop_none hM hf
    rcases hex with ⟨q, t, it, l, jac, h1, h2⟩ | ⟨fr, hfr, hi⟩
    · exact absurd h2 (hno q t it l jac h1)
    · simp only
      rw [hfr]
      simp only
      obtain ⟨r0, hr0⟩ := List.getElem?_of_mem hi
      rw [lastIdx_eq (hM.eqs fr hfr) hr0]
      refine ⟨_, rfl, ?_, ?_, ?_⟩
      · intro q l jac hl tapeI row hrow
        refine rowInv_other (h.row q l jac hl tapeI row hrow) (fun it => hno q tapeI it l jac hl) ?_
        intro r x hx
        simp only [upd]
        by_cases hr : r = r0
        · subst hr; rw [if_pos rfl, mem_ins]; exact Or.inl hx
        · rwa [if_neg hr]
      · intro fr' hfr' r j' e'
        rw [hfr] at hfr'
        obtain rfl := Option.some.inj hfr'
        simp only [upd2]
        by_cases hr : r = r0 ∧ j' = j
        · rw [if_pos hr, mem_ins, ]
          obtain ⟨rfl, rfl⟩ := hr
          rw [h.loc fr hfr]
          constructor
          · rintro (⟨i', h1, h2⟩ | rfl)
            · exact ⟨i', h1, List.mem_cons_of_mem _ h2⟩
            · exact ⟨i, hr0, List.mem_cons_self⟩
          · rintro ⟨i', h1, h2⟩
            rcases List.mem_cons.mp h2 with h2 | h2
            · simp only [Prod.mk.injEq] at h2
              exact Or.inr h2.2.2
            · exact Or.inl ⟨i', h1, h2⟩
        · rw [if_neg hr, h.loc fr hfr]
          constructor
          · rintro ⟨i', h1, h2⟩; exact ⟨i', h1, List.mem_cons_of_mem _ h2⟩
          · rintro ⟨i', h1, h2⟩
            rcases List.mem_cons.mp h2 with h2 | h2
            · simp only [Prod.mk.injEq] at h2
              obtain ⟨rfl, rfl, rfl⟩ := h2
              exfalso
              refine hr ⟨?_, rfl⟩
              have e1 := lastIdx_eq (hM.eqs fr hfr) hr0
              have e2 := lastIdx_eq (hM.eqs fr hfr) h1
              rw [e1] at e2
              exact (Option.some.inj e2).symm
            · exact ⟨i', h1, h2⟩
      · intro fr' hfr' r j' e'
        simp only [upd2, upd]
        by_cases hr : r = r0 ∧ j' = j
        · obtain ⟨rfl, rfl⟩ := hr
          intro _
          rw [if_pos rfl, mem_ins]
          exact Or.inr rfl
        · rw [if_neg hr]
          intro he
          have := h.ev fr' hfr' r j' e' he
          by_cases hr' : r = r0
          · subst hr'; rw [if_pos rfl, mem_ins]; exact Or.inl this
          · rwa [if_neg hr']
  | some c =>
    obtain ⟨q, tapeI, it⟩ := c
    simp only
    obtain ⟨l, jac, hl, heq⟩ := findLoop_some hf
    have hb := eq_bounds (hM.deps q l jac hl) heq
    rw [hl]
    simp only
    have hjl : tapeI < jac.length := by rw [hM.rows q l jac hl]; exact hb.1
    rw [List.getElem?_eq_getElem hjl]
    simp only
    have hrow : jac[tapeI]? = some jac[tapeI] := List.getElem?_eq_getElem hjl
    generalize hR : jac[tapeI] = row at hrow
    have hI := h.row q l jac hl tapeI row hrow
    have hmem : row ∈ jac := List.mem_of_getElem? hrow
    have hdep : M.LoopDep i j ↔ (∃ t, l.var t it = some j ∧ t ∈ row) ∨ Uses M l row j := loopDep_iff hM hl heq hrow
    obtain ⟨info', ev', nl', s1, s2, s3, s4, s5, s6, s7, s8, s9, s10⟩ := stepRow_ok (M := M) (l := l) (row := row) hb.2 (hM.cols q l jac hl row hmem)
      (hM.temps q l jac hl) e i j (nl := a.nlEval) (ev := a.ev q tapeI) hI.pi hI.pn (by
        intro t hv hr
        cases hc : cell (a.row q tapeI).idxPos t it with
        | none => rfl
        | some e' =>
          obtain ⟨i', j', h1, h2, h3, _⟩ := (hI.ci t it e').mp hc
          rw [heq] at h2; rw [hv] at h3
          obtain rfl := Option.some.inj h2
          obtain rfl := Option.some.inj h3
          exact absurd h1 (hnew (hdep.mpr (Or.inl ⟨t, hv, hr⟩)) e')) (by
        cases hc : cell (a.row q tapeI).nonPos j it with
        | none => rfl
        | some e' =>
          obtain ⟨i', h1, h2, hu⟩ := (hI.cn j it e').mp hc
          rw [heq] at h2
          obtain rfl := Option.some.inj h2
          exact absurd h1 (hnew (hdep.mpr (Or.inr hu)) e'))
    rw [s1]
    refine ⟨_, rfl, ?_, ?_, ?_⟩
    · intro q' l' jac' hl' tapeI' row' hrow'
      simp only [upd2]
      by_cases hq : q' = q ∧ tapeI' = tapeI
      · rw [if_pos hq, if_pos hq]
        obtain ⟨rfl, rfl⟩ := hq
        rw [hl] at hl'
        simp only [Option.some.injEq, Prod.mk.injEq] at hl'
        obtain ⟨rfl, rfl⟩ := hl'
        rw [hrow] at hrow'
        obtain rfl := Option.some.inj hrow'
        have hit : ∀ it', l.eq tapeI' it' = some i → it' = it := fun it' h' =>
          (hM.once q' q' l l jac jac tapeI' tapeI' it' it i hl hl h' heq).2.2
        -- cells of the non-indexed variables
        have hcell : ∀ j' it' e', cell info'.nonPos j' it' = some e' →
            (j' = j ∧ it' = it ∧ Uses M l row j ∧ e' = e) ∨ cell (a.row q' tapeI').nonPos j' it' = some e' := by
          intro j' it' e' hc
          by_cases hu : j' = j ∧ it' = it ∧ Uses M l row j
          · obtain ⟨rfl, rfl, hu⟩ := hu
            rw [s6 hu] at hc
            exact Or.inl ⟨rfl, rfl, hu, (Option.some.inj hc).symm⟩
          · rw [s5 j' it' hu] at hc
            exact Or.inr hc
        refine ⟨s2, s3, ?_, ?_, ?_, ?_, ?_, ?_, ?_, ?_⟩
        · intro t it' e'
          rw [s4]
          by_cases hc : (l.var t it = some j ∧ t ∈ row) ∧ it' = it
          · rw [if_pos hc]
            obtain ⟨⟨h1, h2⟩, rfl⟩ := hc
            constructor
            · intro he
              obtain rfl := Option.some.inj he
              exact ⟨i, j, List.mem_cons_self, heq, h1, h2⟩
            · rintro ⟨i', j', h3, h4, h5, _⟩
              rw [heq] at h4; rw [h1] at h5
              obtain rfl := Option.some.inj h4
              obtain rfl := Option.some.inj h5
              rcases List.mem_cons.mp h3 with h3 | h3
              · simp only [Prod.mk.injEq] at h3
                rw [h3.2.2]
              · exact absurd h3 (hnew (hdep.mpr (Or.inl ⟨t, h1, h2⟩)) e')
          · rw [if_neg hc, hI.ci]
            constructor
            · rintro ⟨i', j', h1, h2⟩; exact ⟨i', j', List.mem_cons_of_mem _ h1, h2⟩
            · rintro ⟨i', j', h1, h2, h3, h4⟩
              rcases List.mem_cons.mp h1 with h1 | h1
              · simp only [Prod.mk.injEq] at h1
                obtain ⟨rfl, rfl, rfl⟩ := h1
                obtain rfl := hit it' h2
                exact absurd ⟨⟨h3, h4⟩, rfl⟩ hc
              · exact ⟨i', j', h1, h2, h3, h4⟩
        · intro j' it' e'
          constructor
          · intro hc
            rcases hcell j' it' e' hc with ⟨rfl, rfl, hu, rfl⟩ | hc
            · exact ⟨i, List.mem_cons_self, heq, hu⟩
            · obtain ⟨i', h1, h2⟩ := (hI.cn j' it' e').mp hc
              exact ⟨i', List.mem_cons_of_mem _ h1, h2⟩
          · rintro ⟨i', h1, h2, h3⟩
            rcases List.mem_cons.mp h1 with h4 | h4
            · simp only [Prod.mk.injEq] at h4
              obtain ⟨rfl, rfl, rfl⟩ := h4
              obtain rfl := hit it' h2
              exact s6 h3
            · rw [s5 j' it']
              · exact (hI.cn j' it' e').mpr ⟨i', h4, h2, h3⟩
              · rintro ⟨rfl, rfl, _⟩
                rw [heq] at h2
                obtain rfl := Option.some.inj h2
                exact hnew (hdep.mpr (Or.inr h3)) e' h4
        · intro t it' e' hc
          rw [s9]
          rw [s4] at hc
          by_cases hcc : (l.var t it = some j ∧ t ∈ row) ∧ it' = it
          · exact Or.inr ⟨hcc.1.2, Or.inl hcc.1.1⟩
          · rw [if_neg hcc] at hc
            exact Or.inl (hI.ei t it' e' hc)
        · intro j' it' e' hc t h1 h2
          rw [s9]
          rcases hcell j' it' e' hc with ⟨rfl, rfl, hu, rfl⟩ | hc
          · exact Or.inr ⟨h2, Or.inr (Or.inl h1)⟩
          · exact Or.inl (hI.en j' it' e' hc t h1 h2)
        · intro j' it' e' hc fr t k h1 h2 h3 h4
          rw [s9, s10]
          rcases hcell j' it' e' hc with ⟨rfl, rfl, hu, rfl⟩ | hc
          · exact ⟨Or.inr ⟨h2, Or.inr (Or.inr ⟨fr, k, h1, h3, h4⟩)⟩, Or.inr ⟨rfl, k, ⟨fr, t, h1, h2, h3, h4⟩, rfl⟩⟩
          · obtain ⟨g1, g2⟩ := hI.et j' it' e' hc fr t k h1 h2 h3 h4
            exact ⟨Or.inl g1, Or.inl g2⟩
        · exact fun j' => s7 j' (hI.td j')
        · intro j' k hk
          rcases (s8 j' k).mp hk with hk | ⟨rfl, hk⟩
          · exact hI.tu j' k hk
          · exact hk
        · intro j' it' e' hc k hk
          rw [s8]
          rcases hcell j' it' e' hc with ⟨rfl, rfl, hu, rfl⟩ | hc
          · exact Or.inr ⟨rfl, hk⟩
          · exact Or.inl (hI.tl j' it' e' hc k hk)
      · rw [if_neg hq, if_neg hq]
        refine rowInv_other (h.row q' l' jac' hl' tapeI' row' hrow') ?_ ?_
        · intro it' h'
          obtain ⟨h1, h2, _⟩ := hM.once q' q l' l jac' jac tapeI' tapeI it' it i hl' hl h' heq
          exact hq ⟨h1, h2⟩
        · intro r x hx
          rw [s10]; exact Or.inl hx
    · intro fr hfr r j' e'
      rw [h.loc fr hfr]
      constructor
      · rintro ⟨i', h1, h2⟩; exact ⟨i', h1, List.mem_cons_of_mem _ h2⟩
      · rintro ⟨i', h1, h2⟩
        rcases List.mem_cons.mp h2 with h2 | h2
        · simp only [Prod.mk.injEq] at h2
          rw [h2.1] at h1
          exact absurd (List.mem_of_getElem? h1) (hM.apart q l jac tapeI it i fr hl heq hfr)
        · exact ⟨i', h1, h2⟩
    · intro fr hfr r j' e' he
      simp only
      rw [s10]
      exact Or.inl (h.ev fr hfr r j' e' he)

theorem inv_perm {M : Model} {rs rs' : List (Nat × Nat × Nat)} {a : An} (hp : ∀ x, x ∈ rs ↔ x ∈ rs') (h : Inv M rs a) : Inv M rs' a where
  row q l jac hl tapeI row hrow := by
    have hI := h.row q l jac hl tapeI row hrow
    exact ⟨hI.pi, hI.pn, fun t it e => by rw [hI.ci]; simp only [hp], fun j it e => by rw [hI.cn]; simp only [hp], hI.ei, hI.en, hI.et,
      hI.td, hI.tu, hI.tl⟩
  loc fr hfr r j e := by rw [h.loc fr hfr]; simp only [hp]
  ev := h.ev

/-- no element of an equation in a loop on which the equation depends is requested twice -/
def NoRepeat (M : Model) (rs : List (Nat × Nat × Nat)) : Prop :=
  rs.Pairwise fun r r' => ¬ (r.1 = r'.1 ∧ r.2.1 = r'.2.1 ∧ M.LoopDep r.1 r.2.1)

theorem analyseAll_inv {M : Model} (hM : M.Ok) : ∀ (todo : List (Nat × Nat × Nat)) {rs : List (Nat × Nat × Nat)} {a : An}, Inv M rs a →
    NoRepeat M todo → (∀ r ∈ todo, M.LoopDep r.1 r.2.1 → ∀ e, (r.1, r.2.1, e) ∉ rs) →
    (∀ r ∈ todo, M.Computes r.1) →
    ∃ a', analyseAll M todo a = .ok a' ∧ Inv M (rs ++ todo) a'
  | [], rs, a, h, _, _, _ => ⟨a, rfl, by rwa [List.append_nil]⟩
  | (i, j, e) :: todo, rs, a, h, hnd, hnew, hex => by
    obtain ⟨hnd1, hnd2⟩ := List.pairwise_cons.mp hnd
    obtain ⟨a1, g1, g2⟩ := analyse_inv hM h (i := i) (j := j) (e := e) (fun hd e' => hnew (i, j, e) List.mem_cons_self hd e')
      (hex (i, j, e) List.mem_cons_self)
    obtain ⟨a2, k1, k2⟩ := analyseAll_inv hM todo g2 hnd2 (by
      intro r hr hd e' hm
      rcases List.mem_cons.mp hm with hm | hm
      · simp only [Prod.mk.injEq] at hm
        exact hnd1 r hr ⟨hm.1.symm, hm.2.1.symm, by simp only; rw [← hm.1, ← hm.2.1]; exact hd⟩
      · exact hnew r (List.mem_cons_of_mem _ hr) hd e' hm) fun r hr => hex r (List.mem_cons_of_mem _ hr)
    refine ⟨a2, by rw [analyseAll, g1]; exact k1, inv_perm ?_ k2⟩
    intro x
    simp only [List.cons_append, List.mem_cons, List.mem_append]
    tauto

/-! ### repeated requests -/

theorem stepIndexed_repeated {n it : Nat} (hit : it < n) (e i j : Nat) (row : List Nat) : ∀ (ts : List Nat), ts.Nodup → ∀ (info : RowInfo) (ev : List Nat),
    PosOk n info.idxPos → (∃ t ∈ ts, t ∈ row ∧ cell info.idxPos t it ≠ none) →
    stepIndexed n it e i j row ts (info, ev) = .error (.repeated i j)
  | [], _, _, _, _, h => by obtain ⟨t, ht, _⟩ := h; simp at ht
  | t0 :: ts, hnd, info, ev, hp, h => by
    rw [List.nodup_cons] at hnd
    rw [stepIndexed]
    by_cases hr : t0 ∈ row
    · rw [if_pos hr]
      cases hc : cell info.idxPos t0 it with
      | some e' => rw [putPos_repeated hp hit hc]
      | none =>
        obtain ⟨m1, g1, g2, g3⟩ := putPos_ok hp hit hc e i j
        rw [g1]
        refine stepIndexed_repeated hit e i j row ts hnd.2 _ _ g2 ?_
        obtain ⟨t, ht, h1, h2⟩ := h
        rcases List.mem_cons.mp ht with rfl | ht'
        · exact absurd hc h2
        · refine ⟨t, ht', h1, ?_⟩
          rw [g3, if_neg]
          · exact h2
          · rintro ⟨rfl, _⟩; exact hnd.1 ht'
    · rw [if_neg hr]
      refine stepIndexed_repeated hit e i j row ts hnd.2 info ev hp ?_
      obtain ⟨t, ht, h1, h2⟩ := h
      rcases List.mem_cons.mp ht with rfl | ht
      · exact absurd h1 hr
      · exact ⟨t, ht, h1, h2⟩

theorem stepTmp_repeated {n it : Nat} (hit : it < n) (e i j : Nat) (l : Loop) (fr : Free) : ∀ (ts : List Nat)
    (_ : ∀ t ∈ ts, ∃ k sp, l.tmp[t - l.ind.length - l.non.length]? = some k ∧ fr.jac[fr.eqs.length + k]? = some sp)
    (info : RowInfo) (ev : List Nat) (nl : Nat → List Nat), PosOk n info.nonPos → cell info.nonPos j it ≠ none →
    (∃ t ∈ ts, ∃ k, TmpAt l fr j t k) → stepTmp n it e i j l fr ts (info, ev, false, nl) = .error (.repeated i j)
  | [], _, _, _, _, _, _, h => by obtain ⟨t, ht, _⟩ := h; simp at ht
  | t0 :: ts, hts, info, ev, nl, hp, hc, h => by
    obtain ⟨k0, sp, hk0, hsp⟩ := hts t0 List.mem_cons_self
    rw [stepTmp, hk0]
    simp only
    rw [hsp]
    simp only
    by_cases hj : j ∈ sp
    · rw [if_pos hj]
      obtain ⟨e', he'⟩ := Option.ne_none_iff_exists'.mp hc
      simp only [Bool.false_eq_true, if_false]
      rw [putPos_repeated hp hit he']
    · rw [if_neg hj]
      refine stepTmp_repeated hit e i j l fr ts (fun t ht => hts t (List.mem_cons_of_mem _ ht)) info ev nl hp hc ?_
      obtain ⟨t, ht, k, h1, sp', h2, h3⟩ := h
      rcases List.mem_cons.mp ht with rfl | ht
      · rw [hk0] at h1
        obtain rfl := Option.some.inj h1
        rw [hsp] at h2
        obtain rfl := Option.some.inj h2
        exact absurd h3 hj
      · exact ⟨t, ht, k, h1, sp', h2, h3⟩

/-- a repeated element is refused -/
theorem analyse_repeated {M : Model} (hM : M.Ok) {rs : List (Nat × Nat × Nat)} {a : An} (h : Inv M rs a) {i j e e' : Nat}
    (hold : (i, j, e') ∈ rs) (hd : M.LoopDep i j) : analyse M a (i, j, e) = .error (.repeated i j) := by
  obtain ⟨q0, t0, it0, _, l0, jac0, _, hl0, hi0, _⟩ := id hd
  unfold analyse
  simp only
  cases hf : findLoop M.loops i with
  | none => exact absurd hi0 (findLoop_none hM hf q0 t0 it0 l0 jac0 hl0)
  | some c =>
    obtain ⟨q, tapeI, it⟩ := c
    simp only
    obtain ⟨l, jac, hl, heq⟩ := findLoop_some hf
    have hb := eq_bounds (hM.deps q l jac hl) heq
    rw [hl]
    simp only
    have hjl : tapeI < jac.length := by rw [hM.rows q l jac hl]; exact hb.1
    rw [List.getElem?_eq_getElem hjl]
    simp only
    have hrow : jac[tapeI]? = some jac[tapeI] := List.getElem?_eq_getElem hjl
    generalize hR : jac[tapeI] = row at hrow
    have hI := h.row q l jac hl tapeI row hrow
    have hmem : row ∈ jac := List.mem_of_getElem? hrow
    have hdep : M.LoopDep i j ↔ (∃ t, l.var t it = some j ∧ t ∈ row) ∨ Uses M l row j := loopDep_iff hM hl heq hrow
    have hstep : stepRow M l row it e i j (a.row q tapeI) (a.ev q tapeI) a.nlEval = .error (.repeated i j) := by
      unfold stepRow
      by_cases hidx : ∃ t, l.var t it = some j ∧ t ∈ row
      · obtain ⟨t, h1, h2⟩ := hidx
        rw [stepIndexed_repeated hb.2 e i j row (tapeIndexes l it j) (tapeIndexes_nodup l it j) _ _ hI.pi]
        refine ⟨t, mem_tapeIndexes.mpr h1, h2, ?_⟩
        rw [(hI.ci t it e').mpr ⟨i, j, hold, heq, h1, h2⟩]
        simp
      · have hu : Uses M l row j := (hdep.mp hd).resolve_left hidx
        have hcell : cell (a.row q tapeI).nonPos j it = some e' := (hI.cn j it e').mpr ⟨i, hold, heq, hu⟩
        obtain ⟨m1, ev1, a1, a2, a3, a4⟩ := stepIndexed_ok hb.2 e i j row (tapeIndexes l it j) (tapeIndexes_nodup l it j) (a.row q tapeI) (a.ev q tapeI)
          hI.pi fun t ht hr => absurd ⟨t, mem_tapeIndexes.mp ht, hr⟩ hidx
        rw [a1]
        simp only
        by_cases hnu : NonUse l row j
        · obtain ⟨t, h1, h2⟩ := hnu
          rw [h1]
          simp only [stepNon]
          rw [if_pos h2, putPos_repeated hI.pn hb.2 hcell]
        · obtain ⟨m2, ne2, ev2, inNon, b1, b2, b3, b4, b5⟩ := stepNon_ok hb.2 e i j row (nonTape l j) { a.row q tapeI with idxPos := m1 } ev1 hI.pn
            fun h => absurd h hnu
          rw [b1]
          simp only
          simp only at b4
          have hin : inNon = false := by
            cases inNon with
            | true => exact absurd (b3.mp rfl) hnu
            | false => rfl
          subst hin
          obtain ⟨k, fr, t, u1, u2, u3, u4⟩ := hu.resolve_left hnu
          rw [u1]
          simp only
          refine stepTmp_repeated hb.2 e i j l fr _ ?_ _ ev2 _ b2 ?_ ⟨t, List.mem_filter.mpr ⟨u2, by simpa using u3⟩, k, u4⟩
          · intro t ht
            rw [List.mem_filter] at ht
            have h1 := hM.cols q l jac hl row hmem t ht.1
            have h2 : l.ind.length + l.non.length ≤ t := by simpa using ht.2
            have h3 : t - l.ind.length - l.non.length < l.tmp.length := by omega
            refine ⟨l.tmp[t - l.ind.length - l.non.length], ?_⟩
            obtain ⟨fr', h4, h5⟩ := hM.temps q l jac hl _ (List.getElem_mem h3)
            rw [u1] at h4
            obtain rfl := Option.some.inj h4
            exact ⟨fr.jac[fr.eqs.length + l.tmp[t - l.ind.length - l.non.length]], List.getElem?_eq_getElem h3, List.getElem?_eq_getElem h5⟩
          · simp only
            rw [b4, if_neg (by simp), hcell]
            simp
    rw [hstep]

theorem analyseAll_repeated {M : Model} (hM : M.Ok) : ∀ (todo : List (Nat × Nat × Nat)) {rs : List (Nat × Nat × Nat)} {a : An}, Inv M rs a →
    (¬ NoRepeat M todo ∨ ∃ r ∈ todo, M.LoopDep r.1 r.2.1 ∧ ∃ e, (r.1, r.2.1, e) ∈ rs) → (∀ r ∈ todo, M.Computes r.1) →
    ∃ r ∈ todo, analyseAll M todo a = .error (.repeated r.1 r.2.1)
  | [], rs, a, h, hr, _ => by
    rcases hr with hr | ⟨r, hr, _⟩
    · exact absurd List.Pairwise.nil hr
    · simp at hr
  | (i, j, e) :: todo, rs, a, h, hr, hex => by
    by_cases hhead : M.LoopDep i j ∧ ∃ e', (i, j, e') ∈ rs
    · obtain ⟨hd, e', he'⟩ := hhead
      refine ⟨(i, j, e), List.mem_cons_self, ?_⟩
      rw [analyseAll, analyse_repeated hM h he' hd]
    · obtain ⟨a1, g1, g2⟩ := analyse_inv hM h (i := i) (j := j) (e := e) (fun hd e' he' => hhead ⟨hd, e', he'⟩)
        (hex (i, j, e) List.mem_cons_self)
      obtain ⟨r, h1, h2⟩ := analyseAll_repeated hM todo g2 (by
        rcases hr with hr | ⟨r, hr, hd, e', he'⟩
        · by_cases hn : NoRepeat M todo
          · right
            by_contra hall
            refine hr (List.pairwise_cons.mpr ⟨?_, hn⟩)
            rintro r' hr' ⟨g3, g4, g5⟩
            simp only at g3 g4 g5
            refine hall ⟨r', hr', ?_, e, ?_⟩
            · rw [← g3, ← g4]; exact g5
            · rw [← g3, ← g4]; exact List.mem_cons_self
          · exact Or.inl hn
        · rcases List.mem_cons.mp hr with rfl | hr
          · exact absurd ⟨hd, e', he'⟩ hhead
          · exact Or.inr ⟨r, hr, hd, e', List.mem_cons_of_mem _ he'⟩) fun r hr => hex r (List.mem_cons_of_mem _ hr)
      refine ⟨r, List.mem_cons_of_mem _ h1, ?_⟩
      rw [analyseAll, g1]
      exact h2

end Verif.Loops
