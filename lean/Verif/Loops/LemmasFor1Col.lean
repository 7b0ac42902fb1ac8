import Verif.Loops.LemmasFor1
import Verif.Loops.SpecFor1

/-
One column: what the loops add is the chain rule.
-/
namespace Verif.Loops.For1

open Verif.Index Verif.Ranges

variable {α : Type} [CommRing α]

theorem mem_reqCol {j : Nat} {rows : List Nat} {i j' e : Nat} : (i, j', e) ∈ reqCol j rows ↔ j' = j ∧ rows[e]? = some i := by
  unfold reqCol
  rw [List.mem_map]
  constructor
  · rintro ⟨⟨x, k⟩, hp, h⟩
    simp only [Prod.mk.injEq] at h
    obtain ⟨rfl, rfl, rfl⟩ := h
    rw [List.mem_zipIdx_iff_getElem?] at hp
    exact ⟨rfl, hp⟩
  · rintro ⟨rfl, h⟩
    exact ⟨(i, e), List.mem_zipIdx_iff_getElem?.mpr h, rfl⟩

theorem mem_reqAll {elements : List (Nat × List Nat)} {i j e : Nat} : (i, j, e) ∈ reqAll elements ↔ ∃ rows, (j, rows) ∈ elements ∧ rows[e]? = some i := by
  unfold reqAll
  rw [List.mem_flatMap]
  constructor
  · rintro ⟨c, hc, h⟩
    obtain ⟨hj, he⟩ := mem_reqCol.mp h
    exact ⟨c.2, by rw [hj]; exact hc, he⟩
  · rintro ⟨rows, hc, h⟩
    exact ⟨_, hc, mem_reqCol.mpr ⟨rfl, h⟩⟩

theorem reqCol_pairwise {j : Nat} {rows : List Nat} (h : rows.Nodup) :
    (reqCol j rows).Pairwise fun r r' => ¬ (r.1 = r'.1 ∧ r.2.1 = r'.2.1) := by
  unfold reqCol
  rw [List.pairwise_map, List.pairwise_iff_getElem]
  intro p p' hp hp' hlt
  simp only [List.getElem_zipIdx, and_true]
  simp only [List.length_zipIdx] at hp hp'
  exact fun he => absurd ((List.Nodup.getElem_inj_iff h).mp he) (by omega)

theorem reqAll_pairwise : ∀ {elements : List (Nat × List Nat)}, (elements.map (·.1)).Nodup → (∀ c ∈ elements, c.2.Nodup) →
    (reqAll elements).Pairwise fun r r' => ¬ (r.1 = r'.1 ∧ r.2.1 = r'.2.1)
  | [], _, _ => by simp [reqAll]
  | c :: cs, h1, h2 => by
    rw [List.map_cons, List.nodup_cons] at h1
    have : reqAll (c :: cs) = reqCol c.1 c.2 ++ reqAll cs := by simp [reqAll]
    rw [this, List.pairwise_append]
    refine ⟨reqCol_pairwise (h2 c List.mem_cons_self), reqAll_pairwise h1.2 fun c' h' => h2 c' (List.mem_cons_of_mem _ h'), ?_⟩
    rintro ⟨i, j, e⟩ hr ⟨i', j', e'⟩ hr' ⟨_, hj⟩
    simp only at hj
    obtain ⟨rfl, _⟩ := mem_reqCol.mp hr
    obtain ⟨rows, hm, _⟩ := mem_reqAll.mp hr'
    exact h1.1 (List.mem_map.mpr ⟨_, hm, hj.symm⟩)

theorem analysis {M : Model} (hM : M.Ok) {n : Nat} {elements : List (Nat × List Nat)} (hE : M.Columns n elements) :
    ∃ a, analyseAll M (reqAll elements) {} = .ok a ∧ Inv M (reqAll elements) a := by
  obtain ⟨a, h1, h2⟩ := analyseAll_inv hM (reqAll elements) (inv_nil M)
    ((reqAll_pairwise hE.cols hE.rows).imp fun h h' => h ⟨h'.1, h'.2.1⟩) (fun _ _ _ _ => by simp) (by
      rintro ⟨i, j, e⟩ hr
      obtain ⟨rows, hm, hi⟩ := mem_reqAll.mp hr
      exact hE.computes _ hm i (List.mem_of_getElem? hi))
  rw [List.nil_append] at h2
  exact ⟨a, h1, h2⟩

theorem find_col {elements : List (Nat × List Nat)} (h : (elements.map (·.1)).Nodup) {j : Nat} {rows : List Nat} (hm : (j, rows) ∈ elements) :
    elements.find? (fun c => c.1 == j) = some (j, rows) := by
  induction elements with
  | nil => simp at hm
  | cons c cs ih =>
    rw [List.map_cons, List.nodup_cons] at h
    rcases List.mem_cons.mp hm with rfl | hm
    · simp
    · rw [List.find?_cons_of_neg]
      · exact ih h.2 hm
      · simp only [beq_iff_eq]
        intro he
        exact h.1 (List.mem_map.mpr ⟨_, hm, he.symm⟩)

/-- the row of an element of a column -/
theorem req_unique {elements : List (Nat × List Nat)} (h : (elements.map (·.1)).Nodup) {i i' j e : Nat}
    (h1 : (i, j, e) ∈ reqAll elements) (h2 : (i', j, e) ∈ reqAll elements) : i' = i := by
  obtain ⟨rows, m1, g1⟩ := mem_reqAll.mp h1
  obtain ⟨rows', m2, g2⟩ := mem_reqAll.mp h2
  have := List.inj_on_of_nodup_map h m1 m2 rfl
  simp only [Prod.mk.injEq, true_and] at this
  subst this
  rw [g1] at g2
  exact (Option.some.inj g2).symm

/-! ### value of one column at one tape equation and iteration -/

theorem colVal_zero {M : Model} {rs : List (Nat × Nat × Nat)} {l : Loop} {row : List Nat} {tapeI q : Nat}
    {a : An} (h : RowInv M rs l row tapeI (a.row q tapeI) (a.ev q tapeI) a.nlEval) (D : Nat → Nat → Nat → α) (G : Nat → Nat → α) (ne : Nat)
    {j e it : Nat} (hno : ∀ i, (i, j, e) ∈ rs → l.eq tapeI it ≠ some i) : colVal l D a q G ne j e tapeI it = 0 := by
  rw [colVal, lsum_zero, if_neg, add_zero]
  · intro hc
    obtain ⟨i, h1, h2, _⟩ := (h.cn j it e).mp hc
    exact hno i h1 h2
  · intro t _
    refine if_neg ?_
    rintro ⟨hv, hc⟩
    obtain ⟨i, j', h1, h2, h3, _⟩ := (h.ci t it e).mp hc
    rw [hv] at h3
    obtain rfl := Option.some.inj h3
    exact hno i h1 h2

theorem colVal_chain {M : Model} {rs : List (Nat × Nat × Nat)}
    {l : Loop} (hn : l.non.Nodup) (ht : l.tmp.Nodup) (htmp : ∀ k ∈ l.tmp, ∃ fr, M.free = some fr ∧ fr.eqs.length + k < fr.jac.length)
    {row : List Nat} {tapeI q : Nat}
    {a : An} (h : RowInv M rs l row tapeI (a.row q tapeI) (a.ev q tapeI) a.nlEval) (D : Nat → Nat → Nat → α) (G : Nat → Nat → α)
    (hD : ∀ t it, t ∉ row → D tapeI t it = 0)
    (hG : ∀ fr, M.free = some fr → ∀ (r : Nat) (sp : List Nat), fr.jac[r]? = some sp → ∀ j, j ∉ sp → G r j = 0)
    {i j e it : Nat} (hr : (i, j, e) ∈ rs) (hi : l.eq tapeI it = some i) :
    colVal l D a q G M.nFree j e tapeI it = l.chain (fun t => D tapeI t it) (fun k j => G (M.nFree + k) j) it j := by
  have hcell : ∀ t, l.var t it = some j → (cell (a.row q tapeI).idxPos t it = some e ↔ t ∈ row) := by
    intro t hv
    rw [h.ci]
    constructor
    · rintro ⟨i', j', _, _, _, h4⟩; exact h4
    · intro h4; exact ⟨i, j, hr, hi, hv, h4⟩
  have hcelln : cell (a.row q tapeI).nonPos j it = some e ↔ Uses M l row j := by
    rw [h.cn]
    constructor
    · rintro ⟨i', _, _, h3⟩; exact h3
    · intro h3; exact ⟨i, hr, hi, h3⟩
  -- temporaries which are not used do not count
  have hF : ∀ k ∈ l.tmp, ¬ TmpUse M l row j k → D tapeI ((tmpTape l k).getD 0) it * G (M.nFree + k) j = 0 := by
    intro k hk hnu
    obtain ⟨p, hp⟩ := List.getElem?_of_mem hk
    obtain ⟨fr, hfr, hlt⟩ := htmp k hk
    have htape : tmpTape l k = some (l.ind.length + l.non.length + p) := by rw [tmpTape, lastIdx_eq ht hp]; rfl
    rw [htape, Option.getD_some]
    by_cases hrow : l.ind.length + l.non.length + p ∈ row
    · have hnf : M.nFree = fr.eqs.length := by unfold Model.nFree; rw [hfr]
      rw [hG fr hfr (M.nFree + k) fr.jac[fr.eqs.length + k] (by rw [hnf]; exact List.getElem?_eq_getElem hlt) j, mul_zero]
      intro hj
      refine hnu ⟨fr, _, hfr, hrow, by omega, ?_, fr.jac[fr.eqs.length + k], List.getElem?_eq_getElem hlt, hj⟩
      rw [show l.ind.length + l.non.length + p - l.ind.length - l.non.length = p by omega]
      exact hp
    · rw [hD _ _ hrow, zero_mul]
  rw [colVal, chain_eq hn ht, add_assoc, lsum_range]
  congr 1
  · refine Finset.sum_congr rfl fun t _ => ?_
    by_cases hv : l.var t it = some j
    · rw [if_pos hv]
      by_cases hrow : t ∈ row
      · rw [if_pos ⟨hv, (hcell t hv).mpr hrow⟩]
      · rw [if_neg fun hc => hrow ((hcell t hv).mp hc.2), hD t it hrow]
    · rw [if_neg hv, if_neg fun hc => hv hc.1]
  · by_cases hu : Uses M l row j
    · have hc := hcelln.mpr hu
      rw [if_pos hc, nonVal]
      congr 1
      · cases hnt : nonTape l j with
        | none => simp
        | some t =>
          rw [Option.bind_some]
          unfold dy
          by_cases hev : t ∈ a.ev q tapeI
          · rw [if_pos hev]; rfl
          · rw [if_neg hev]
            simp only [Option.getD_none]
            rw [hD t it]
            exact fun hrow => hev (h.en j it e hc t hnt hrow)
      · rw [← List.sum_toFinset _ (h.td j), ← List.sum_toFinset _ ht]
        refine Finset.sum_subset ?_ ?_
        · intro k hk
          obtain ⟨fr, t, _, _, _, h4, _⟩ := tmpUse_tape ht (h.tu j k (List.mem_toFinset.mp hk))
          exact List.mem_toFinset.mpr (List.mem_of_getElem? h4.1)
        · intro k hk hnk
          refine hF k (List.mem_toFinset.mp hk) fun hku => hnk ?_
          exact List.mem_toFinset.mpr (h.tl j it e hc k hku)
    · rw [if_neg fun hc => hu (hcelln.mp hc), list_sum_zero _ fun k hk => hF k hk fun hku => hu (Or.inr ⟨k, hku⟩), add_zero]
      cases hnt : nonTape l j with
      | none => rfl
      | some t =>
        simp only
        rw [hD t it]
        exact fun hrow => hu (Or.inl ⟨t, hnt, hrow⟩)

/-! ### all loops -/

theorem badVar_false {M : Model} (hM : M.Ok) {n : Nat} {elements : List (Nat × List Nat)} (hE : M.Columns n elements) {a : An}
    (h : Inv M (reqAll elements) a) {q : Nat} {l : Loop} {jac : List (List Nat)} (hl : M.loops[q]? = some (l, jac)) : badVar a q l n = false := by
  unfold badVar
  rw [List.any_eq_false]
  intro t _ hb
  rw [List.any_eq_true] at hb
  obtain ⟨it, _, hb⟩ := hb
  rw [Bool.and_eq_true] at hb
  obtain ⟨tapeI, ht, e, hc⟩ := used_iff.mp hb.1
  have htl : tapeI < jac.length := by rw [hM.rows q l jac hl]; exact ht
  obtain ⟨i, j, h1, _, h3, _⟩ := ((h.row q l jac hl tapeI _ (List.getElem?_eq_getElem htl)).ci t it e).mp hc
  rw [h3] at hb
  simp only [decide_eq_true_eq] at hb
  obtain ⟨rows, hm, _⟩ := mem_reqAll.mp h1
  have := hE.lt _ hm
  simp only at this
  omega

/-- the derivatives which the operations of a loop look up exist -/
theorem termVal_ok {M : Model} (hM : M.Ok) {n : Nat} {elements : List (Nat × List Nat)} (hE : M.Columns n elements) (hdir : M.DirectToo elements) {a : An}
    (h : Inv M (reqAll elements) a) {q : Nat} {l : Loop} {jac : List (List Nat)} (hl : M.loops[q]? = some (l, jac)) (D : Nat → Nat → Nat → α)
    (G : Nat → Nat → α) {tapeI : Nat} (htI : tapeI < l.dep.length) (tm : Term) (it e : Nat) (hc : cellOf (a.row q tapeI) tm it = some e) :
    ∃ v, termVal l D a q G M.nFree tapeI tm = some v ∧ ∀ it, v it = tval l D a q G M.nFree tapeI tm it := by
  have htl : tapeI < jac.length := by rw [hM.rows q l jac hl]; exact htI
  have hrow : jac[tapeI]? = some jac[tapeI] := List.getElem?_eq_getElem htl
  have hI := h.row q l jac hl tapeI _ hrow
  cases tm with
  | idx t =>
    refine ⟨D tapeI t, ?_, fun _ => rfl⟩
    rw [termVal, dy, if_pos (hI.ei t it e hc)]
  | non j =>
    have hc' : cell (a.row q tapeI).nonPos j it = some e := hc
    have hks : ∀ k ∈ ((a.row q tapeI).tmpEvals.get j).getD [], ∃ t, tmpTape l k = some t ∧ t ∈ a.ev q tapeI ∧ j ∈ a.nlEval (M.nFree + k) := by
      intro k hk
      obtain ⟨fr, t, u1, u2, u3, u4, u5⟩ := tmpUse_tape (hM.tmp q l jac hl) (hI.tu j k hk)
      obtain ⟨v1, v2⟩ := hI.et j it e hc' fr t k u1 u2 u3 u4
      exact ⟨t, u5, v1, v2⟩
    cases hnt : nonTape l j with
    | none =>
      obtain ⟨w, w1, w2⟩ := tmpSum_ok l (D tapeI) (a.ev q tapeI) a.nlEval G M.nFree j _ hks fun _ => 0
      refine ⟨w, ?_, fun it => ?_⟩
      · rw [termVal, hnt]; exact w1
      · rw [w2, tval, nonVal, hnt]; rfl
    | some t =>
      have hex : (List.range l.dep.length).any (fun i => t ∈ a.ev q i) = true := by
        rw [List.any_eq_true]
        obtain ⟨i, hr, hi, hu⟩ := (hI.cn j it e).mp hc'
        obtain ⟨p, hp, rfl⟩ := (nonTape_eq (hM.non q l jac hl)).mp hnt
        rcases hu with ⟨t', u1, u2⟩ | ⟨k, hk⟩
        · rw [hnt] at u1
          obtain rfl := Option.some.inj u1
          exact ⟨tapeI, List.mem_range.mpr htI, by simpa using hI.en j it e hc' _ hnt u2⟩
        · obtain ⟨rows, hm, hi'⟩ := mem_reqAll.mp hr
          obtain ⟨fr, t, g1, g2, g3, g4⟩ := hk
          obtain ⟨sp, g5, g6⟩ := g4.2
          obtain ⟨i2, hi2, tapeI2, it2, p2, l2, jac2, row2, d1, d2, d3, d4, d5⟩ := hdir q l jac hl _ hm (List.mem_of_getElem? hp)
            ⟨i, List.mem_of_getElem? hi', tapeI, it, t - l.ind.length - l.non.length, k, l, jac, _, sp, fr, hl, hi, hrow, g4.1,
              by rw [show l.ind.length + l.non.length + (t - l.ind.length - l.non.length) = t by omega]; exact g2, g1, g5, g6⟩
          rw [hl] at d1
          simp only [Option.some.injEq, Prod.mk.injEq] at d1
          obtain ⟨rfl, rfl⟩ := d1
          have hpp : p2 = p := by
            have e1 := lastIdx_eq (hM.non q l jac hl) d4
            have e2 := lastIdx_eq (hM.non q l jac hl) hp
            rw [e1] at e2
            exact Option.some.inj e2
          subst hpp
          have hb := eq_bounds (hM.deps q l jac hl) d2
          have hI2 := h.row q l jac hl tapeI2 row2 d3
          obtain ⟨e2, he2⟩ := List.getElem?_of_mem hi2
          have hc2 : cell (a.row q tapeI2).nonPos j it2 = some e2 :=
            (hI2.cn j it2 e2).mpr ⟨i2, mem_reqAll.mpr ⟨rows, hm, he2⟩, d2, Or.inl ⟨_, hnt, d5⟩⟩
          exact ⟨tapeI2, List.mem_range.mpr hb.1, by simpa using hI2.en j it2 e2 hc2 _ hnt d5⟩
      obtain ⟨w, w1, w2⟩ := tmpSum_ok l (D tapeI) (a.ev q tapeI) a.nlEval G M.nFree j _ hks ((dy (D tapeI) (a.ev q tapeI) t).getD fun _ => 0)
      refine ⟨w, ?_, fun it => ?_⟩
      · rw [termVal, hnt]
        simp only
        rw [if_pos hex]
        exact w1
      · rw [w2, tval, nonVal, hnt]; rfl

/-- what loop `q` adds to element `e` of column `j`, without the factor -/
def loopCol (M : Model) (D : Nat → Nat → Nat → Nat → α) (G : Nat → Nat → α) (a : An) (j e q : Nat) : α :=
  match M.loops[q]? with
  | none => 0
  | some (l, _) => lsum (List.range l.iters) fun it => lsum (List.range l.dep.length) fun tapeI => colVal l (D q) a q G M.nFree j e tapeI it

theorem runLoops1_ok {M : Model} (hM : M.Ok) {n : Nat} {elements : List (Nat × List Nat)} (hE : M.Columns n elements) (hdir : M.DirectToo elements) {a : An}
    (h : Inv M (reqAll elements) a) (D : Nat → Nat → Nat → Nat → α) (G : Nat → Nat → α) (dx : α) {j : Nat} (hj : j < n) :
    ∀ (qs : List Nat), (∀ q ∈ qs, q < M.loops.length) → ∀ out : Nat → α,
    ∃ o, runLoops1 M D G a n dx j qs out = .ok o ∧ ∀ e, o e = out e + lsum qs (loopCol M D G a j e) * dx
  | [], _, out => ⟨out, rfl, fun e => by simp⟩
  | q :: qs, hq, out => by
    have hlt := hq q List.mem_cons_self
    obtain ⟨⟨l, jac⟩, hl⟩ : ∃ x, M.loops[q]? = some x := ⟨_, List.getElem?_eq_getElem hlt⟩
    rw [runLoops1, hl]
    simp only
    rw [badVar_false hM hE h hl]
    simp only [Bool.false_eq_true, if_false]
    have hmax : l.iters - 1 ≤ sizeMax := by
      have := hM.iters q l jac hl
      unfold sizeMax
      omega
    obtain ⟨o1, g1, g2⟩ := runGroups_ok (D := D q) (G := G) (ne := M.nFree) (n := n) (a := a) (q := q) hmax (fun tapeI ht => by
      have htl : tapeI < jac.length := by rw [hM.rows q l jac hl]; exact ht
      have hI := h.row q l jac hl tapeI _ (List.getElem?_eq_getElem htl)
      exact ⟨hI.pi, hI.pn⟩) (fun tapeI ht tm it e hc => termVal_ok hM hE hdir h hl (D q) G ht tm it e hc) dx j (colGroups a q l n) (fun _ hg => hg) out
    rw [g1]
    simp only
    obtain ⟨o, r1, r2⟩ := runLoops1_ok hM hE hdir h D G dx hj qs (fun q' h' => hq q' (List.mem_cons_of_mem _ h')) o1
    refine ⟨o, r1, fun e => ?_⟩
    rw [r2, g2, col_total l (D q) a q G M.nFree n hj e dx, lsum_cons, add_mul, add_assoc]
    congr 2
    rw [loopCol, hl]

theorem loopCol_zero {M : Model} (hM : M.Ok) {rs : List (Nat × Nat × Nat)} {a : An} (h : Inv M rs a) (D : Nat → Nat → Nat → Nat → α) (G : Nat → Nat → α)
    {j e q : Nat} (hno : ∀ (l : Loop) (jac : List (List Nat)), M.loops[q]? = some (l, jac) → ∀ i, (i, j, e) ∈ rs → ∀ t it, l.eq t it ≠ some i) :
    loopCol M D G a j e q = 0 := by
  unfold loopCol
  cases hl : M.loops[q]? with
  | none => rfl
  | some p =>
    obtain ⟨l, jac⟩ := p
    simp only
    refine lsum_zero fun it _ => lsum_zero fun t ht => ?_
    have htl : t < jac.length := by rw [hM.rows q l jac hl]; exact List.mem_range.mp ht
    exact colVal_zero (h.row q l jac hl t _ (List.getElem?_eq_getElem htl)) (D q) G M.nFree fun i hi => hno l jac hl i hi t it

theorem loopCol_chain {M : Model} (hM : M.Ok) {D : Nat → Nat → Nat → Nat → α} {G : Nat → Nat → α} (hc : M.Covers D G) {rs : List (Nat × Nat × Nat)} {a : An}
    (h : Inv M rs a) {i j e q tapeI it : Nat} (hu : ∀ i', (i', j, e) ∈ rs → i' = i) (hr : (i, j, e) ∈ rs) {l : Loop} {jac : List (List Nat)}
    (hl : M.loops[q]? = some (l, jac)) (hi : l.eq tapeI it = some i) :
    loopCol M D G a j e q = l.chain (fun t => D q tapeI t it) (fun k j => G (M.nFree + k) j) it j := by
  have hb := eq_bounds (hM.deps q l jac hl) hi
  have hlen := hM.rows q l jac hl
  have hinv : ∀ t, t < l.dep.length → ∃ row, jac[t]? = some row ∧ RowInv M rs l row t (a.row q t) (a.ev q t) a.nlEval := fun t ht =>
    ⟨_, List.getElem?_eq_getElem (by omega), h.row q l jac hl t _ (List.getElem?_eq_getElem (by omega))⟩
  rw [loopCol, hl]
  simp only
  rw [lsum_single List.nodup_range (x := it) (List.mem_range.mpr hb.2), lsum_single List.nodup_range (x := tapeI) (List.mem_range.mpr hb.1)]
  · obtain ⟨row, hrow, hI⟩ := hinv tapeI hb.1
    exact colVal_chain (hM.non q l jac hl) (hM.tmp q l jac hl) (hM.temps q l jac hl) hI (D q) G
      (fun t it h => hc.loops q l jac hl tapeI _ hrow t h it) hc.free hr hi
  · intro t ht hne
    obtain ⟨row, _, hI⟩ := hinv t (List.mem_range.mp ht)
    refine colVal_zero hI (D q) G M.nFree fun i' hi' he => ?_
    rw [hu i' hi'] at he
    exact hne (hM.once q q l l jac jac t tapeI it it i hl hl he hi).2.1
  · intro it' _ hne
    refine lsum_zero fun t ht => ?_
    obtain ⟨row, _, hI⟩ := hinv t (List.mem_range.mp ht)
    refine colVal_zero hI (D q) G M.nFree fun i' hi' he => ?_
    rw [hu i' hi'] at he
    exact hne (hM.once q q l l jac jac t tapeI it' it i hl hl he hi).2.2

/-! ### equations outside of the loops -/

theorem freeCol_eq (M : Model) (G : Nat → Nat → α) (a : An) (dx : α) (j : Nat) :
    freeCol M G a dx j = ((freeRows M a j).flatMap fun r => (a.nlLoc r j).map fun e => (e, G r j * dx)).foldl (fun out p => upd out p.1 p.2) fun _ => 0 := by
  unfold freeCol
  simp only [List.foldl_flatMap, List.foldl_map]

theorem freeRows_none {M : Model} (h : M.free = none) (a : An) (j : Nat) : freeRows M a j = [] := by
  unfold freeRows Model.nFree
  rw [h]
  rfl

/-- elements of equations in loops are zero -/
theorem freeCol_zero {M : Model} {rs : List (Nat × Nat × Nat)} {a : An} (h : Inv M rs a) (G : Nat → Nat → α) (dx : α) {j e : Nat}
    (hno : ∀ fr, M.free = some fr → ∀ i, (i, j, e) ∈ rs → i ∉ fr.eqs) : freeCol M G a dx j e = 0 := by
  rw [freeCol_eq]
  cases hf : M.free with
  | none => rw [freeRows_none hf]; rfl
  | some fr =>
    refine foldl_upd e 0 _ _ ?_ (Or.inr rfl)
    intro p hp he
    exfalso
    simp only [List.mem_flatMap, List.mem_map] at hp
    obtain ⟨r, _, e', he', rfl⟩ := hp
    simp only at he
    subst he
    obtain ⟨i, h1, h2⟩ := (h.loc fr hf r j e').mp he'
    exact hno fr hf i h2 (List.mem_of_getElem? h1)

theorem freeCol_val {M : Model} (hM : M.Ok) {rs : List (Nat × Nat × Nat)} {a : An} (h : Inv M rs a) (G : Nat → Nat → α) (dx : α) {i j e r : Nat} {fr : Free}
    (hf : M.free = some fr) (hi : fr.eqs[r]? = some i) (hu : ∀ i', (i', j, e) ∈ rs → i' = i) (hr : (i, j, e) ∈ rs) :
    freeRows M a j ≠ [] ∧ freeCol M G a dx j e = G r j * dx := by
  have hmem : e ∈ a.nlLoc r j := (h.loc fr hf r j e).mpr ⟨i, hi, hr⟩
  have hnf : M.nFree = fr.eqs.length := by unfold Model.nFree; rw [hf]
  have hrow : r ∈ freeRows M a j := List.mem_filter.mpr ⟨List.mem_range.mpr (by rw [hnf]; exact (List.getElem?_eq_some_iff.mp hi).1), by
    simpa using h.ev fr hf r j e hmem⟩
  refine ⟨List.ne_nil_of_mem hrow, ?_⟩
  rw [freeCol_eq]
  refine foldl_upd e (G r j * dx) _ _ ?_ (Or.inl ⟨(e, G r j * dx), ?_, rfl⟩)
  · intro p hp he
    simp only [List.mem_flatMap, List.mem_map] at hp
    obtain ⟨r', _, e', he', rfl⟩ := hp
    simp only at he
    subst he
    obtain ⟨i', h1, h2⟩ := (h.loc fr hf r' j e').mp he'
    rw [hu i' h2] at h1
    have e1 := lastIdx_eq (hM.eqs fr hf) h1
    have e2 := lastIdx_eq (hM.eqs fr hf) hi
    rw [e1] at e2
    rw [Option.some.inj e2]
  · simp only [List.mem_flatMap, List.mem_map]
    exact ⟨r, hrow, e, hmem, rfl⟩

/-- one call: elements of columns with an equation outside of the loops are set, others are added to -/
theorem column_core {M : Model} (hM : M.Ok) {D : Nat → Nat → Nat → Nat → α} {G : Nat → Nat → α} (hc : M.Covers D G) {n : Nat}
    {elements : List (Nat × List Nat)} (hE : M.Columns n elements) (hdir : M.DirectToo elements) {a : An}
    (ha : analyseAll M (reqAll elements) {} = .ok a) (h : Inv M (reqAll elements) a) {j : Nat} {rows : List Nat} (hm : (j, rows) ∈ elements) (dx : α)
    (out : Nat → α) : ∃ o, sparseForwardOne M D G n elements j dx out = .ok (0, o) ∧
      (∀ (e i : Nat) (v : α), rows[e]? = some i → M.Deriv D G i j v → o e = (if freeRows M a j = [] then out e else 0) + v * dx) ∧
      ∀ e, rows.length ≤ e → o e = out e := by
  obtain ⟨o, r1, r2⟩ := runLoops1_ok hM hE hdir h D G dx (hE.lt _ hm) (List.range M.loops.length) (fun q hq => List.mem_range.mp hq)
    (runFree M G a dx j rows.length out)
  have huni : ∀ {i e : Nat}, rows[e]? = some i → ∀ i', (i', j, e) ∈ reqAll elements → i' = i := fun hi i' h' =>
    req_unique hE.cols (mem_reqAll.mpr ⟨rows, hm, hi⟩) h'
  refine ⟨o, ?_, ?_, ?_⟩
  · rw [sparseForwardOne, ha]
    simp only
    rw [find_col hE.cols hm]
    simp only
    rw [r1]
  · intro e i v hi hv
    have hlt : e < rows.length := (List.getElem?_eq_some_iff.mp hi).1
    have hr : (i, j, e) ∈ reqAll elements := mem_reqAll.mpr ⟨rows, hm, hi⟩
    rw [r2, runFree]
    cases hv with
    | @loop q tapeI it l jac hl hq =>
      have hz : freeCol M G a dx j e = 0 := freeCol_zero h G dx fun fr hf i' hi' => by
        rw [huni hi i' hi']
        exact hM.apart q l jac tapeI it i fr hl hq hf
      have hs : lsum (List.range M.loops.length) (loopCol M D G a j e) = l.chain (fun t => D q tapeI t it) (fun k j => G (M.nFree + k) j) it j := by
        rw [lsum_single List.nodup_range (x := q) (List.mem_range.mpr (List.getElem?_eq_some_iff.mp hl).1)]
        · exact loopCol_chain hM hc h (huni hi) hr hl hq
        · intro q' _ hne
          refine loopCol_zero hM h D G fun l' jac' hl' i' hi' t it' he => ?_
          rw [huni hi i' hi'] at he
          exact hne (hM.once q' q l' l jac' jac t tapeI it' it i hl' hl he hq).1
      rw [hs]
      by_cases hf : freeRows M a j = []
      · rw [if_pos hf, if_pos hf]
      · rw [if_neg hf, if_neg hf]
        simp only [if_pos hlt, hz]
    | @free r fr hf hq =>
      obtain ⟨f1, f2⟩ := freeCol_val hM h G dx hf hq (huni hi) hr
      have hs : lsum (List.range M.loops.length) (loopCol M D G a j e) = 0 := lsum_zero fun q _ =>
        loopCol_zero hM h D G fun l jac hl i' hi' t it he => by
          rw [huni hi i' hi'] at he
          exact hM.apart q l jac t it i fr hl he hf (List.mem_of_getElem? hq)
      rw [hs, if_neg f1, if_neg f1]
      simp only [if_pos hlt, f2]
      ring
  · intro e he
    have hs : lsum (List.range M.loops.length) (loopCol M D G a j e) = 0 := lsum_zero fun q _ =>
      loopCol_zero hM h D G fun l jac hl i' hi' _ _ _ => by
        obtain ⟨rows', hm', hi''⟩ := mem_reqAll.mp hi'
        have hrr := List.inj_on_of_nodup_map hE.cols hm hm' rfl
        simp only [Prod.mk.injEq, true_and] at hrr
        subst hrr
        have := (List.getElem?_eq_some_iff.mp hi'').1
        omega
    rw [r2, hs, zero_mul, add_zero, runFree]
    split
    · rfl
    · simp only
      rw [if_neg (by omega)]

/-! ### directions -/

theorem spread_other (comp : Nat → α) (i : Nat) : ∀ (ps : List (Nat × Nat)) (ty : Nat → α), (∀ p ∈ ps, p.1 ≠ i) → spread comp ps ty i = ty i
  | [], _, _ => rfl
  | (k, e) :: ps, ty, h => by
    rw [spread, spread_other comp i ps _ fun p hp => h p (List.mem_cons_of_mem _ hp), upd, if_neg fun hi => h _ List.mem_cons_self hi.symm]

theorem spread_at (comp : Nat → α) {i e : Nat} : ∀ (ps : List (Nat × Nat)) (ty : Nat → α), (ps.map (·.1)).Nodup → (i, e) ∈ ps →
    spread comp ps ty i = ty i + comp e
  | [], _, _, h => by simp at h
  | (k, e') :: ps, ty, hn, h => by
    rw [List.map_cons, List.nodup_cons] at hn
    rw [spread]
    rcases List.mem_cons.mp h with h | h
    · simp only [Prod.mk.injEq] at h
      obtain ⟨rfl, rfl⟩ := h
      rw [spread_other]
      · rw [upd, if_pos rfl]
      · exact fun p hp hi => hn.1 (List.mem_map.mpr ⟨p, hp, hi⟩)
    · rw [spread_at comp ps _ hn.2 h, upd, if_neg fun hi => hn.1 (List.mem_map.mpr ⟨(i, e), h, hi⟩)]

theorem spread_rows {rows : List Nat} (h : rows.Nodup) (comp : Nat → α) (ty : Nat → α) :
    (∀ i e, rows[e]? = some i → spread comp rows.zipIdx ty i = ty i + comp e) ∧ ∀ i, i ∉ rows → spread comp rows.zipIdx ty i = ty i := by
  constructor
  · intro i e he
    refine spread_at comp _ _ ?_ (List.mem_zipIdx_iff_getElem?.mpr he)
    rw [List.zipIdx_map_fst]
    exact h
  · intro i hi
    refine spread_other comp i _ _ fun p hp he => hi ?_
    have := List.mem_zipIdx_iff_getElem?.mp hp
    rw [← he]
    exact List.mem_of_getElem? this

/-- the calls for the columns of a direction add the product when every call starts as it should -/
theorem drive_ok {M : Model} (hM : M.Ok) {D : Nat → Nat → Nat → Nat → α} {G : Nat → Nat → α} (hc : M.Covers D G) {n : Nat}
    {elements : List (Nat × List Nat)} (hE : M.Columns n elements) (hdir : M.DirectToo elements) {a : An}
    (ha : analyseAll M (reqAll elements) {} = .ok a) (h : Inv M (reqAll elements) a) (zero : Bool) :
    ∀ (ds : List (Nat × α)), (∀ d ∈ ds, ∃ rows, (d.1, rows) ∈ elements ∧ (zero = true ∨ freeRows M a d.1 ≠ [])) → ∀ comp ty : Nat → α,
    ∃ t, drive M D G n elements zero ds comp ty = .ok (0, t) ∧ ∀ i w, M.Product D G elements i ds w → t i = ty i + w
  | [], _, comp, ty => ⟨ty, rfl, fun i w hw => by cases hw; rw [add_zero]⟩
  | (j, d) :: ds, hds, comp, ty => by
    obtain ⟨rows, hm, hz⟩ := hds _ List.mem_cons_self
    simp only at hm hz
    have hrows : ((elements.find? fun c => c.1 == j).map (·.2)).getD [] = rows := by rw [find_col hE.cols hm]; rfl
    obtain ⟨o, c1, c2, _⟩ := column_core hM hc hE hdir ha h hm d (if zero then fun e => if e < rows.length then 0 else comp e else comp)
    obtain ⟨t, t1, t2⟩ := drive_ok hM hc hE hdir ha h zero ds (fun d hd => hds d (List.mem_cons_of_mem _ hd)) o (spread o rows.zipIdx ty)
    refine ⟨t, ?_, ?_⟩
    · rw [drive, hrows, c1]
      exact t1
    · have hsp := spread_rows (hE.rows _ hm) o ty
      intro i w hw
      cases hw with
      | @take _ _ v w' _ hi hd hw' =>
        obtain ⟨rows', hm', hi'⟩ := hi
        have hrr := List.inj_on_of_nodup_map hE.cols hm hm' rfl
        simp only [Prod.mk.injEq, true_and] at hrr
        subst hrr
        obtain ⟨e, he⟩ := List.getElem?_of_mem hi'
        rw [t2 i w' hw', hsp.1 i e he, c2 e i v he hd, add_assoc]
        congr 1
        rw [show (if freeRows M a j = [] then (if zero = true then fun e => if e < rows.length then 0 else comp e else comp) e else 0) = 0 from ?_, zero_add]
        by_cases hf : freeRows M a j = []
        · rcases hz with hz | hz
          · rw [if_pos hf, if_pos hz, if_pos (List.getElem?_eq_some_iff.mp he).1]
          · exact absurd hf hz
        · rw [if_neg hf]
      | skip hi hw' => rw [t2 i w hw', hsp.2 i fun hi' => hi ⟨rows, hm, hi'⟩]

/-- columns which are left out do not change the product -/
theorem product_used {M : Model} {D : Nat → Nat → Nat → Nat → α} {G : Nat → Nat → α} {elements : List (Nat × List Nat)} {i : Nat} (f : Nat → α)
    (p : Nat → Prop) [DecidablePred p] (hp : ∀ j, p j → f j = 0 ∨ ¬ ∃ rows, (j, rows) ∈ elements ∧ i ∈ rows) :
    ∀ (js : List Nat) (w : α), M.Product D G elements i (js.map fun j => (j, f j)) w →
      M.Product D G elements i (js.filterMap fun j => if p j then none else some (j, f j)) w
  | [], w, h => h
  | j :: js, w, h => by
    rw [List.map_cons] at h
    by_cases hj : p j
    · rw [List.filterMap_cons_none (by rw [if_pos hj])]
      cases h with
      | take hi hd h' =>
        rcases hp j hj with h0 | h0
        · rw [h0, mul_zero, zero_add]
          exact product_used f p hp js _ h'
        · exact absurd hi h0
      | skip _ h' => exact product_used f p hp js _ h'
    · rw [List.filterMap_cons_some (by rw [if_neg hj])]
      cases h with
      | take hi hd h' => exact .take hi hd (product_used f p hp js _ h')
      | skip hi h' => exact .skip hi (product_used f p hp js _ h')

end Verif.Loops.For1
