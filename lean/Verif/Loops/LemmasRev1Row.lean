import Verif.Loops.LemmasRev1

/-
One equation: what the loops add and what is assigned outside of them is the chain rule.
-/
namespace Verif.Loops.Rev1

open Verif.Index Verif.Ranges Verif.Loops.For1

variable {α : Type} [CommRing α]

theorem var_unique {elements : List (Nat × List Nat)} (h : (elements.map (·.1)).Nodup) {i j j' e : Nat}
    (h1 : (i, j, e) ∈ reqRows elements) (h2 : (i, j', e) ∈ reqRows elements) : j' = j := by
  obtain ⟨vars, m1, g1⟩ := mem_reqRows.mp h1
  obtain ⟨vars', m2, g2⟩ := mem_reqRows.mp h2
  have := List.inj_on_of_nodup_map h m1 m2 rfl
  simp only [Prod.mk.injEq, true_and] at this
  subst this
  rw [g1] at g2
  exact (Option.some.inj g2).symm

/-- the chain rule is added to a requested element -/
theorem rowContr_row {M : Model} {rs : List (Nat × Nat × Nat)} {l : Loop} (hn : l.non.Nodup) (ht : l.tmp.Nodup) (htmp : ∀ k ∈ l.tmp, ∃ fr, M.free = some fr ∧ fr.eqs.length + k < fr.jac.length)
    {row : List Nat} {tapeI q : Nat}
    {a : An} (h : RowInv M rs l row tapeI (a.row q tapeI) (a.ev q tapeI) a.nlEval) (D : Nat → Nat → Nat → α) (G : Nat → Nat → α)
    (hD : ∀ t it, t ∉ row → D tapeI t it = 0)
    (hG : ∀ fr, M.free = some fr → ∀ (r : Nat) (sp : List Nat), fr.jac[r]? = some sp → ∀ j, j ∉ sp → G r j = 0)
    {i j e it : Nat} (hloc : ∀ j', (i, j', e) ∈ rs → j' = j) (hr : (i, j, e) ∈ rs) (hi : l.eq tapeI it = some i) :
    csum (rowContr l D a q G M.nFree tapeI) e it = l.chain (fun t => D tapeI t it) (fun k j => G (M.nFree + k) j) it j := by
  have hun : ∀ i' j', (i', j', e) ∈ rs → l.eq tapeI it = some i' → j' = j := by
    intro i' j' h' hi'
    rw [hi] at hi'
    rw [← Option.some.inj hi'] at h'
    exact hloc j' h'
  have hcell : ∀ t, cell (a.row q tapeI).idxPos t it = some e ↔ l.var t it = some j ∧ t ∈ row := by
    intro t
    rw [h.ci]
    constructor
    · rintro ⟨i', j', h1, h2, h3, h4⟩
      rw [hun i' j' h1 h2] at h3
      exact ⟨h3, h4⟩
    · rintro ⟨h3, h4⟩
      exact ⟨i, j, hr, hi, h3, h4⟩
  have hcelln : ∀ j', cell (a.row q tapeI).nonPos j' it = some e ↔ j' = j ∧ Uses M l row j := by
    intro j'
    rw [h.cn]
    constructor
    · rintro ⟨i', h1, h2, h3⟩
      obtain rfl := hun i' j' h1 h2
      exact ⟨rfl, h3⟩
    · rintro ⟨rfl, h3⟩
      exact ⟨i, hr, hi, h3⟩
  -- temporaries which are not used do not count
  have hF : ∀ k ∈ l.tmp, ¬ TmpUse M l row j k → D tapeI ((tmpTape l k).getD 0) it * G (M.nFree + k) j = 0 := by
    intro k hk hnu
    obtain ⟨p, hp⟩ := List.getElem?_of_mem hk
    obtain ⟨fr, hfr, hlt⟩ := htmp k hk
    have htape : tmpTape l k = some (l.ind.length + l.non.length + p) := by rw [tmpTape, lastIdx_eq ht hp]; rfl
    rw [htape, Option.getD_some]
    by_cases hrow : l.ind.length + l.non.length + p ∈ row
    · have hnf : M.nFree = fr.eqs.length := by unfold Model.nFree; rw [hfr]
      rw [hG fr hfr (M.nFree + k) fr.jac[fr.eqs.length + k] (by rw [hnf]; exact List.getElem?_eq_getElem hlt) j, mul_zero]
      intro hj
      refine hnu ⟨fr, _, hfr, hrow, by omega, ?_, fr.jac[fr.eqs.length + k], List.getElem?_eq_getElem hlt, hj⟩
      rw [show l.ind.length + l.non.length + p - l.ind.length - l.non.length = p by omega]
      exact hp
    · rw [hD _ _ hrow, zero_mul]
  rw [rowContr, csum_append, csum_idx h.pi, csum_non h.pn, chain_eq hn ht, add_assoc]
  congr 1
  · refine Finset.sum_congr_of_eq_on_inter ?_ ?_ ?_
    · intro t ht1 ht2
      refine if_neg fun hc => ht2 ?_
      have := ((hcell t).mp hc).1
      rw [Finset.mem_range]
      by_contra hlt
      unfold Loop.var at this
      rw [List.getElem?_eq_none (by omega)] at this
      simp at this
    · intro t _ ht2
      by_cases hv : l.var t it = some j
      · rw [if_pos hv]
        refine hD t it fun hrow => ht2 ?_
        exact key_of_cell ((hcell t).mpr ⟨hv, hrow⟩)
      · rw [if_neg hv]
    · intro t _ _
      by_cases hv : l.var t it = some j
      · rw [if_pos hv]
        by_cases hrow : t ∈ row
        · rw [if_pos ((hcell t).mpr ⟨hv, hrow⟩), mul_one]
        · rw [if_neg fun hc => hrow ((hcell t).mp hc).2, hD t it hrow]
      · rw [if_neg hv, if_neg fun hc => hv ((hcell t).mp hc).1]
  · by_cases hu : Uses M l row j
    · have hc := (hcelln j).mpr ⟨rfl, hu⟩
      rw [Finset.sum_eq_single j]
      rotate_left
      · intro j' _ hne
        exact if_neg fun hc' => hne ((hcelln j').mp hc').1
      · intro hn
        exact absurd (key_of_cell hc) hn
      rw [if_pos hc, mul_one, nonVal]
      congr 1
      · cases hnt : nonTape l j with
        | none => simp
        | some t =>
          rw [Option.bind_some]
          unfold dy
          by_cases hev : t ∈ a.ev q tapeI
          · rw [if_pos hev]; rfl
          · rw [if_neg hev]
            simp only [Option.getD_none]
            rw [hD t it]
            exact fun hrow => hev (h.en j it e hc t hnt hrow)
      · rw [← List.sum_toFinset _ (h.td j), ← List.sum_toFinset _ ht]
        refine Finset.sum_subset ?_ ?_
        · intro k hk
          obtain ⟨fr, t, _, _, _, h4, _⟩ := tmpUse_tape ht (h.tu j k (List.mem_toFinset.mp hk))
          exact List.mem_toFinset.mpr (List.mem_of_getElem? h4.1)
        · intro k hk hnk
          refine hF k (List.mem_toFinset.mp hk) fun hku => hnk ?_
          exact List.mem_toFinset.mpr (h.tl j it e hc k hku)
    · rw [Finset.sum_eq_zero fun j' _ => if_neg fun hc => hu ((hcelln j').mp hc).2]
      rw [list_sum_zero _ fun k hk => hF k hk fun hku => hu (Or.inr ⟨k, hku⟩)]
      rw [add_zero]
      cases hnt : nonTape l j with
      | none => rfl
      | some t =>
        simp only
        rw [hD t it]
        exact fun hrow => hu (Or.inl ⟨t, hnt, hrow⟩)

/-! ### iteration of an equation -/

theorem irow2It_spec (l : Loop) (m tapeI : Nat) : Sorted (irow2It l m tapeI) ∧
    ∀ i it, it < l.iters → l.eq tapeI it = some i → i < m → (∀ it', l.eq tapeI it' = some i → it' = it) → (i, (it : Int)) ∈ irow2It l m tapeI := by
  unfold irow2It
  suffices H : ∀ k, Sorted ((List.range k).foldl (fun mp it => match l.eq tapeI it with
      | some i => if i < m then put i (it : Int) mp else mp
      | none => mp) ([] : List (Nat × Int))) ∧
      ∀ i it, it < k → l.eq tapeI it = some i → i < m → (∀ it', l.eq tapeI it' = some i → it' = it) →
        (i, (it : Int)) ∈ (List.range k).foldl (fun mp it => match l.eq tapeI it with
          | some i => if i < m then put i (it : Int) mp else mp
          | none => mp) ([] : List (Nat × Int)) from H l.iters
  intro k
  induction k with
  | zero => exact ⟨by simp [Sorted], fun _ _ h => by omega⟩
  | succ k ih =>
    rw [List.range_succ, List.foldl_append, List.foldl_cons, List.foldl_nil]
    constructor
    · split
      · split
        · exact put_sorted ih.1
        · exact ih.1
      · exact ih.1
    · intro i it hlt hi him hun
      by_cases hk : it = k
      · subst hk
        rw [hi]
        simp only [if_pos him]
        exact mem_put_self
      · have hmem := ih.2 i it (by omega) hi him hun
        split
        · rename_i i' hi'
          split
          · refine mem_put_other hmem fun he => hk ?_
            simp only at he
            rw [← he] at hi'
            exact (hun k hi').symm
          · exact hmem
        · exact hmem

theorem irow2It_eval {l : Loop} {m tapeI i it : Nat} (hit : it < l.iters) (hi : l.eq tapeI it = some i) (him : i < m)
    (hun : ∀ it', l.eq tapeI it' = some i → it' = it) : (detect (irow2It l m tapeI)).eval i = some (it : Int) :=
  detect_reproduces _ (irow2It_spec l m tapeI).1 _ ((irow2It_spec l m tapeI).2 i it hit hi him hun)

/-! ### one tape equation -/

/-- what a tape equation adds to an element of equation `i` -/
def tapeRow (l : Loop) (D : Nat → Nat → Nat → α) (a : An) (q : Nat) (G : Nat → Nat → α) (ne i e t : Nat) : α :=
  lsum (List.range l.iters) fun it => if l.eq t it = some i then csum (rowContr l D a q G ne t) e it else 0

theorem hasPos_of_cell {m : Map (List (Option Nat))} {n k it e : Nat} (hm : PosOk n m) (h : cell m k it = some e) : hasPos m it = true := by
  have hk := key_of_cell h
  rw [List.mem_toFinset, List.mem_map] at hk
  obtain ⟨p, hp, rfl⟩ := hk
  rw [cell_eq hm hp] at h
  rw [hasPos, List.any_eq_true]
  exact ⟨p, hp, by rw [h]; rfl⟩

theorem contr_none {n : Nat} {l : Loop} {tapeI q : Nat} {a : An} (hi : PosOk n (a.row q tapeI).idxPos) (hn : PosOk n (a.row q tapeI).nonPos)
    (D : Nat → Nat → Nat → α) (G : Nat → Nat → α) (ne e it : Nat) (h1 : hasPos (a.row q tapeI).idxPos it = false)
    (h2 : hasPos (a.row q tapeI).nonPos it = false) : csum (rowContr l D a q G ne tapeI) e it = 0 := by
  rw [rowContr, csum_append, csum_idx hi, csum_non hn, Finset.sum_eq_zero, Finset.sum_eq_zero, add_zero]
  · intro j _
    refine if_neg fun hc => ?_
    rw [hasPos_of_cell hn hc] at h2
    simp at h2
  · intro t _
    refine if_neg fun hc => ?_
    rw [hasPos_of_cell hi hc] at h1
    simp at h1

theorem runTape_ok {M : Model} (hM : M.Ok) {rs : List (Nat × Nat × Nat)} {a : An} (h : Inv M rs a) (D : Nat → Nat → Nat → Nat → α) (G : Nat → Nat → α)
    (py : α) {m i : Nat} (him : i < m) {q : Nat} {l : Loop} {jac : List (List Nat)} (hl : M.loops[q]? = some (l, jac)) {t : Nat} (ht : t < l.dep.length)
    (out : Nat → α) :
    ∃ o, runTape l (D q) a q G M.nFree m py i t out = .ok o ∧ ∀ e, o e = out e + tapeRow l (D q) a q G M.nFree i e t * py := by
  have hI := h.row q l jac hl t _ (List.getElem?_eq_getElem (by rw [hM.rows q l jac hl]; exact ht))
  have hmax : l.iters - 1 ≤ sizeMax := by
    have := hM.iters q l jac hl
    unfold sizeMax
    omega
  rw [runTape]
  by_cases hemp : ((a.row q t).idxPos.isEmpty && (a.row q t).nonPos.isEmpty) = true
  · rw [if_pos hemp]
    rw [Bool.and_eq_true, List.isEmpty_iff, List.isEmpty_iff] at hemp
    refine ⟨out, rfl, fun e => ?_⟩
    rw [tapeRow, lsum_zero, zero_mul, add_zero]
    intro it _
    split
    · exact contr_none hI.pi hI.pn (D q) G M.nFree e it (by rw [hemp.1]; rfl) (by rw [hemp.2]; rfl)
    · rfl
  · rw [if_neg hemp]
    obtain ⟨b1, b2, g1, g2, g3⟩ := genRowP_ok hmax (hM.tmp q l jac hl) hI (D q) G py (meets_empty l.iters true)
    rw [g1]
    simp only
    rw [g2]
    simp only
    rw [List.nil_append] at g3
    by_cases hcall : called (a.row q t) l m t i = true
    · rw [if_pos hcall]
      unfold called at hcall
      rw [List.any_eq_true] at hcall
      obtain ⟨it, hit, hc⟩ := hcall
      simp only [Bool.and_eq_true, beq_iff_eq, decide_eq_true_eq] at hc
      have hun : ∀ it', l.eq t it' = some i → it' = it := fun it' h' => (hM.once q q l l jac jac t t it' it i hl hl h' hc.1.1).2.2
      rw [irow2It_eval (List.mem_range.mp hit) hc.1.1 him hun]
      obtain ⟨o, o1, o2⟩ := meets_iter g3 (List.mem_range.mp hit) out
      rw [o1]
      refine ⟨o, rfl, fun e => ?_⟩
      rw [o2, rowContrP_eq hI.pi hI.pn, tapeRow, lsum_single List.nodup_range (x := it) hit, if_pos hc.1.1]
      intro it' _ hne
      exact if_neg fun h' => hne (hun it' h')
    · rw [if_neg hcall]
      refine ⟨out, rfl, fun e => ?_⟩
      rw [tapeRow, lsum_zero, zero_mul, add_zero]
      intro it hit
      split
      · rename_i hi
        have hno : ¬ (hasPos (a.row q t).idxPos it = true ∨ hasPos (a.row q t).nonPos it = true) := by
          intro hor
          refine hcall ?_
          unfold called
          rw [List.any_eq_true]
          exact ⟨it, hit, by simp [hi, him, hor]⟩
        rw [not_or, Bool.not_eq_true, Bool.not_eq_true] at hno
        exact contr_none hI.pi hI.pn (D q) G M.nFree e it hno.1 hno.2
      · rfl

theorem runTapes_ok {M : Model} (hM : M.Ok) {rs : List (Nat × Nat × Nat)} {a : An} (h : Inv M rs a) (D : Nat → Nat → Nat → Nat → α) (G : Nat → Nat → α)
    (py : α) {m i : Nat} (him : i < m) {q : Nat} {l : Loop} {jac : List (List Nat)} (hl : M.loops[q]? = some (l, jac)) :
    ∀ (ts : List Nat), (∀ t ∈ ts, t < l.dep.length) → ∀ out : Nat → α,
    ∃ o, runTapes l (D q) a q G M.nFree m py i ts out = .ok o ∧ ∀ e, o e = out e + lsum ts (tapeRow l (D q) a q G M.nFree i e) * py
  | [], _, out => ⟨out, rfl, fun e => by simp⟩
  | t :: ts, hts, out => by
    obtain ⟨o1, g1, g2⟩ := runTape_ok hM h D G py him hl (hts t List.mem_cons_self) out
    obtain ⟨o, r1, r2⟩ := runTapes_ok hM h D G py him hl ts (fun t' h' => hts t' (List.mem_cons_of_mem _ h')) o1
    refine ⟨o, ?_, fun e => ?_⟩
    · rw [runTapes, g1]
      exact r1
    · rw [r2, g2, lsum_cons, add_mul, add_assoc]

/-- what loop `q` adds to an element of equation `i` -/
def loopRow (M : Model) (D : Nat → Nat → Nat → Nat → α) (G : Nat → Nat → α) (a : An) (i e q : Nat) : α :=
  match M.loops[q]? with
  | none => 0
  | some (l, _) => lsum (List.range l.dep.length) (tapeRow l (D q) a q G M.nFree i e)

theorem runLoopsR_ok {M : Model} (hM : M.Ok) {rs : List (Nat × Nat × Nat)} {a : An} (h : Inv M rs a) (D : Nat → Nat → Nat → Nat → α) (G : Nat → Nat → α)
    (py : α) {m i : Nat} (him : i < m) : ∀ (qs : List Nat), (∀ q ∈ qs, q < M.loops.length) → ∀ out : Nat → α,
    ∃ o, runLoopsR M D G a m py i qs out = .ok o ∧ ∀ e, o e = out e + lsum qs (loopRow M D G a i e) * py
  | [], _, out => ⟨out, rfl, fun e => by simp⟩
  | q :: qs, hq, out => by
    obtain ⟨⟨l, jac⟩, hl⟩ : ∃ x, M.loops[q]? = some x := ⟨_, List.getElem?_eq_getElem (hq q List.mem_cons_self)⟩
    obtain ⟨o1, g1, g2⟩ := runTapes_ok hM h D G py him hl (List.range l.dep.length) (fun t ht => List.mem_range.mp ht) out
    obtain ⟨o, r1, r2⟩ := runLoopsR_ok hM h D G py him qs (fun q' h' => hq q' (List.mem_cons_of_mem _ h')) o1
    refine ⟨o, ?_, fun e => ?_⟩
    · rw [runLoopsR, hl]
      simp only
      rw [g1]
      exact r1
    · rw [r2, g2, lsum_cons, add_mul, add_assoc]
      congr 2
      rw [loopRow, hl]

theorem loopRow_zero {M : Model} (hM : M.Ok) {rs : List (Nat × Nat × Nat)} {a : An} (h : Inv M rs a) (D : Nat → Nat → Nat → Nat → α) (G : Nat → Nat → α)
    {i e q : Nat} (hno : ∀ (l : Loop) (jac : List (List Nat)), M.loops[q]? = some (l, jac) → ∀ j, (i, j, e) ∈ rs → ∀ t it, l.eq t it ≠ some i) :
    loopRow M D G a i e q = 0 := by
  unfold loopRow
  cases hl : M.loops[q]? with
  | none => rfl
  | some p =>
    obtain ⟨l, jac⟩ := p
    simp only
    refine lsum_zero fun t ht => lsum_zero fun it _ => ?_
    have htl : t < jac.length := by rw [hM.rows q l jac hl]; exact List.mem_range.mp ht
    split
    · rename_i hi
      refine rowContr_zero (h.row q l jac hl t _ (List.getElem?_eq_getElem htl)) (D q) G M.nFree fun i' j hr he => ?_
      rw [hi] at he
      obtain rfl := Option.some.inj he
      exact hno l jac hl j hr t it hi
    · rfl

theorem loopRow_chain {M : Model} (hM : M.Ok) {D : Nat → Nat → Nat → Nat → α} {G : Nat → Nat → α} (hc : M.Covers D G) {rs : List (Nat × Nat × Nat)} {a : An}
    (h : Inv M rs a) {i j e q tapeI it : Nat} (hu : ∀ j', (i, j', e) ∈ rs → j' = j) (hr : (i, j, e) ∈ rs) {l : Loop} {jac : List (List Nat)}
    (hl : M.loops[q]? = some (l, jac)) (hi : l.eq tapeI it = some i) :
    loopRow M D G a i e q = l.chain (fun t => D q tapeI t it) (fun k j => G (M.nFree + k) j) it j := by
  have hb := eq_bounds (hM.deps q l jac hl) hi
  have htl : tapeI < jac.length := by rw [hM.rows q l jac hl]; exact hb.1
  have hrow : jac[tapeI]? = some jac[tapeI] := List.getElem?_eq_getElem htl
  rw [loopRow, hl]
  simp only
  rw [lsum_single List.nodup_range (x := tapeI) (List.mem_range.mpr hb.1)]
  · rw [tapeRow, lsum_single List.nodup_range (x := it) (List.mem_range.mpr hb.2)]
    · rw [if_pos hi]
      exact rowContr_row (hM.non q l jac hl) (hM.tmp q l jac hl) (hM.temps q l jac hl) (h.row q l jac hl tapeI _ hrow) (D q) G
        (fun t it h => hc.loops q l jac hl tapeI _ hrow t h it) hc.free hu hr hi
    · intro it' _ hne
      exact if_neg fun h' => hne (hM.once q q l l jac jac tapeI tapeI it' it i hl hl h' hi).2.2
  · intro t _ hne
    refine lsum_zero fun it' _ => ?_
    exact if_neg fun h' => hne (hM.once q q l l jac jac t tapeI it' it i hl hl h' hi).2.1

/-! ### equations outside of the loops -/

theorem freeCells_ok (g : Nat → α) (loc : Nat → List Nat) (py : α) (size : Nat) : ∀ (js : List Nat), (∀ j ∈ js, ∃ e < size, loc j = [e]) →
    ∀ row : Nat → α, ∃ o, freeCells g loc py size js row = .ok o ∧
      ∀ e v, (∀ j ∈ js, loc j = [e] → g j * py = v) → ((∃ j ∈ js, loc j = [e]) ∨ row e = v) → o e = v
  | [], _, row => ⟨row, rfl, fun e v _ h => by simpa using h⟩
  | j :: js, hjs, row => by
    obtain ⟨e0, he0, hl⟩ := hjs j List.mem_cons_self
    obtain ⟨o, r1, r2⟩ := freeCells_ok g loc py size js (fun j' h' => hjs j' (List.mem_cons_of_mem _ h')) (upd row e0 (g j * py))
    refine ⟨o, ?_, fun e v h1 h2 => ?_⟩
    · rw [freeCells, hl]
      simp only
      rw [if_pos he0]
      exact r1
    · refine r2 e v (fun j' h' => h1 j' (List.mem_cons_of_mem _ h')) ?_
      by_cases he : e = e0
      · right
        rw [upd, if_pos he]
        exact h1 j List.mem_cons_self (by rw [hl, he])
      · rcases h2 with ⟨j', h', hj'⟩ | h2
        · rcases List.mem_cons.mp h' with rfl | h'
          · rw [hl] at hj'
            exact absurd (List.cons.inj hj').1.symm he
          · exact Or.inl ⟨j', h', hj'⟩
        · right
          rw [upd, if_neg he]
          exact h2

theorem freeRow_ok {M : Model} {m : Nat} {elements : List (Nat × List Nat)} (hE : M.Rows m elements) {a : An}
    (h : Inv M (reqRows elements) a) (hn : NlInv M a) (G : Nat → Nat → α) (py : α) {fr : Free} (hf : M.free = some fr) {r : Nat} (hr : r < M.nFree) :
    ∃ o, freeCells (G r) (a.nlLoc r) py (a.nlEval r).length (a.nlEval r) (fun _ => 0) = .ok o ∧
      ∀ i vars, fr.eqs[r]? = some i → (i, vars) ∈ elements → (a.nlEval r).length = vars.length ∧
        ∀ (e j : Nat), vars[e]? = some j → o e = G r j * py := by
  have hat : ∀ {i : Nat} {vars : List Nat}, fr.eqs[r]? = some i → (i, vars) ∈ elements → ∀ e j, e ∈ a.nlLoc r j ↔ vars[e]? = some j := by
    intro i vars hi hm e j
    rw [h.loc fr hf]
    constructor
    · rintro ⟨i', h1, h2⟩
      rw [hi] at h1
      obtain rfl := Option.some.inj h1
      obtain ⟨vars', hm', hv⟩ := mem_reqRows.mp h2
      have := List.inj_on_of_nodup_map hE.rows hm hm' rfl
      simp only [Prod.mk.injEq, true_and] at this
      rw [this]
      exact hv
    · exact fun hv => ⟨i, hi, mem_reqRows.mpr ⟨vars, hm, hv⟩⟩
  have hlen : ∀ {i : Nat} {vars : List Nat}, fr.eqs[r]? = some i → (i, vars) ∈ elements → (a.nlEval r).length = vars.length := by
    intro i vars hi hm
    refine ((List.perm_ext_iff_of_nodup (hn.nd r hr) (hE.vars _ hm)).mpr fun j => ?_).length_eq
    constructor
    · intro hj
      obtain ⟨e, he⟩ := hn.ex r hr j hj
      exact List.mem_of_getElem? ((hat hi hm e j).mp he)
    · intro hj
      obtain ⟨e, he⟩ := List.getElem?_of_mem hj
      exact h.ev fr hf r j e ((hat hi hm e j).mpr he)
  have hone : ∀ {i : Nat} {vars : List Nat}, fr.eqs[r]? = some i → (i, vars) ∈ elements → ∀ e j, vars[e]? = some j → a.nlLoc r j = [e] := by
    intro i vars hi hm e j hv
    have hall : ∀ e' ∈ a.nlLoc r j, e' = e := fun e' he' => by
      have h' := (hat hi hm e' j).mp he'
      have l1 := List.getElem?_eq_some_iff.mp hv
      have l2 := List.getElem?_eq_some_iff.mp h'
      obtain ⟨k1, k1'⟩ := l1
      obtain ⟨k2, k2'⟩ := l2
      exact (List.Nodup.getElem_inj_iff (hE.vars _ hm)).mp (by rw [k1', k2'])
    have hmem := (hat hi hm e j).mpr hv
    have hnd := hn.ld r j
    match hL : a.nlLoc r j with
    | [] => rw [hL] at hmem; simp at hmem
    | [x] => rw [hall x (by rw [hL]; simp)]
    | x :: y :: zs =>
      have hx := hall x (by rw [hL]; simp)
      have hy := hall y (by rw [hL]; simp)
      rw [hL, hx, hy] at hnd
      simp at hnd
  obtain ⟨o, o1, o2⟩ := freeCells_ok (G r) (a.nlLoc r) py (a.nlEval r).length (a.nlEval r) (by
    intro j hj
    obtain ⟨e, he⟩ := hn.ex r hr j hj
    obtain ⟨i, hi, hreq⟩ := (h.loc fr hf r j e).mp he
    obtain ⟨vars, hm, hv⟩ := mem_reqRows.mp hreq
    exact ⟨e, by rw [hlen hi hm]; exact (List.getElem?_eq_some_iff.mp hv).1, hone hi hm e j hv⟩) fun _ => 0
  refine ⟨o, o1, fun i vars hi hm => ⟨hlen hi hm, fun e j hv => o2 e _ ?_ (Or.inl ⟨j, ?_, hone hi hm e j hv⟩)⟩⟩
  · intro j' _ hl
    have : vars[e]? = some j' := (hat hi hm e j').mp (by rw [hl]; simp)
    rw [hv] at this
    rw [Option.some.inj this]
  · exact h.ev fr hf r j e ((hat hi hm e j).mpr hv)

/-- equations which are not outside of the loops -/
theorem runFreeR_other {M : Model} {m : Nat} {elements : List (Nat × List Nat)} (hE : M.Rows m elements) {a : An}
    (h : Inv M (reqRows elements) a) (hn : NlInv M a) (G : Nat → Nat → α) (py : α) {fr : Free} (hf : M.free = some fr) {i : Nat} :
    ∀ (rs : List Nat), (∀ r ∈ rs, r < M.nFree ∧ fr.eqs[r]? ≠ some i) → ∀ out : Nat → α, runFreeR M G a py i rs out = .ok out
  | [], _, _ => rfl
  | r :: rs, hrs, out => by
    obtain ⟨h1, h2⟩ := hrs r List.mem_cons_self
    obtain ⟨o, o1, _⟩ := freeRow_ok hE h hn G py hf h1
    rw [runFreeR, o1]
    simp only
    rw [if_neg fun hh => h2 (by rw [hf] at hh; exact hh.1)]
    exact runFreeR_other hE h hn G py hf rs (fun r' h' => hrs r' (List.mem_cons_of_mem _ h')) out

theorem runFreeR_at {M : Model} (hM : M.Ok) {m : Nat} {elements : List (Nat × List Nat)} (hE : M.Rows m elements) {a : An}
    (h : Inv M (reqRows elements) a) (hn : NlInv M a) (G : Nat → Nat → α) (py : α) {fr : Free} (hf : M.free = some fr) {i r0 : Nat} {vars : List Nat}
    (hi : fr.eqs[r0]? = some i) (hm : (i, vars) ∈ elements) :
    ∀ (rs : List Nat), rs.Nodup → (∀ r ∈ rs, r < M.nFree) → r0 ∈ rs → ∀ out : Nat → α, ∃ o, runFreeR M G a py i rs out = .ok o ∧
      (∀ (e j : Nat), vars[e]? = some j → o e = G r0 j * py) ∧ ∀ e, vars.length ≤ e → o e = out e
  | [], _, _, h0, _ => by simp at h0
  | r :: rs, hnd, hrs, h0, out => by
    rw [List.nodup_cons] at hnd
    have hone : ∀ r', fr.eqs[r']? = some i → r' = r0 := by
      intro r' h'
      have e1 := lastIdx_eq (hM.eqs fr hf) h'
      rw [lastIdx_eq (hM.eqs fr hf) hi] at e1
      exact (Option.some.inj e1).symm
    obtain ⟨o, o1, o2⟩ := freeRow_ok hE h hn G py hf (hrs r List.mem_cons_self)
    by_cases hr : r = r0
    · subst hr
      obtain ⟨p1, p2⟩ := o2 i vars hi hm
      by_cases hne : a.nlEval r = []
      · have hv : vars = [] := by
          rw [hne] at p1
          exact List.eq_nil_of_length_eq_zero p1.symm
        refine ⟨out, ?_, fun e j hj => ?_, fun _ _ => rfl⟩
        · rw [runFreeR, o1]
          simp only
          rw [if_neg fun hh => hh.2 hne]
          exact runFreeR_other hE h hn G py hf rs (fun r' h' => ⟨hrs r' (List.mem_cons_of_mem _ h'), fun hh => hnd.1 (by rw [← hone r' hh]; exact h')⟩) out
        · rw [hv] at hj
          simp at hj
      · refine ⟨fun e => if e < (a.nlEval r).length then o e else out e, ?_, fun e j hj => ?_, fun e he => ?_⟩
        · rw [runFreeR, o1]
          simp only
          rw [if_pos ⟨by rw [hf]; exact hi, hne⟩]
          exact runFreeR_other hE h hn G py hf rs (fun r' h' => ⟨hrs r' (List.mem_cons_of_mem _ h'), fun hh => hnd.1 (by rw [← hone r' hh]; exact h')⟩) _
        · simp only
          rw [if_pos (by rw [p1]; exact (List.getElem?_eq_some_iff.mp hj).1)]
          exact p2 e j hj
        · simp only
          rw [if_neg (by omega)]
    · obtain ⟨o', r1, r2⟩ := runFreeR_at hM hE h hn G py hf hi hm rs hnd.2 (fun r' h' => hrs r' (List.mem_cons_of_mem _ h'))
        ((List.mem_cons.mp h0).resolve_left (Ne.symm hr)) out
      refine ⟨o', ?_, r2⟩
      rw [runFreeR, o1]
      simp only
      rw [if_neg fun hh => hr (hone r (by rw [hf] at hh; exact hh.1))]
      exact r1

theorem runFreeR_none {M : Model} {m : Nat} {elements : List (Nat × List Nat)} (hE : M.Rows m elements) {a : An}
    (h : Inv M (reqRows elements) a) (hn : NlInv M a) (G : Nat → Nat → α) (py : α) {i : Nat} (hno : ∀ fr, M.free = some fr → i ∉ fr.eqs) (out : Nat → α) :
    runFreeR M G a py i (List.range M.nFree) out = .ok out := by
  cases hf : M.free with
  | none =>
    have : M.nFree = 0 := by unfold Model.nFree; rw [hf]
    rw [this]
    rfl
  | some fr => exact runFreeR_other hE h hn G py hf _ (fun r hr => ⟨List.mem_range.mp hr, fun hh => hno fr hf (List.mem_of_getElem? hh)⟩) out

/-! ### one call -/

/-- one call: elements of equations outside of the loops are set, those of equations in loops are added to -/
theorem row_core {M : Model} (hM : M.Ok) {D : Nat → Nat → Nat → Nat → α} {G : Nat → Nat → α} (hc : M.Covers D G) {m : Nat}
    {elements : List (Nat × List Nat)} (hE : M.Rows m elements) {i : Nat} {vars : List Nat} (hm : (i, vars) ∈ elements) (py : α)
    (out : Nat → α) : ∃ o, sparseReverseOne M D G m elements i py out = .ok (0, o) ∧
      (∀ (e j : Nat) (v : α), vars[e]? = some j → M.Deriv D G i j v →
        ((∃ fr, M.free = some fr ∧ i ∈ fr.eqs) → o e = v * py) ∧ ((¬ ∃ fr, M.free = some fr ∧ i ∈ fr.eqs) → o e = out e + v * py)) ∧
      ∀ e, vars.length ≤ e → o e = out e := by
  obtain ⟨a, ha, h, hn⟩ := analysis hM hE
  have huni : ∀ {j e : Nat}, vars[e]? = some j → ∀ j', (i, j', e) ∈ reqRows elements → j' = j := fun hi j' h' =>
    var_unique hE.rows (mem_reqRows.mpr ⟨vars, hm, hi⟩) h'
  have hpast : ∀ e, vars.length ≤ e → ∀ q, loopRow M D G a i e q = 0 := by
    intro e he q
    refine loopRow_zero hM h D G fun l jac hl j hj => ?_
    obtain ⟨vars', hm', hv⟩ := mem_reqRows.mp hj
    have hrr := List.inj_on_of_nodup_map hE.rows hm hm' rfl
    simp only [Prod.mk.injEq, true_and] at hrr
    subst hrr
    have := (List.getElem?_eq_some_iff.mp hv).1
    omega
  by_cases hfree : ∃ fr, M.free = some fr ∧ i ∈ fr.eqs
  · obtain ⟨fr, hf, hif⟩ := hfree
    obtain ⟨r0, hr0⟩ := List.getElem?_of_mem hif
    have hnf : M.nFree = fr.eqs.length := by unfold Model.nFree; rw [hf]
    obtain ⟨o1, g1, g2, g3⟩ := runFreeR_at hM hE h hn G py hf hr0 hm (List.range M.nFree) List.nodup_range (fun r hr => List.mem_range.mp hr)
      (List.mem_range.mpr (by rw [hnf]; exact (List.getElem?_eq_some_iff.mp hr0).1)) out
    obtain ⟨o, r1, r2⟩ := runLoopsR_ok hM h D G py (hE.lt _ hm) (List.range M.loops.length) (fun q hq => List.mem_range.mp hq) o1
    have hz : ∀ e, lsum (List.range M.loops.length) (loopRow M D G a i e) = 0 := fun e => lsum_zero fun q _ =>
      loopRow_zero hM h D G fun l jac hl j _ t it he => hM.apart q l jac t it i fr hl he hf hif
    refine ⟨o, ?_, fun e j v hj hv => ⟨fun _ => ?_, fun hno => absurd ⟨fr, hf, hif⟩ hno⟩, fun e he => ?_⟩
    · rw [sparseReverseOne, ha]
      simp only
      rw [find_col hE.rows hm]
      simp only
      rw [g1]
      simp only
      rw [r1]
    · rw [r2, hz, zero_mul, add_zero, g2 e j hj]
      cases hv with
      | @loop q tapeI it l jac hl hq => exact absurd hif (hM.apart q l jac tapeI it i fr hl hq hf)
      | @free r fr' hf' hq =>
        rw [hf] at hf'
        obtain rfl := Option.some.inj hf'
        have e1 := lastIdx_eq (hM.eqs fr hf) hq
        rw [lastIdx_eq (hM.eqs fr hf) hr0] at e1
        rw [Option.some.inj e1]
    · rw [r2, hz, zero_mul, add_zero, g3 e he]
  · have hno : ∀ fr, M.free = some fr → i ∉ fr.eqs := fun fr hf hi => hfree ⟨fr, hf, hi⟩
    obtain ⟨o, r1, r2⟩ := runLoopsR_ok hM h D G py (hE.lt _ hm) (List.range M.loops.length) (fun q hq => List.mem_range.mp hq) out
    refine ⟨o, ?_, fun e j v hj hv => ⟨fun hf => absurd hf hfree, fun _ => ?_⟩, fun e he => ?_⟩
    · rw [sparseReverseOne, ha]
      simp only
      rw [find_col hE.rows hm]
      simp only
      rw [runFreeR_none hE h hn G py hno out]
      simp only
      rw [r1]
    · cases hv with
      | @loop q tapeI it l jac hl hq =>
        rw [r2, lsum_single List.nodup_range (x := q) (List.mem_range.mpr (List.getElem?_eq_some_iff.mp hl).1),
          loopRow_chain hM hc h (huni hj) (mem_reqRows.mpr ⟨vars, hm, hj⟩) hl hq]
        intro q' _ hne
        exact loopRow_zero hM h D G fun l' jac' hl' _ _ t it' he => hne (hM.once q' q l' l jac' jac t tapeI it' it i hl' hl he hq).1
      | @free r fr hf hq => exact absurd (List.mem_of_getElem? hq) (hno fr hf)
    · rw [r2, lsum_zero fun q _ => hpast e he q, zero_mul, add_zero]

/-! ### weights -/

theorem drive_ok {M : Model} (hM : M.Ok) {D : Nat → Nat → Nat → Nat → α} {G : Nat → Nat → α} (hc : M.Covers D G) {m : Nat}
    {elements : List (Nat × List Nat)} (hE : M.Rows m elements) (zero : Bool) :
    ∀ (ds : List (Nat × α)), (∀ d ∈ ds, ∃ vars, (d.1, vars) ∈ elements ∧ (zero = true ∨ ∃ fr, M.free = some fr ∧ d.1 ∈ fr.eqs)) → ∀ comp px : Nat → α,
    ∃ t, drive M D G m elements zero ds comp px = .ok (0, t) ∧ ∀ j w, M.RowProduct D G elements j ds w → t j = px j + w
  | [], _, comp, px => ⟨px, rfl, fun j w hw => by cases hw; rw [add_zero]⟩
  | (i, d) :: ds, hds, comp, px => by
    obtain ⟨vars, hm, hz⟩ := hds _ List.mem_cons_self
    simp only at hm hz
    have hvars : ((elements.find? fun c => c.1 == i).map (·.2)).getD [] = vars := by rw [find_col hE.rows hm]; rfl
    obtain ⟨o, c1, c2, _⟩ := row_core hM hc hE hm d (if zero then fun e => if e < vars.length then 0 else comp e else comp)
    obtain ⟨t, t1, t2⟩ := drive_ok hM hc hE zero ds (fun d hd => hds d (List.mem_cons_of_mem _ hd)) o (spread o vars.zipIdx px)
    refine ⟨t, ?_, ?_⟩
    · rw [drive, hvars, c1]
      exact t1
    · have hsp := spread_rows (hE.vars _ hm) o px
      intro j w hw
      cases hw with
      | @take _ _ v w' _ hi hd hw' =>
        obtain ⟨vars', hm', hj'⟩ := hi
        have hrr := List.inj_on_of_nodup_map hE.rows hm hm' rfl
        simp only [Prod.mk.injEq, true_and] at hrr
        subst hrr
        obtain ⟨e, he⟩ := List.getElem?_of_mem hj'
        have hoe : o e = v * d := by
          by_cases hf : ∃ fr, M.free = some fr ∧ i ∈ fr.eqs
          · exact (c2 e j v he hd).1 hf
          · rw [(c2 e j v he hd).2 hf, if_pos (hz.resolve_right hf), if_pos (List.getElem?_eq_some_iff.mp he).1, zero_add]
        rw [t2 j w' hw', hsp.1 j e he, hoe, add_assoc]
      | skip hi hw' => rw [t2 j w hw', hsp.2 j fun hj => hi ⟨vars, hm, hj⟩]

/-- equations which are left out do not change the product -/
theorem product_used {M : Model} {D : Nat → Nat → Nat → Nat → α} {G : Nat → Nat → α} {elements : List (Nat × List Nat)} {j : Nat} (f : Nat → α)
    (p : Nat → Prop) [DecidablePred p] (hp : ∀ i, p i → f i = 0 ∨ ¬ ∃ vars, (i, vars) ∈ elements ∧ j ∈ vars) :
    ∀ (is : List Nat) (w : α), M.RowProduct D G elements j (is.map fun i => (i, f i)) w →
      M.RowProduct D G elements j (is.filterMap fun i => if p i then none else some (i, f i)) w
  | [], w, h => h
  | i :: is, w, h => by
    rw [List.map_cons] at h
    by_cases hi : p i
    · rw [List.filterMap_cons_none (by rw [if_pos hi])]
      cases h with
      | take hj hd h' =>
        rcases hp i hi with h0 | h0
        · rw [h0, mul_zero, zero_add]
          exact product_used f p hp is _ h'
        · exact absurd hj h0
      | skip _ h' => exact product_used f p hp is _ h'
    · rw [List.filterMap_cons_some (by rw [if_neg hi])]
      cases h with
      | take hj hd h' => exact .take hj hd (product_used f p hp is _ h')
      | skip hj h' => exact .skip hj (product_used f p hp is _ h')

end Verif.Loops.Rev1
