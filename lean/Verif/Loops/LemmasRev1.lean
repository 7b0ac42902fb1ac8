import Verif.Loops.LemmasFor1Col
import Verif.Loops.ModelRev1
import Verif.Loops.SpecRev1

/-
Reverse mode of models with loops: analysis of the request and the equations in loops.
-/
namespace Verif.Loops.Rev1

open Verif.Index Verif.Ranges Verif.Loops.For1

variable {α : Type} [CommRing α]

theorem mem_reqRow {i : Nat} {vars : List Nat} {i' j e : Nat} : (i', j, e) ∈ reqRow i vars ↔ i' = i ∧ vars[e]? = some j := by
  unfold reqRow
  rw [List.mem_map]
  constructor
  · rintro ⟨⟨x, k⟩, hp, h⟩
    simp only [Prod.mk.injEq] at h
    obtain ⟨rfl, rfl, rfl⟩ := h
    rw [List.mem_zipIdx_iff_getElem?] at hp
    exact ⟨rfl, hp⟩
  · rintro ⟨rfl, h⟩
    exact ⟨(j, e), List.mem_zipIdx_iff_getElem?.mpr h, rfl⟩

theorem mem_reqRows {elements : List (Nat × List Nat)} {i j e : Nat} : (i, j, e) ∈ reqRows elements ↔ ∃ vars, (i, vars) ∈ elements ∧ vars[e]? = some j := by
  unfold reqRows
  rw [List.mem_flatMap]
  constructor
  · rintro ⟨c, hc, h⟩
    obtain ⟨hj, he⟩ := mem_reqRow.mp h
    exact ⟨c.2, by rw [hj]; exact hc, he⟩
  · rintro ⟨vars, hc, h⟩
    exact ⟨_, hc, mem_reqRow.mpr ⟨rfl, h⟩⟩

theorem reqRow_pairwise {i : Nat} {vars : List Nat} (h : vars.Nodup) :
    (reqRow i vars).Pairwise fun r r' => ¬ (r.1 = r'.1 ∧ r.2.1 = r'.2.1) := by
  unfold reqRow
  rw [List.pairwise_map, List.pairwise_iff_getElem]
  intro p p' hp hp' hlt
  simp only [List.getElem_zipIdx, true_and]
  simp only [List.length_zipIdx] at hp hp'
  exact fun he => absurd ((List.Nodup.getElem_inj_iff h).mp he) (by omega)

theorem reqRows_pairwise : ∀ {elements : List (Nat × List Nat)}, (elements.map (·.1)).Nodup → (∀ c ∈ elements, c.2.Nodup) →
    (reqRows elements).Pairwise fun r r' => ¬ (r.1 = r'.1 ∧ r.2.1 = r'.2.1)
  | [], _, _ => by simp [reqRows]
  | c :: cs, h1, h2 => by
    rw [List.map_cons, List.nodup_cons] at h1
    have : reqRows (c :: cs) = reqRow c.1 c.2 ++ reqRows cs := by simp [reqRows]
    rw [this, List.pairwise_append]
    refine ⟨reqRow_pairwise (h2 c List.mem_cons_self), reqRows_pairwise h1.2 fun c' h' => h2 c' (List.mem_cons_of_mem _ h'), ?_⟩
    rintro ⟨i, j, e⟩ hr ⟨i', j', e'⟩ hr' ⟨hi, _⟩
    simp only at hi
    obtain ⟨hi1, _⟩ := mem_reqRow.mp hr
    obtain ⟨vars, hm, _⟩ := mem_reqRows.mp hr'
    exact h1.1 (List.mem_map.mpr ⟨_, hm, by simp only; rw [← hi, hi1]⟩)

/-! ### what was evaluated outside of the loops -/

structure NlInv (M : Model) (a : An) : Prop where
  nd : ∀ r < M.nFree, (a.nlEval r).Nodup
  ex : ∀ r < M.nFree, ∀ j ∈ a.nlEval r, ∃ e, e ∈ a.nlLoc r j
  ld : ∀ r j, (a.nlLoc r j).Nodup

theorem stepTmp_nl {n it e i j : Nat} {l : Loop} {fr : Free} : ∀ (ts : List Nat) {info info' : RowInfo} {ev ev' : List Nat} {b : Bool} {nl nl' : Nat → List Nat},
    stepTmp n it e i j l fr ts (info, ev, b, nl) = .ok (info', ev', nl') → ∀ r < fr.eqs.length, nl' r = nl r
  | [], info, info', ev, ev', b, nl, nl', h, r, _ => by
    simp only [stepTmp, Except.ok.injEq, Prod.mk.injEq] at h
    rw [h.2.2]
  | t :: ts, info, info', ev, ev', b, nl, nl', h, r, hr => by
    rw [stepTmp] at h
    split at h
    · simp at h
    · split at h
      · simp at h
      · split at h
        · simp only at h
          split at h
          · simp at h
          · rw [stepTmp_nl ts h r hr, upd, if_neg (by omega)]
        · exact stepTmp_nl ts h r hr

theorem stepRow_nl {M : Model} {l : Loop} {row : List Nat} {it e i j : Nat} {info info' : RowInfo} {ev ev' : List Nat} {nl nl' : Nat → List Nat}
    (h : stepRow M l row it e i j info ev nl = .ok (info', ev', nl')) : ∀ r < M.nFree, nl' r = nl r := by
  intro r hr
  rw [stepRow] at h
  split at h
  · simp at h
  · split at h
    · simp at h
    · split at h
      · simp only [Except.ok.injEq, Prod.mk.injEq] at h
        rw [h.2.2]
      · rename_i fr hf
        refine stepTmp_nl _ h r ?_
        unfold Model.nFree at hr
        rw [hf] at hr
        exact hr

theorem analyse_nl {M : Model} {a a' : An} {r : Nat × Nat × Nat} (h : analyse M a r = .ok a') (hi : NlInv M a) : NlInv M a' := by
  rw [analyse] at h
  split at h
  · split at h
    · simp at h
    · split at h
      · simp at h
      · rename_i il _
        obtain rfl := Except.ok.inj h
        refine ⟨fun r' hr' => ?_, fun r' hr' j hj => ?_, fun r' j => ?_⟩
        · simp only [upd]
          split
          · rename_i he
            exact ins_nodup (hi.nd _ (by rw [← he]; exact hr'))
          · exact hi.nd r' hr'
        · simp only [upd, upd2] at hj ⊢
          by_cases h1 : r' = il
          · rw [if_pos h1] at hj
            by_cases h2 : j = r.2.1
            · rw [if_pos ⟨h1, h2⟩]
              exact ⟨r.2.2, mem_ins.mpr (Or.inr rfl)⟩
            · rw [if_neg fun hh => h2 hh.2]
              rcases mem_ins.mp hj with hj | hj
              · exact hi.ex r' hr' j (by rw [h1]; exact hj)
              · exact absurd hj h2
          · rw [if_neg h1] at hj
            rw [if_neg fun hh => h1 hh.1]
            exact hi.ex r' hr' j hj
        · simp only [upd2]
          split
          · exact ins_nodup (hi.ld _ _)
          · exact hi.ld r' j
  · split at h
    · simp at h
    · split at h
      · simp at h
      · split at h
        · simp at h
        · rename_i hs
          obtain rfl := Except.ok.inj h
          have := stepRow_nl hs
          refine ⟨fun r' hr' => ?_, fun r' hr' j hj => ?_, hi.ld⟩
          · simp only
            rw [this r' hr']
            exact hi.nd r' hr'
          · simp only at hj ⊢
            rw [this r' hr'] at hj
            exact hi.ex r' hr' j hj

theorem analyseAll_nl {M : Model} : ∀ (req : List (Nat × Nat × Nat)) {a a' : An}, analyseAll M req a = .ok a' → NlInv M a → NlInv M a'
  | [], a, a', h, hi => by
    rw [analyseAll] at h
    obtain rfl := Except.ok.inj h
    exact hi
  | r :: rs, a, a', h, hi => by
    rw [analyseAll] at h
    split at h
    · rename_i h1
      exact analyseAll_nl rs h (analyse_nl h1 hi)
    · simp at h

theorem nlInv_nil (M : Model) : NlInv M {} := ⟨by simp, by simp, by simp⟩

theorem analysis {M : Model} (hM : M.Ok) {m : Nat} {elements : List (Nat × List Nat)} (hE : M.Rows m elements) :
    ∃ a, analyseAll M (reqRows elements) {} = .ok a ∧ Inv M (reqRows elements) a ∧ NlInv M a := by
  obtain ⟨a, h1, h2⟩ := analyseAll_inv hM (reqRows elements) (inv_nil M)
    ((reqRows_pairwise hE.rows hE.vars).imp fun h h' => h ⟨h'.1, h'.2.1⟩) (fun _ _ _ _ => by simp) (by
      rintro ⟨i, j, e⟩ hr
      obtain ⟨vars, hm, _⟩ := mem_reqRows.mp hr
      exact hE.computes _ hm)
  rw [List.nil_append] at h2
  exact ⟨a, h1, h2, analyseAll_nl _ h1 (nlInv_nil M)⟩

/-! ### contributions with a factor -/

def rowContrP (l : Loop) (D : Nat → Nat → Nat → α) (a : An) (q : Nat) (G : Nat → Nat → α) (ne : Nat) (py : α) (tapeI : Nat) : List (Contr α) :=
  idxContr (D tapeI) (fun _ => py) (a.row q tapeI).idxPos ++
    nonContr l (D tapeI) (fun _ => py) (a.ev q tapeI) G ne (a.row q tapeI).tmpEvals (a.row q tapeI).nonPos

theorem genRowP_ok {M : Model} {rs : List (Nat × Nat × Nat)} {l : Loop} (hmax : l.iters - 1 ≤ sizeMax) (ht : l.tmp.Nodup) {row : List Nat} {tapeI q : Nat}
    {a : An} (h : RowInv M rs l row tapeI (a.row q tapeI) (a.ev q tapeI) a.nlEval) (D : Nat → Nat → Nat → α) (G : Nat → Nat → α) (py : α)
    {b : Body α} {cs : List (Contr α)} (hb : Meets l.iters true b cs) :
    ∃ b1 b2, genIndexed (D tapeI) (fun _ => py) (a.ev q tapeI) (a.row q tapeI).idxPos b = .ok b1 ∧
      genNon l (D tapeI) (fun _ => py) (a.ev q tapeI) a.nlEval G M.nFree (a.row q tapeI).tmpEvals (a.row q tapeI).nonPos b1 = .ok b2 ∧
      Meets l.iters true b2 (cs ++ rowContrP l D a q G M.nFree py tapeI) := by
  obtain ⟨b1, g1, g2⟩ := genIndexed_ok hmax (D tapeI) (fun _ => py) (a.ev q tapeI) (a.row q tapeI).idxPos h.pi.len h.pi.used (by
    intro p hp
    obtain ⟨it, e, he⟩ := h.pi.used p hp
    refine h.ei p.1 it e ?_
    rw [cell_eq h.pi hp, he]; rfl) hb
  obtain ⟨b2, k1, k2⟩ := genNon_ok hmax l (D tapeI) (fun _ => py) (a.ev q tapeI) a.nlEval G M.nFree (a.row q tapeI).tmpEvals (a.row q tapeI).nonPos
    h.pn.len h.pn.used (by
    intro p hp k hk
    obtain ⟨it, e, he⟩ := h.pn.used p hp
    have hc : cell (a.row q tapeI).nonPos p.1 it = some e := by rw [cell_eq h.pn hp, he]; rfl
    obtain ⟨fr, t, u1, u2, u3, u4, u5⟩ := tmpUse_tape ht (h.tu p.1 k hk)
    obtain ⟨v1, v2⟩ := h.et p.1 it e hc fr t k u1 u2 u3 u4
    exact ⟨t, u5, v1, v2⟩) g2
  refine ⟨b1, b2, g1, k1, ?_⟩
  rwa [List.append_assoc] at k2

theorem rowContrP_eq {n : Nat} {l : Loop} {tapeI q : Nat} {a : An} (hi : PosOk n (a.row q tapeI).idxPos) (hn : PosOk n (a.row q tapeI).nonPos)
    (D : Nat → Nat → Nat → α) (G : Nat → Nat → α) (ne : Nat) (py : α) (e it : Nat) :
    csum (rowContrP l D a q G ne py tapeI) e it = csum (rowContr l D a q G ne tapeI) e it * py := by
  rw [rowContrP, rowContr, csum_append, csum_append, csum_idx hi, csum_idx hi, csum_non hn, csum_non hn, add_mul, Finset.sum_mul, Finset.sum_mul]
  congr 1
  · refine Finset.sum_congr rfl fun t _ => ?_
    split <;> simp
  · refine Finset.sum_congr rfl fun t _ => ?_
    split <;> simp

end Verif.Loops.Rev1
