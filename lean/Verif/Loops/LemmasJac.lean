import Verif.Loops.LemmasInv
import Mathlib.Algebra.BigOperators.Group.Finset.Basic
import Mathlib.Tactic.Ring

/-
The generated loops add the chain rule.
-/
namespace Verif.Loops

open Verif.Index Verif.Ranges

variable {α : Type} [CommRing α]

/-! ### sums -/

theorem list_sum_single {β : Type} [DecidableEq β] {l : List β} (hnd : l.Nodup) (f : β → α) {x : β} (hx : x ∈ l)
    (h : ∀ y ∈ l, y ≠ x → f y = 0) : (l.map f).sum = f x := by
  rw [← List.sum_toFinset f hnd]
  exact Finset.sum_eq_single x (fun y hy hne => h y (List.mem_toFinset.mp hy) hne) fun hn => absurd (List.mem_toFinset.mpr hx) hn

theorem list_sum_zero {β : Type} {l : List β} (f : β → α) (h : ∀ y ∈ l, f y = 0) : (l.map f).sum = 0 := by
  apply List.sum_eq_zero
  intro x hx
  obtain ⟨y, hy, rfl⟩ := List.mem_map.mp hx
  exact h y hy

theorem sum_get (F : Nat → α) : ∀ l : List Nat,
    (∑ p ∈ Finset.range l.length, match l[p]? with | some k => F k | none => 0) = (l.map F).sum
  | [] => by simp
  | k :: l => by
    rw [List.length_cons, Finset.sum_range_succ', List.map_cons, List.sum_cons, ← sum_get F l]
    simp only [List.getElem?_cons_succ, List.getElem?_cons_zero]
    rw [add_comm]

theorem csum_append (cs ds : List (Contr α)) (e it : Nat) : csum (cs ++ ds) e it = csum cs e it + csum ds e it := by
  simp [csum]

theorem csum_flatMap (f : Nat → List (Contr α)) (e it : Nat) : ∀ l : List Nat,
    csum (l.flatMap f) e it = (l.map fun x => csum (f x) e it).sum
  | [] => by simp [csum]
  | x :: l => by rw [List.flatMap_cons, csum_append, csum_flatMap f e it l, List.map_cons, List.sum_cons]

/-- the chain rule with the look-ups of the code -/
theorem chain_eq {l : Loop} (hn : l.non.Nodup) (ht : l.tmp.Nodup) (D : Nat → α) (dz : Nat → Nat → α) (it j : Nat) :
    l.chain D dz it j = (∑ t ∈ Finset.range l.ind.length, if l.var t it = some j then D t else 0) +
      (match nonTape l j with | some t => D t | none => 0) + (l.tmp.map fun k => D ((tmpTape l k).getD 0) * dz k j).sum := by
  unfold Loop.chain
  congr 1
  · congr 1
    cases hl : lastIdx l.non j with
    | none =>
      simp only [nonTape, hl, Option.map_none]
      refine Finset.sum_eq_zero fun p _ => if_neg ?_
      intro hp
      rw [lastIdx_eq hn hp] at hl
      simp at hl
    | some p0 =>
      have h0 := lastIdx_some hl
      simp only [nonTape, hl, Option.map_some]
      rw [Finset.sum_eq_single p0]
      · rw [if_pos h0]
      · intro p _ hne
        refine if_neg fun hp => hne ?_
        rw [lastIdx_eq hn hp] at hl
        exact Option.some.inj hl
      · intro hp
        exact absurd (Finset.mem_range.mpr (List.getElem?_eq_some_iff.mp h0).1) hp
  · rw [← sum_get]
    refine Finset.sum_congr rfl fun p _ => ?_
    cases hp : l.tmp[p]? with
    | none => rfl
    | some k =>
      simp only [tmpTape, lastIdx_eq ht hp, Option.map_some, Option.getD_some]

/-! ### generated contributions -/

def idxContr (D : Nat → Nat → α) (py : Nat → α) (m : Map (List (Option Nat))) : List (Contr α) :=
  m.map fun p => ⟨fun it => D p.1 it * py it, fun it => (p.2[it]?).join⟩

/-- value of a non-indexed variable's contribution -/
def nonVal (l : Loop) (D : Nat → Nat → α) (ev : List Nat) (G : Nat → Nat → α) (ne : Nat) (te : Map (List Nat)) (j it : Nat) : α :=
  ((nonTape l j).bind (dy D ev)).getD (fun _ => 0) it +
    (((te.get j).getD []).map fun k => D ((tmpTape l k).getD 0) it * G (ne + k) j).sum

def nonContr (l : Loop) (D : Nat → Nat → α) (py : Nat → α) (ev : List Nat) (G : Nat → Nat → α) (ne : Nat) (te : Map (List Nat))
    (m : Map (List (Option Nat))) : List (Contr α) :=
  m.map fun p => ⟨fun it => nonVal l D ev G ne te p.1 it * py it, fun it => (p.2[it]?).join⟩

theorem genIndexed_ok {n : Nat} (hmax : n - 1 ≤ sizeMax) (D : Nat → Nat → α) (py : Nat → α) (ev : List Nat) :
    ∀ (m : Map (List (Option Nat))), (∀ p ∈ m, p.2.length = n) → (∀ p ∈ m, ∃ it e : Nat, p.2[it]? = some (some e)) →
    (∀ p ∈ m, p.1 ∈ ev) → ∀ {b : Body α} {cs : List (Contr α)}, Meets n true b cs →
    ∃ b', genIndexed D py ev m b = .ok b' ∧ Meets n true b' (cs ++ idxContr D py m)
  | [], _, _, _, b, cs, hb => ⟨b, rfl, by simpa [idxContr] using hb⟩
  | (t, pos) :: m, hl, hu, he, b, cs, hb => by
    obtain ⟨b1, g1, g2⟩ := jacElement_ok hmax hb (hl _ List.mem_cons_self) (hu _ List.mem_cons_self) fun it => D t it * py it
    obtain ⟨b2, k1, k2⟩ := genIndexed_ok hmax D py ev m (fun p hp => hl p (List.mem_cons_of_mem _ hp))
      (fun p hp => hu p (List.mem_cons_of_mem _ hp)) (fun p hp => he p (List.mem_cons_of_mem _ hp)) g2
    refine ⟨b2, ?_, ?_⟩
    · rw [genIndexed, dy, if_pos (he _ List.mem_cons_self)]
      simp only at g1 ⊢
      rw [g1]
      exact k1
    · rwa [List.append_assoc] at k2

theorem tmpSum_ok (l : Loop) (D : Nat → Nat → α) (ev : List Nat) (nl : Nat → List Nat) (G : Nat → Nat → α) (ne j : Nat) :
    ∀ (ks : List Nat), (∀ k ∈ ks, ∃ t, tmpTape l k = some t ∧ t ∈ ev ∧ j ∈ nl (ne + k)) → ∀ v : Nat → α,
    ∃ w, tmpSum l D ev nl G ne j ks v = some w ∧ ∀ it, w it = v it + (ks.map fun k => D ((tmpTape l k).getD 0) it * G (ne + k) j).sum
  | [], _, v => ⟨v, rfl, fun it => by simp⟩
  | k :: ks, h, v => by
    obtain ⟨t, h1, h2, h3⟩ := h k List.mem_cons_self
    obtain ⟨w, g1, g2⟩ := tmpSum_ok l D ev nl G ne j ks (fun k' hk' => h k' (List.mem_cons_of_mem _ hk')) fun it => v it + D t it * G (ne + k) j
    refine ⟨w, ?_, fun it => ?_⟩
    · rw [tmpSum, h1]
      simp only
      rw [dy, if_pos h2]
      simp only
      rw [if_pos h3, g1]
    · rw [g2, List.map_cons, List.sum_cons, h1, Option.getD_some, add_assoc]

theorem genNon_ok {n : Nat} (hmax : n - 1 ≤ sizeMax) (l : Loop) (D : Nat → Nat → α) (py : Nat → α) (ev : List Nat) (nl : Nat → List Nat)
    (G : Nat → Nat → α) (ne : Nat) (te : Map (List Nat)) :
    ∀ (m : Map (List (Option Nat))), (∀ p ∈ m, p.2.length = n) → (∀ p ∈ m, ∃ it e : Nat, p.2[it]? = some (some e)) →
    (∀ p ∈ m, ∀ k ∈ (te.get p.1).getD [], ∃ t, tmpTape l k = some t ∧ t ∈ ev ∧ p.1 ∈ nl (ne + k)) →
    ∀ {b : Body α} {cs : List (Contr α)}, Meets n true b cs →
    ∃ b', genNon l D py ev nl G ne te m b = .ok b' ∧ Meets n true b' (cs ++ nonContr l D py ev G ne te m)
  | [], _, _, _, b, cs, hb => ⟨b, rfl, by simpa [nonContr] using hb⟩
  | (j, pos) :: m, hl, hu, he, b, cs, hb => by
    rw [genNon]
    obtain ⟨w, w1, w2⟩ := tmpSum_ok l D ev nl G ne j ((te.get j).getD []) (he _ List.mem_cons_self)
      (((nonTape l j).bind (dy D ev)).getD fun _ => 0)
    rw [w1]
    simp only
    obtain ⟨b1, g1, g2⟩ := jacElement_ok hmax hb (hl _ List.mem_cons_self) (hu _ List.mem_cons_self) fun it => w it * py it
    obtain ⟨b2, k1, k2⟩ := genNon_ok hmax l D py ev nl G ne te m (fun p hp => hl p (List.mem_cons_of_mem _ hp))
      (fun p hp => hu p (List.mem_cons_of_mem _ hp)) (fun p hp => he p (List.mem_cons_of_mem _ hp)) g2
    simp only at g1
    rw [g1]
    refine ⟨b2, k1, ?_⟩
    rw [List.append_assoc] at k2
    have : (fun it => w it * py it) = fun it => nonVal l D ev G ne te j it * py it := by
      funext it
      rw [w2, nonVal]
    rw [this] at k2
    exact k2

/-- contributions of one tape equation -/
def rowContr (l : Loop) (D : Nat → Nat → Nat → α) (a : An) (q : Nat) (G : Nat → Nat → α) (ne tapeI : Nat) : List (Contr α) :=
  idxContr (D tapeI) (fun _ => 1) (a.row q tapeI).idxPos ++
    nonContr l (D tapeI) (fun _ => 1) (a.ev q tapeI) G ne (a.row q tapeI).tmpEvals (a.row q tapeI).nonPos

theorem tmpUse_tape {M : Model} {l : Loop} (ht : l.tmp.Nodup) {row : List Nat} {j k : Nat} (h : TmpUse M l row j k) :
    ∃ fr t, M.free = some fr ∧ t ∈ row ∧ l.ind.length + l.non.length ≤ t ∧ TmpAt l fr j t k ∧ tmpTape l k = some t := by
  obtain ⟨fr, t, h1, h2, h3, h4⟩ := h
  refine ⟨fr, t, h1, h2, h3, h4, ?_⟩
  rw [tmpTape, lastIdx_eq ht h4.1, Option.map_some]
  congr 1
  omega

theorem genRow_ok {M : Model} {rs : List (Nat × Nat × Nat)} {l : Loop} (hmax : l.iters - 1 ≤ sizeMax) (ht : l.tmp.Nodup) {row : List Nat} {tapeI q : Nat}
    {a : An} (h : RowInv M rs l row tapeI (a.row q tapeI) (a.ev q tapeI) a.nlEval) (D : Nat → Nat → Nat → α) (G : Nat → Nat → α)
    {b : Body α} {cs : List (Contr α)} (hb : Meets l.iters true b cs) :
    ∃ b1 b2, genIndexed (D tapeI) (fun _ => 1) (a.ev q tapeI) (a.row q tapeI).idxPos b = .ok b1 ∧
      genNon l (D tapeI) (fun _ => 1) (a.ev q tapeI) a.nlEval G M.nFree (a.row q tapeI).tmpEvals (a.row q tapeI).nonPos b1 = .ok b2 ∧
      Meets l.iters true b2 (cs ++ rowContr l D a q G M.nFree tapeI) := by
  obtain ⟨b1, g1, g2⟩ := genIndexed_ok hmax (D tapeI) (fun _ => 1) (a.ev q tapeI) (a.row q tapeI).idxPos h.pi.len h.pi.used (by
    intro p hp
    obtain ⟨it, e, he⟩ := h.pi.used p hp
    refine h.ei p.1 it e ?_
    rw [cell_eq h.pi hp, he]; rfl) hb
  obtain ⟨b2, k1, k2⟩ := genNon_ok hmax l (D tapeI) (fun _ => 1) (a.ev q tapeI) a.nlEval G M.nFree (a.row q tapeI).tmpEvals (a.row q tapeI).nonPos
    h.pn.len h.pn.used (by
    intro p hp k hk
    obtain ⟨it, e, he⟩ := h.pn.used p hp
    have hc : cell (a.row q tapeI).nonPos p.1 it = some e := by rw [cell_eq h.pn hp, he]; rfl
    obtain ⟨fr, t, u1, u2, u3, u4, u5⟩ := tmpUse_tape ht (h.tu p.1 k hk)
    obtain ⟨v1, v2⟩ := h.et p.1 it e hc fr t k u1 u2 u3 u4
    exact ⟨t, u5, v1, v2⟩) g2
  refine ⟨b1, b2, g1, k1, ?_⟩
  rwa [List.append_assoc] at k2

theorem genRows_ok {M : Model} (hM : M.Ok) {rs : List (Nat × Nat × Nat)} {a : An} (h : Inv M rs a) {q : Nat} {l : Loop} {jac : List (List Nat)}
    (hl : M.loops[q]? = some (l, jac)) (hmax : l.iters - 1 ≤ sizeMax) (D : Nat → Nat → Nat → α) (G : Nat → Nat → α) :
    ∀ (ts : List Nat), (∀ t ∈ ts, t < l.dep.length) → ∀ {b : Body α} {cs : List (Contr α)}, Meets l.iters true b cs →
    ∃ b', genRows l D a q G M.nFree ts b = .ok b' ∧ Meets l.iters true b' (cs ++ ts.flatMap (rowContr l D a q G M.nFree))
  | [], _, b, cs, hb => ⟨b, rfl, by simpa using hb⟩
  | t :: ts, ht, b, cs, hb => by
    have htl : t < jac.length := by rw [hM.rows q l jac hl]; exact ht t List.mem_cons_self
    have hI := h.row q l jac hl t jac[t] (List.getElem?_eq_getElem htl)
    obtain ⟨b1, b2, g1, g2, g3⟩ := genRow_ok hmax (hM.tmp q l jac hl) hI D G hb
    obtain ⟨b3, k1, k2⟩ := genRows_ok hM h hl hmax D G ts (fun t' ht' => ht t' (List.mem_cons_of_mem _ ht')) g3
    refine ⟨b3, ?_, ?_⟩
    · rw [genRows, g1]
      simp only
      rw [g2]
      exact k1
    · rwa [List.append_assoc] at k2

/-! ### sums of the contributions of one tape equation -/

theorem csum_idx {m : Map (List (Option Nat))} {n : Nat} (hm : PosOk n m) (D : Nat → Nat → α) (py : Nat → α) (e it : Nat) :
    csum (idxContr D py m) e it = ∑ t ∈ (m.map (·.1)).toFinset, if cell m t it = some e then D t it * py it else 0 := by
  rw [List.sum_toFinset _ hm.nodup, csum, idxContr, List.map_map, List.map_map]
  congr 1
  refine List.map_congr_left fun p hp => ?_
  simp only [Function.comp_apply]
  rw [cell_eq hm hp]

theorem csum_non {m : Map (List (Option Nat))} {n : Nat} (hm : PosOk n m) (l : Loop) (D : Nat → Nat → α) (py : Nat → α) (ev : List Nat)
    (G : Nat → Nat → α) (ne : Nat) (te : Map (List Nat)) (e it : Nat) :
    csum (nonContr l D py ev G ne te m) e it =
      ∑ j ∈ (m.map (·.1)).toFinset, if cell m j it = some e then nonVal l D ev G ne te j it * py it else 0 := by
  rw [List.sum_toFinset _ hm.nodup, csum, nonContr, List.map_map, List.map_map]
  congr 1
  refine List.map_congr_left fun p hp => ?_
  simp only [Function.comp_apply]
  rw [cell_eq hm hp]

theorem key_of_cell {m : Map (List (Option Nat))} {k it e : Nat} (h : cell m k it = some e) : k ∈ (m.map (·.1)).toFinset := by
  obtain ⟨pos, hp⟩ := cell_key h
  exact List.mem_toFinset.mpr (List.mem_map.mpr ⟨_, hp, rfl⟩)

/-- nothing is added to elements of other equations -/
theorem rowContr_zero {M : Model} {rs : List (Nat × Nat × Nat)} {l : Loop} {row : List Nat} {tapeI q : Nat}
    {a : An} (h : RowInv M rs l row tapeI (a.row q tapeI) (a.ev q tapeI) a.nlEval) (D : Nat → Nat → Nat → α) (G : Nat → Nat → α) (ne : Nat)
    {e it : Nat} (hno : ∀ i j, (i, j, e) ∈ rs → l.eq tapeI it ≠ some i) : csum (rowContr l D a q G ne tapeI) e it = 0 := by
  rw [rowContr, csum_append, csum_idx h.pi, csum_non h.pn]
  rw [Finset.sum_eq_zero, Finset.sum_eq_zero, add_zero]
  · intro j _
    refine if_neg fun hc => ?_
    obtain ⟨i, h1, h2, _⟩ := (h.cn j it e).mp hc
    exact hno i j h1 h2
  · intro t _
    refine if_neg fun hc => ?_
    obtain ⟨i, j, h1, h2, _⟩ := (h.ci t it e).mp hc
    exact hno i j h1 h2

/-- the chain rule is added to a requested element -/
theorem rowContr_chain {M : Model} {rs : List (Nat × Nat × Nat)} (hloc : ∀ r ∈ rs, ∀ r' ∈ rs, r.2.2 = r'.2.2 → r = r')
    {l : Loop} (hn : l.non.Nodup) (ht : l.tmp.Nodup) (htmp : ∀ k ∈ l.tmp, ∃ fr, M.free = some fr ∧ fr.eqs.length + k < fr.jac.length)
    {row : List Nat} {tapeI q : Nat}
    {a : An} (h : RowInv M rs l row tapeI (a.row q tapeI) (a.ev q tapeI) a.nlEval) (D : Nat → Nat → Nat → α) (G : Nat → Nat → α)
    (hD : ∀ t it, t ∉ row → D tapeI t it = 0)
    (hG : ∀ fr, M.free = some fr → ∀ (r : Nat) (sp : List Nat), fr.jac[r]? = some sp → ∀ j, j ∉ sp → G r j = 0)
    {i j e it : Nat} (hr : (i, j, e) ∈ rs) (hi : l.eq tapeI it = some i) :
    csum (rowContr l D a q G M.nFree tapeI) e it = l.chain (fun t => D tapeI t it) (fun k j => G (M.nFree + k) j) it j := by
  have hun : ∀ i' j', (i', j', e) ∈ rs → i' = i ∧ j' = j := by
    intro i' j' h'
    have := hloc _ h' _ hr rfl
    simp only [Prod.mk.injEq, and_true] at this
    exact this
  have hcell : ∀ t, cell (a.row q tapeI).idxPos t it = some e ↔ l.var t it = some j ∧ t ∈ row := by
    intro t
    rw [h.ci]
    constructor
    · rintro ⟨i', j', h1, _, h3, h4⟩
      rw [(hun i' j' h1).2] at h3
      exact ⟨h3, h4⟩
    · rintro ⟨h3, h4⟩
      exact ⟨i, j, hr, hi, h3, h4⟩
  have hcelln : ∀ j', cell (a.row q tapeI).nonPos j' it = some e ↔ j' = j ∧ Uses M l row j := by
    intro j'
    rw [h.cn]
    constructor
    · rintro ⟨i', h1, _, h3⟩
      obtain rfl := (hun i' j' h1).2
      exact ⟨rfl, h3⟩
    · rintro ⟨rfl, h3⟩
      exact ⟨i, hr, hi, h3⟩
  -- temporaries which are not used do not count
  have hF : ∀ k ∈ l.tmp, ¬ TmpUse M l row j k → D tapeI ((tmpTape l k).getD 0) it * G (M.nFree + k) j = 0 := by
    intro k hk hnu
    obtain ⟨p, hp⟩ := List.getElem?_of_mem hk
    obtain ⟨fr, hfr, hlt⟩ := htmp k hk
    have htape : tmpTape l k = some (l.ind.length + l.non.length + p) := by rw [tmpTape, lastIdx_eq ht hp]; rfl
    rw [htape, Option.getD_some]
    by_cases hrow : l.ind.length + l.non.length + p ∈ row
    · have hnf : M.nFree = fr.eqs.length := by unfold Model.nFree; rw [hfr]
      rw [hG fr hfr (M.nFree + k) fr.jac[fr.eqs.length + k] (by rw [hnf]; exact List.getElem?_eq_getElem hlt) j, mul_zero]
      intro hj
      refine hnu ⟨fr, _, hfr, hrow, by omega, ?_, fr.jac[fr.eqs.length + k], List.getElem?_eq_getElem hlt, hj⟩
      rw [show l.ind.length + l.non.length + p - l.ind.length - l.non.length = p by omega]
      exact hp
    · rw [hD _ _ hrow, zero_mul]
  rw [rowContr, csum_append, csum_idx h.pi, csum_non h.pn, chain_eq hn ht, add_assoc]
  congr 1
  · refine Finset.sum_congr_of_eq_on_inter ?_ ?_ ?_
    · intro t ht1 ht2
      refine if_neg fun hc => ht2 ?_
      have := ((hcell t).mp hc).1
      rw [Finset.mem_range]
      by_contra hlt
      unfold Loop.var at this
      rw [List.getElem?_eq_none (by omega)] at this
      simp at this
    · intro t _ ht2
      by_cases hv : l.var t it = some j
      · rw [if_pos hv]
        refine hD t it fun hrow => ht2 ?_
        exact key_of_cell ((hcell t).mpr ⟨hv, hrow⟩)
      · rw [if_neg hv]
    · intro t _ _
      by_cases hv : l.var t it = some j
      · rw [if_pos hv]
        by_cases hrow : t ∈ row
        · rw [if_pos ((hcell t).mpr ⟨hv, hrow⟩), mul_one]
        · rw [if_neg fun hc => hrow ((hcell t).mp hc).2, hD t it hrow]
      · rw [if_neg hv, if_neg fun hc => hv ((hcell t).mp hc).1]
  · by_cases hu : Uses M l row j
    · have hc := (hcelln j).mpr ⟨rfl, hu⟩
      rw [Finset.sum_eq_single j]
      rotate_left
      · intro j' _ hne
        exact if_neg fun hc' => hne ((hcelln j').mp hc').1
      · intro hn
        exact absurd (key_of_cell hc) hn
      rw [if_pos hc, mul_one, nonVal]
      congr 1
      · cases hnt : nonTape l j with
        | none => simp
        | some t =>
          rw [Option.bind_some]
          unfold dy
          by_cases hev : t ∈ a.ev q tapeI
          · rw [if_pos hev]; rfl
          · rw [if_neg hev]
            simp only [Option.getD_none]
            rw [hD t it]
            exact fun hrow => hev (h.en j it e hc t hnt hrow)
      · rw [← List.sum_toFinset _ (h.td j), ← List.sum_toFinset _ ht]
        refine Finset.sum_subset ?_ ?_
        · intro k hk
          obtain ⟨fr, t, _, _, _, h4, _⟩ := tmpUse_tape ht (h.tu j k (List.mem_toFinset.mp hk))
          exact List.mem_toFinset.mpr (List.mem_of_getElem? h4.1)
        · intro k hk hnk
          refine hF k (List.mem_toFinset.mp hk) fun hku => hnk ?_
          exact List.mem_toFinset.mpr (h.tl j it e hc k hku)
    · rw [Finset.sum_eq_zero fun j' _ => if_neg fun hc => hu ((hcelln j').mp hc).2]
      rw [list_sum_zero _ fun k hk => hF k hk fun hku => hu (Or.inr ⟨k, hku⟩)]
      rw [add_zero]
      cases hnt : nonTape l j with
      | none => rfl
      | some t =>
        simp only
        rw [hD t it]
        exact fun hrow => hu (Or.inl ⟨t, hnt, hrow⟩)

/-! ### all loops -/

/-- what loop `q` adds to element `e` -/
def loopSum (M : Model) (D : Nat → Nat → Nat → Nat → α) (G : Nat → Nat → α) (a : An) (e q : Nat) : α :=
  match M.loops[q]? with
  | none => 0
  | some (l, _) => ∑ it ∈ Finset.range l.iters,
      ((List.range l.dep.length).map fun t => csum (rowContr l (D q) a q G M.nFree t) e it).sum

theorem rowContr_nil {M : Model} {rs : List (Nat × Nat × Nat)} {l : Loop} {row : List Nat} {tapeI q : Nat}
    {a : An} (h : RowInv M rs l row tapeI (a.row q tapeI) (a.ev q tapeI) a.nlEval) (hev : a.ev q tapeI = []) (D : Nat → Nat → Nat → α)
    (G : Nat → Nat → α) (ne : Nat) : rowContr l D a q G ne tapeI = [] := by
  have h1 : (a.row q tapeI).idxPos = [] := by
    cases hm : (a.row q tapeI).idxPos with
    | nil => rfl
    | cons p m =>
      have hp : p ∈ (a.row q tapeI).idxPos := by rw [hm]; exact List.mem_cons_self
      obtain ⟨it, e, he⟩ := h.pi.used p hp
      have := h.ei p.1 it e (by rw [cell_eq h.pi hp, he]; rfl)
      rw [hev] at this; simp at this
  have h2 : (a.row q tapeI).nonPos = [] := by
    cases hm : (a.row q tapeI).nonPos with
    | nil => rfl
    | cons p m =>
      have hp : p ∈ (a.row q tapeI).nonPos := by rw [hm]; exact List.mem_cons_self
      obtain ⟨it, e, he⟩ := h.pn.used p hp
      have hc : cell (a.row q tapeI).nonPos p.1 it = some e := by rw [cell_eq h.pn hp, he]; rfl
      obtain ⟨_, _, _, hu⟩ := (h.cn p.1 it e).mp hc
      rcases hu with ⟨t, u1, u2⟩ | ⟨k, fr, t, u1, u2, u3, u4⟩
      · have := h.en p.1 it e hc t u1 u2
        rw [hev] at this; simp at this
      · have := (h.et p.1 it e hc fr t k u1 u2 u3 u4).1
        rw [hev] at this; simp at this
  simp [rowContr, h1, h2, idxContr, nonContr]

theorem runLoops_ok {M : Model} (hM : M.Ok) {rs : List (Nat × Nat × Nat)} {a : An} (h : Inv M rs a) (D : Nat → Nat → Nat → Nat → α)
    (G : Nat → Nat → α) : ∀ (qs : List Nat), (∀ q ∈ qs, q < M.loops.length) → ∀ out : Nat → α,
    ∃ o, runLoops M D G M.nFree a qs out = .ok o ∧ ∀ e, o e = out e + (qs.map (loopSum M D G a e)).sum
  | [], _, out => ⟨out, rfl, fun e => by simp⟩
  | q :: qs, hq, out => by
    have hlt := hq q List.mem_cons_self
    obtain ⟨⟨l, jac⟩, hl⟩ : ∃ x, M.loops[q]? = some x := ⟨_, List.getElem?_eq_getElem hlt⟩
    rw [runLoops, hl]
    simp only
    by_cases hall : (List.range l.dep.length).all (fun tapeI => (a.ev q tapeI).isEmpty)
    · rw [if_pos hall]
      obtain ⟨o, h1, h2⟩ := runLoops_ok hM h D G qs (fun q' h' => hq q' (List.mem_cons_of_mem _ h')) out
      refine ⟨o, h1, fun e => ?_⟩
      rw [h2, List.map_cons, List.sum_cons]
      have : loopSum M D G a e q = 0 := by
        rw [loopSum, hl]
        simp only
        refine Finset.sum_eq_zero fun it _ => list_sum_zero _ fun t ht => ?_
        rw [List.mem_range] at ht
        have htl : t < jac.length := by rw [hM.rows q l jac hl]; exact ht
        have hI := h.row q l jac hl t jac[t] (List.getElem?_eq_getElem htl)
        rw [rowContr_nil hI]
        · simp [csum]
        · have := List.all_eq_true.mp hall t (List.mem_range.mpr ht)
          simpa using this
      rw [this, zero_add]
    · rw [if_neg hall]
      have hmax : l.iters - 1 ≤ sizeMax := by
        have := hM.iters q l jac hl
        unfold sizeMax
        omega
      obtain ⟨b, g1, g2⟩ := genRows_ok hM h hl hmax (D q) G (List.range l.dep.length) (fun t ht => List.mem_range.mp ht) (meets_empty l.iters true)
      rw [g1]
      simp only
      obtain ⟨o1, k1, k2⟩ := meets_run g2 out
      rw [k1]
      simp only
      obtain ⟨o, h1, h2⟩ := runLoops_ok hM h D G qs (fun q' h' => hq q' (List.mem_cons_of_mem _ h')) o1
      refine ⟨o, h1, fun e => ?_⟩
      rw [h2, k2, List.map_cons, List.sum_cons, add_assoc]
      congr 2
      rw [loopSum, hl]
      simp only
      refine Finset.sum_congr rfl fun it _ => ?_
      rw [List.nil_append, csum_flatMap]

/-! ### equations outside of the loops -/

theorem foldl_upd (e : Nat) (v : α) : ∀ (ps : List (Nat × α)) (out : Nat → α),
    (∀ p ∈ ps, p.1 = e → p.2 = v) → ((∃ p ∈ ps, p.1 = e) ∨ out e = v) → ps.foldl (fun out p => upd out p.1 p.2) out e = v
  | [], out, _, h => by
    rcases h with ⟨p, hp, _⟩ | h
    · simp at hp
    · exact h
  | p :: ps, out, h1, h2 => by
    rw [List.foldl_cons]
    refine foldl_upd e v ps _ (fun p' hp' => h1 p' (List.mem_cons_of_mem _ hp')) ?_
    by_cases hp : p.1 = e
    · right
      simp only [upd]
      rw [if_pos hp.symm]
      exact h1 p List.mem_cons_self hp
    · rcases h2 with ⟨p', hp', he⟩ | h2
      · rcases List.mem_cons.mp hp' with rfl | hp'
        · exact absurd he hp
        · exact Or.inl ⟨p', hp', he⟩
      · right
        simp only [upd]
        rw [if_neg (Ne.symm hp)]
        exact h2

theorem freeOut_eq {M : Model} {fr : Free} (hfr : M.free = some fr) (G : Nat → Nat → α) (a : An) :
    freeOut M G a = ((List.range fr.eqs.length).flatMap fun r => (a.nlEval r).flatMap fun j => (a.nlLoc r j).map fun e => (e, G r j)).foldl
      (fun out p => upd out p.1 p.2) fun _ => 0 := by
  unfold freeOut
  rw [hfr]
  simp only [List.foldl_flatMap, List.foldl_map]

end Verif.Loops
