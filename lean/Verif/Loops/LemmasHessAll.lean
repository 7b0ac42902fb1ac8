import Verif.Loops.LemmasHessSum
import Mathlib.Algebra.BigOperators.Group.Finset.Sigma

/-
All loops, the equations outside of the loops and the use of symmetry.
-/
namespace Verif.Loops

open Verif.Index Verif.Ranges

variable {α : Type} [CommRing α]

theorem cxOk {M : Model} (hM : M.Ok) (hu : M.AllUsed) {P : Hes} (hs : ∀ q I t1 t2, t2 ∈ P.row q I t1 → t1 ∈ P.row q I t2) {q : Nat} {l : Loop} {jac : List (List Nat)}
    (hl : M.loops[q]? = some (l, jac)) : CxOk (cxOf M P true q l jac) where
  sym := rfl
  gs := rfl
  non := hM.non q l jac hl
  tmp := hM.tmp q l jac hl
  temps := hM.temps q l jac hl
  rowSym g t1 t2 h := hs _ _ _ _ h
  its p hp := by
    obtain ⟨⟨gr, g⟩, h1, rfl⟩ := List.mem_map.mp hp
    simp only
    have hgr : gr ∈ groups l := by
      have := List.mem_zipIdx h1
      simp only [Nat.sub_zero] at this
      rw [this.2.2]
      exact List.getElem_mem _
    obtain ⟨i, hi, h2, _⟩ := group_mem hgr
    obtain ⟨it, o, ho⟩ := hu q l jac hl i hi
    have hb := eq_bounds (hM.deps q l jac hl) ho
    rw [h2]
    intro h0
    have : it ∈ itersOf l i := mem_itersOf.mpr ⟨hb.2, by rw [ho]; rfl⟩
    rw [h0] at this
    simp at this
  jac := hM.rows q l jac hl

section
variable {M : Model} (hM : M.Ok) (hu : M.AllUsed) {P : Hes} {H : Nat → Nat → Nat → Nat → Nat → α} {D : Nat → Nat → Nat → Nat → α} {G : Nat → Nat → α}
  {G2 : Nat → Nat → Nat → α} (hc1 : M.Covers D G) (hc2 : M.Covers2 P H G2)
include hM hu hc1 hc2

theorem nFree_eq {fr : Free} (hf : M.free = some fr) : fr.eqs.length = M.nFree := by
  simp [Model.nFree, hf]

theorem dep_false {q : Nat} {l : Loop} {jac : List (List Nat)} (hl : M.loops[q]? = some (l, jac)) {fr : Free} (hf : M.free = some fr) {k : Nat} (hk : k ∈ l.tmp)
    {j : Nat} (h : fr.dep k j = false) : ∃ sp, fr.jac[M.nFree + k]? = some sp ∧ j ∉ sp := by
  obtain ⟨fr', hf', hlt⟩ := hM.temps q l jac hl k hk
  rw [hf] at hf'
  obtain rfl := Option.some.inj hf'
  rw [nFree_eq hM hu hc1 hc2 hf] at hlt
  refine ⟨_, List.getElem?_eq_getElem hlt, ?_⟩
  unfold Free.dep at h
  rw [nFree_eq hM hu hc1 hc2 hf, List.getElem?_eq_getElem hlt] at h
  simpa using h

theorem der_ok {q : Nat} {l : Loop} {jac : List (List Nat)} (hl : M.loops[q]? = some (l, jac)) (W : Int → α) : ∀ gp ∈ (cxOf M P true q l jac).gs, ∀ it,
    Der (cxOf M P true q l jac) gp.1 (fun t1 t2 => hgv (cxOf M P true q l jac).l W (H q) gp.2 t1 t2 it) fun k j => G (M.nFree + k) j := by
  intro gp hgp it
  obtain ⟨g, gr⟩ := gp
  have hgr := (cxOk hM hu hc2.rowSym hl).mem_gs.mp hgp
  refine ⟨fun t1 t2 => ?_, fun t1 t2 h => ?_, fun fr hf k hk j h => ?_⟩
  · exact lsum_congr fun i _ => by rw [hc2.symH]
  · refine lsum_zero fun i hi => ?_
    rw [hc2.loops q gr.tapeI i hi t1 t2 _ it, mul_zero]
    intro hm
    apply h
    change t2 ∈ P.row q ((((groups l)[g]?).map (·.tapeI)).getD []) t1
    have hgr' : (groups l)[g]? = some gr := hgr
    rw [hgr']
    exact hm
  · obtain ⟨sp, h1, h2⟩ := dep_false hM hu hc1 hc2 hl hf hk h
    exact hc1.free fr hf _ sp h1 j h2

/-- what a loop adds for an element -/
def hessTerm (M : Model) (W : Int → α) (H : Nat → Nat → Nat → Nat → Nat → α) (D : Nat → Nat → Nat → Nat → α) (G : Nat → Nat → α) (G2 : Nat → Nat → Nat → α) (j1 j2 q : Nat) : α :=
  match M.loops[q]? with
    | some lj => lj.1.hess (fun o => W o) (H q) (D q) (fun k j => G (M.nFree + k) j) (fun k j1 j2 => G2 (M.nFree + k) j1 j2) j1 j2
    | none => 0

theorem lucky_ok {req : List (Nat × Nat × Nat)} (hE : ∀ r ∈ req, M.Findable P r.1 r.2.1) {q : Nat} {l : Loop} {jac : List (List Nat)} (hl : M.loops[q]? = some (l, jac)) :
    Lucky (cxOf M P true q l jac) req := by
  intro g j1 j2 e fr k pk p2 hr hct hn hrow
  have hf : M.free = some fr := hct.free
  obtain ⟨s, hs, rfl⟩ := (tmpTape_eq (hM.tmp q l jac hl)).mp hct.tape
  obtain ⟨p, hp, rfl⟩ : ∃ p, l.non[p]? = some j2 ∧ p2 = l.ind.length + p := by
    obtain ⟨p, h1, rfl⟩ := Option.map_eq_some_iff.mp hn
    exact ⟨p, lastIdx_some h1, rfl⟩
  have hdep := hct.dep
  unfold Free.dep at hdep
  cases hsp : fr.jac[fr.eqs.length + k]? with
  | none => rw [hsp] at hdep; simp at hdep
  | some sp =>
    rw [hsp] at hdep
    exact hE _ hr q l jac _ p s k fr sp hl hp hs hf hsp (by simpa using hdep) hrow

theorem runHess_ok {isZ : (Nat → α) → Bool} (hz : ∀ f, isZ f = true → ∀ it, f it = 0) (W : Int → α) {req : List (Nat × Nat × Nat)} (hr : ReqOk req)
    (hE : ∀ r ∈ req, M.Findable P r.1 r.2.1) : ∀ (qs : List Nat), (∀ q ∈ qs, q < M.loops.length) → ∀ out : Nat → α,
    ∃ o, runHess M P isZ W H D G G2 req qs out = .ok o ∧ ∀ e, o e = out e + lsum qs fun q => lsum req fun r => if r.2.2 = e then hessTerm M W H D G G2 r.1 r.2.1 q else 0
  | [], _, out => ⟨out, rfl, fun e => by simp⟩
  | q :: qs, hq, out => by
    have hlt := hq q List.mem_cons_self
    obtain ⟨⟨l, jac⟩, hl⟩ : ∃ x, M.loops[q]? = some x := ⟨_, List.getElem?_eq_getElem hlt⟩
    have hw : writes M P true req q = req.flatMap (wLoop (cxOf M P true q l jac)) := by simp only [writes, hl]
    have hok := cxOk hM hu hc2.rowSym hl
    have hall : ∀ w ∈ req.flatMap (wLoop (cxOf M P true q l jac)), w ∈ allWrites M P true req := by
      intro w h
      rw [← hw] at h
      exact List.mem_flatMap.mpr ⟨q, List.mem_range.mpr hlt, h⟩
    have hlk := lucky_ok hM hu hc1 hc2 hE hl
    have hD : ∀ (i : Nat) (row : List Nat), (cxOf M P true q l jac).jac[i]? = some row → ∀ t, t ∉ row → ∀ it, D q i t it = 0 := fun i row h => hc1.loops q l jac hl i row h
    have hGa : ∀ fr, (cxOf M P true q l jac).fr = some fr → ∀ k ∈ (cxOf M P true q l jac).l.tmp, ∀ j1 j2, fr.dep k j1 = false → G2 (M.nFree + k) j1 j2 = 0 := by
      intro fr hf k hk j1 j2 h
      obtain ⟨sp, h1, h2⟩ := dep_false hM hu hc1 hc2 hl hf hk h
      exact hc2.jac fr hf _ sp h1 j1 h2 j2
    have hGb : ∀ k ∈ (cxOf M P true q l jac).l.tmp, ∀ j1 j2, j2 ∉ (cxOf M P true q l jac).hesTmp j1 → G2 (M.nFree + k) j1 j2 = 0 := fun k _ j1 j2 h => hc2.tmp k j1 j2 h
    have hd := der_ok hM hu hc1 hc2 hl W
    have hne : ∀ fr, (cxOf M P true q l jac).fr = some fr → fr.eqs.length = M.nFree := fun fr hf => nFree_eq hM hu hc1 hc2 hf
    have hmax : l.iters - 1 ≤ sizeMax := by
      have := hM.iters q l jac hl
      unfold sizeMax
      omega
    have hterm : ∀ e, (∑ it ∈ Finset.range l.iters, lsum req fun r => if r.2.2 = e then loopTerm (cxOf M P true q l jac) W (H q) (D q) (fun k j => G (M.nFree + k) j) G2 M.nFree it r.1 r.2.1 else 0) =
        lsum req fun r => if r.2.2 = e then hessTerm M W H D G G2 r.1 r.2.1 q else 0 := by
      intro e
      rw [← lsum_range, lsum_comm]
      refine lsum_congr fun r _ => ?_
      by_cases he : r.2.2 = e
      · simp only [he, if_true, hessTerm, hl, Loop.hess]
        rw [lsum_range]
        refine Finset.sum_congr rfl fun it hit => ?_
        exact loopTerm_eq hok W (H q) (D q) (fun k j => G (M.nFree + k) j) G2 M.nFree (Finset.mem_range.mp hit) r.1 r.2.1
      · simp only [he, if_false]
        exact lsum_zero fun _ _ => rfl
    rw [runHess, hl]
    simp only
    rw [hw]
    by_cases h0 : hessElSize (req.flatMap (wLoop (cxOf M P true q l jac))) (cxOf M P true q l jac).gs = 0
    · rw [if_pos h0]
      obtain ⟨o, h1, h2⟩ := runHess_ok hz W hr hE qs (fun q' h' => hq q' (List.mem_cons_of_mem _ h')) out
      refine ⟨o, h1, fun e => ?_⟩
      have := fun it => empty_ok' hok hr hlk hne hall hD hGa hGb hd h0 it e
      rw [h2, lsum_cons, ← hterm]
      simp only [this]
      rw [Finset.sum_const_zero, zero_add]
    · rw [if_neg h0]
      obtain ⟨b, b', cs, g1, g2, g3, g4⟩ := gen_ok hok hr hlk hne hall hD hGa hGb hd hz hmax
      have g1' : genGroups isZ l (hv l W (H q) (req.flatMap (wLoop (cxOf M P true q l jac)))) (dzDx M.nFree G (allWrites M P true req))
        (req.flatMap (wLoop (cxOf M P true q l jac))) (cxOf M P true q l jac).gs ⟨[], []⟩ = .ok b := g1
      have g2' : genConst isZ l (hv l W (H q) (req.flatMap (wLoop (cxOf M P true q l jac)))) (dzDx M.nFree G (allWrites M P true req))
        (tmpHess isZ l W (D q) G2 (req.flatMap (wLoop (cxOf M P true q l jac))) (allWrites M P true req) M.free)
        (req.flatMap (wLoop (cxOf M P true q l jac))) (cxOf M P true q l jac).gs (constPos (req.flatMap (wLoop (cxOf M P true q l jac)))) b = .ok b' := g2
      rw [g1']
      simp only
      rw [g2']
      simp only
      obtain ⟨o1, k1, k2⟩ := meets_run g3 out
      have k1' : runLoop b' l.iters out = some o1 := k1
      rw [k1']
      simp only
      obtain ⟨o, h1, h2⟩ := runHess_ok hz W hr hE qs (fun q' h' => hq q' (List.mem_cons_of_mem _ h')) o1
      refine ⟨o, h1, fun e => ?_⟩
      rw [h2, k2, lsum_cons, ← hterm, add_assoc]
      congr 2
      exact Finset.sum_congr rfl fun it hit => g4 it (Finset.mem_range.mp hit) e

omit [CommRing α] hM hu hc1 hc2 in
theorem foldl_upd_map (f : Nat × Nat × Nat → α) (L : List (Nat × Nat × Nat)) (out : Nat → α) :
    L.foldl (fun out r => upd out r.2.2 (f r)) out = (L.map fun r => (r.2.2, f r)).foldl (fun out p => upd out p.1 p.2) out := by
  rw [List.foldl_map]

/-- the equations outside of the loops -/
def freeTerm (M : Model) (W : Int → α) (G2 : Nat → Nat → Nat → α) (j1 j2 : Nat) : α :=
  match M.free with
    | some fr => ∑ r ∈ Finset.range fr.eqs.length, match fr.eqs[r]? with
        | some o => W o * G2 r j1 j2
        | none => 0
    | none => 0

theorem freeHess_ok (W : Int → α) {req : List (Nat × Nat × Nat)} (hr : ReqOk req) (e : Nat) :
    (∀ r ∈ req, r.2.2 = e → freeHess M P W G2 req e = freeTerm M W G2 r.1 r.2.1) ∧ ((∀ r ∈ req, r.2.2 ≠ e) → freeHess M P W G2 req e = 0) := by
  unfold freeHess freeTerm
  cases hf : M.free with
  | none => exact ⟨fun _ _ _ => rfl, fun _ => rfl⟩
  | some fr =>
    simp only
    simp only [foldl_upd_map]
    constructor
    · intro r hrm he
      rw [← lsum_range]
      by_cases hp : r.2.1 ∈ P.eqs r.1
      · refine foldl_upd e _ _ _ ?_ (Or.inl ⟨_, List.mem_map.mpr ⟨r, List.mem_filter.mpr ⟨hrm, by simpa using hp⟩, rfl⟩, he⟩)
        intro p hpm hpe
        obtain ⟨r', hr', rfl⟩ := List.mem_map.mp hpm
        have := hr.same (List.mem_filter.mp hr').1 hrm (hpe.trans he.symm)
        subst this
        rfl
      · refine foldl_upd e _ _ _ ?_ (Or.inr ?_)
        · intro p hpm hpe
          exfalso
          obtain ⟨r', hr', rfl⟩ := List.mem_map.mp hpm
          have := hr.same (List.mem_filter.mp hr').1 hrm (hpe.trans he.symm)
          subst this
          exact hp (by simpa using (List.mem_filter.mp hr').2)
        · symm
          refine lsum_zero fun i hi => ?_
          cases fr.eqs[i]? with
          | none => rfl
          | some o =>
            simp only
            rw [hc2.eqs i _ _ _ hp, mul_zero]
            rw [← nFree_eq hM hu hc1 hc2 hf]
            exact List.mem_range.mp hi
    · intro hno
      refine foldl_upd e 0 _ _ ?_ (Or.inr rfl)
      intro p hpm hpe
      obtain ⟨r', hr', rfl⟩ := List.mem_map.mp hpm
      exact absurd hpe (hno r' (List.mem_filter.mp hr').1)

theorem inBounds_ok (hA : ∀ fr, M.free = some fr → fr.jac.length ≤ P.m) (req : List (Nat × Nat × Nat)) : inBounds P.m (allWrites M P true req) = true := by
  unfold inBounds
  rw [List.all_eq_true]
  intro w hw
  obtain ⟨g, w⟩ := w
  cases w with
  | need r j =>
    simp only [decide_eq_true_eq]
    obtain ⟨q, hq, h⟩ := List.mem_flatMap.mp hw
    obtain ⟨⟨l, jac⟩, hl⟩ : ∃ x, M.loops[q]? = some x := ⟨_, List.getElem?_eq_getElem (List.mem_range.mp hq)⟩
    simp only [writes, hl] at h
    have hok := cxOk hM hu hc2.rowSym hl
    obtain ⟨j1, j2, e, _, hlf⟩ := (mem_ws hok).mp h
    have key : ∀ fr k, M.free = some fr → (∃ pk, tmpTape l k = some pk) → fr.eqs.length + k < P.m := by
      rintro fr k hf ⟨pk, hk⟩
      have := hok.tmp_lt (fr := fr) hf hk
      have := hA fr hf
      omega
    cases hlf with
    | itN hh => exact key _ _ hh.free ⟨_, hh.tmp.1⟩
    | ntN hh => exact key _ _ hh.free ⟨_, hh.tmp.1⟩
    | ttN hh _ ht => exact key _ _ hh.free ⟨_, ht.1⟩
    | tN hh => exact key _ _ hh.free ⟨_, hh.tape⟩
  | _ => rfl

theorem hessian_ok {isZ : (Nat → α) → Bool} (hz : ∀ f, isZ f = true → ∀ it, f it = 0) (W : Int → α) {req : List (Nat × Nat × Nat)} (hr : ReqOk req)
    (hE : ∀ r ∈ req, M.Findable P r.1 r.2.1) (hA : ∀ fr, M.free = some fr → fr.jac.length ≤ P.m) :
    ∃ o, hessian M P isZ W H D G G2 req = .ok o ∧ (∀ r ∈ req, o r.2.2 = M.hess (fun o => W o) H D G G2 r.1 r.2.1) ∧ ∀ e, (∀ r ∈ req, r.2.2 ≠ e) → o e = 0 := by
  obtain ⟨o, h1, h2⟩ := runHess_ok hM hu hc1 hc2 hz W hr hE (List.range M.loops.length) (fun q hq => List.mem_range.mp hq) (freeHess M P W G2 req)
  refine ⟨o, by rw [hessian, if_pos (inBounds_ok hM hu hc1 hc2 hA req)]; exact h1, fun r hrm => ?_, fun e hno => ?_⟩
  · rw [h2, (freeHess_ok hM hu hc1 hc2 W hr r.2.2).1 r hrm rfl, lsum_range]
    unfold Model.hess
    congr 1
    refine Finset.sum_congr rfl fun q _ => ?_
    refine Eq.trans (lsum_single (List.Nodup.of_map _ hr.loc) hrm ?_) (if_pos rfl)
    intro r' hr' hne
    exact if_neg fun he => hne (hr.same hr' hrm he)
  · rw [h2, (freeHess_ok hM hu hc1 hc2 W hr e).2 hno, zero_add]
    exact lsum_zero fun q _ => lsum_zero fun r hrm => if_neg (hno r hrm)

theorem hess_symm (W : Nat → α) (j1 j2 : Nat) : M.hess W H D G G2 j1 j2 = M.hess W H D G G2 j2 j1 := by
  unfold Model.hess
  congr 1
  · cases M.free with
    | none => rfl
    | some fr =>
      refine Finset.sum_congr rfl fun r _ => ?_
      rw [hc2.symG]
  · refine Finset.sum_congr rfl fun q _ => ?_
    cases M.loops[q]? with
    | none => rfl
    | some lj =>
      simp only [Loop.hess]
      refine Finset.sum_congr rfl fun it _ => Finset.sum_congr rfl fun i _ => ?_
      cases lj.1.eq i it with
      | none => rfl
      | some o =>
        simp only [Loop.chain2]
        congr 2
        · rw [Finset.sum_comm]
          refine Finset.sum_congr rfl fun t1 _ => Finset.sum_congr rfl fun t2 _ => ?_
          rw [hc2.symH q i t2 t1]
          ring
        · refine Finset.sum_congr rfl fun p _ => ?_
          cases lj.1.tmp[p]? with
          | none => rfl
          | some k => simp only; rw [hc2.symG]

end

/-! ### use of symmetry -/

theorem firstRep_iff : ∀ (req seen : List (Nat × Nat)), firstRep seen req = none ↔ req.Nodup ∧ ∀ p ∈ req, p ∉ seen
  | [], seen => by simp [firstRep]
  | p :: req, seen => by
    rw [firstRep]
    by_cases hp : p ∈ seen
    · rw [if_pos hp]
      simp [hp]
    · rw [if_neg hp, firstRep_iff req (p :: seen), List.nodup_cons]
      constructor
      · rintro ⟨h1, h2⟩
        refine ⟨⟨fun h => h2 p h List.mem_cons_self, h1⟩, fun x hx => ?_⟩
        rcases List.mem_cons.mp hx with rfl | hx
        · exact hp
        · exact fun h => h2 x hx (List.mem_cons_of_mem _ h)
      · rintro ⟨⟨h1, h2⟩, h3⟩
        refine ⟨h2, fun x hx h => ?_⟩
        rcases List.mem_cons.mp h with rfl | h
        · exact h1 hx
        · exact h3 x (List.mem_cons_of_mem _ hx) h

theorem mem_lowerReq {req : List (Nat × Nat)} {j1 j2 e : Nat} : (j1, j2, e) ∈ lowerReq req ↔ req[e]? = some (j1, j2) ∧ copied req (j1, j2) = false := by
  unfold lowerReq
  rw [List.mem_filterMap]
  constructor
  · rintro ⟨⟨p, e'⟩, h1, h2⟩
    rw [List.mk_mem_zipIdx_iff_getElem?] at h1
    simp only at h2
    split at h2
    · simp at h2
    · rename_i hc
      simp only [Option.some.injEq, Prod.mk.injEq] at h2
      obtain ⟨rfl, rfl, rfl⟩ := h2
      exact ⟨h1, by simpa using hc⟩
  · rintro ⟨h1, h2⟩
    refine ⟨((j1, j2), e), List.mk_mem_zipIdx_iff_getElem?.mpr h1, ?_⟩
    simp [h2]

theorem nodup_inj {β : Type} {l : List β} (h : l.Nodup) {i j : Nat} {x : β} (hi : l[i]? = some x) (hj : l[j]? = some x) : i = j :=
  (List.getElem?_inj (List.getElem?_eq_some_iff.mp hi).1 h).mp (hi.trans hj.symm)

theorem lowerReq_ok {req : List (Nat × Nat)} (h : req.Nodup) : ReqOk (lowerReq req) where
  pair := by
    rintro ⟨i, j, e⟩ hr ⟨i', j', e'⟩ hr' hp
    obtain ⟨h1, h2⟩ := mem_lowerReq.mp hr
    obtain ⟨h3, h4⟩ := mem_lowerReq.mp hr'
    have key : ∀ a b : Nat, (a, b) ∈ req → (b, a) ∈ req → copied req (a, b) = false → b ≤ a := by
      intro a b _ hm hc
      unfold copied at hc
      simp only [Bool.and_eq_false_iff, decide_eq_false_iff_not] at hc
      rcases hc with hc | hc
      · omega
      · exact absurd hm hc
    rcases hp with ⟨a, b⟩ | ⟨a, b⟩
    · simp only at a b
      subst a; subst b
      have := nodup_inj h h1 h3
      subst this
      rfl
    · simp only at a b
      subst a; subst b
      have m1 := List.mem_of_getElem? h1
      have m2 := List.mem_of_getElem? h3
      have a := key _ _ m1 m2 h2
      have b := key _ _ m2 m1 h4
      have : i = j := by omega
      subst this
      have := nodup_inj h h1 h3
      subst this
      rfl
  loc := by
    have : ((lowerReq req).map fun r => r.2.2) = (req.zipIdx.filter fun p => !(copied req p.1)).map (·.2) := by
      unfold lowerReq
      rw [List.map_filterMap]
      rw [← List.filterMap_eq_filter, List.map_filterMap]
      congr 1
      funext p
      by_cases hc : copied req p.1 = true <;> simp [hc, Option.guard]
    rw [this]
    refine ((List.filter_sublist).map _).nodup ?_
    rw [List.zipIdx_map_snd]
    exact List.nodup_range'

theorem copied_source {req : List (Nat × Nat)} {p : Nat × Nat} (h : copied req p = true) : (p.2, p.1) ∈ req ∧ copied req (p.2, p.1) = false := by
  unfold copied at h ⊢
  simp only [Bool.and_eq_true, decide_eq_true_eq] at h
  refine ⟨h.2, ?_⟩
  simp only [Bool.and_eq_false_iff, decide_eq_false_iff_not]
  left
  omega

end Verif.Loops
