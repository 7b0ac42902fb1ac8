import Verif.Loops.LemmasConst

/-
The contributions of one loop are its part of the chain rule.
-/
namespace Verif.Loops

open Verif.Index Verif.Ranges

variable {α : Type} [CommRing α]

/-! ### the blocks are the chain rule -/

/-- sum over the tape variables -/
def dbl (l : Loop) (Hg : Nat → Nat → α) (Z : Nat → Nat → α) (it j1 j2 : Nat) : α :=
  ∑ t1 ∈ Finset.range l.vars, ∑ t2 ∈ Finset.range l.vars, l.dvar Z it t1 j1 * Hg t1 t2 * l.dvar Z it t2 j2

theorem blocks_eq {c : Cx} (hc : CxOk c) (Hg : Nat → Nat → α) (Z : Nat → Nat → α) (it j1 j2 : Nat) :
    idxBlocks c Hg Z it j1 j2 + constBlocks c Hg Z j1 j2 = dbl c.l Hg Z it j1 j2 := by
  rw [dbl, chain2_blocks, chain_blocks hc.non hc.tmp]
  have : (fun t1 => c.l.chain (Hg t1) Z it j2) = fun t1 => SumI c.l it j2 (Hg t1) + SumN c.l j2 (Hg t1) + SumT c.l Z j2 (Hg t1) :=
    funext fun t1 => chain_blocks hc.non hc.tmp _ _ _ _
  rw [this]
  rw [SumI_add, SumN_add, SumT_add, SumI_add, SumN_add, SumT_add]
  unfold idxBlocks constBlocks
  ring

theorem dbl_lsum (l : Loop) (Z : Nat → Nat → α) (it j1 j2 : Nat) (w : Nat → α) (H : Nat → Nat → Nat → α) : ∀ I : List Nat,
    dbl l (fun t1 t2 => lsum I fun i => w i * H i t1 t2) Z it j1 j2 = lsum I fun i => w i * dbl l (H i) Z it j1 j2
  | [] => by simp [dbl]
  | i :: I => by
    rw [lsum_cons, ← dbl_lsum l Z it j1 j2 w H I]
    unfold dbl
    rw [Finset.mul_sum, ← Finset.sum_add_distrib]
    refine Finset.sum_congr rfl fun t1 _ => ?_
    rw [Finset.mul_sum, ← Finset.sum_add_distrib]
    refine Finset.sum_congr rfl fun t2 _ => ?_
    simp only [lsum_cons]
    ring

theorem tmp_sum {l : Loop} (ht : l.tmp.Nodup) (D : Nat → α) (Z : Nat → α) :
    (∑ p ∈ Finset.range l.tmp.length, match l.tmp[p]? with
      | some k => D (l.ind.length + l.non.length + p) * Z k
      | none => 0) = lsum l.tmp fun k => D ((tmpTape l k).getD 0) * Z k := by
  rw [lsum, ← sum_get]
  refine Finset.sum_congr rfl fun p _ => ?_
  cases hp : l.tmp[p]? with
  | none => rfl
  | some k => simp only [tmpTape, lastIdx_eq ht hp, Option.map_some, Option.getD_some]

/-- what one loop adds at one iteration for one element -/
def loopTerm (c : Cx) (W : Int → α) (H : Nat → Nat → Nat → Nat → α) (D : Nat → Nat → Nat → α) (Z : Nat → Nat → α) (G2 : Nat → Nat → Nat → α) (ne it j1 j2 : Nat) : α :=
  (lsum c.gs fun gp => if it ∈ gp.2.its then idxBlocks c (fun t1 t2 => hgv c.l W H gp.2 t1 t2 it) Z it j1 j2 else 0) +
    (constSum c W H Z c.gs j1 j2 it + ddSum c W D G2 ne it j1 j2)

theorem CxOk.gs_sum {c : Cx} (hc : CxOk c) (F : Group → α) : (lsum c.gs fun gp => F gp.2) = lsum (groups c.l) F := by
  have : groups c.l = c.gs.map (·.2) := by
    rw [hc.gs, List.map_map]
    have : ((fun x : Nat × Group => x.2) ∘ fun p : Group × Nat => (p.2, p.1)) = Prod.fst := rfl
    rw [this, List.zipIdx_map_fst]
  rw [this, lsum, lsum, List.map_map]
  rfl

theorem loopTerm_eq {c : Cx} (hc : CxOk c) (W : Int → α) (H : Nat → Nat → Nat → Nat → α) (D : Nat → Nat → Nat → α) (Z : Nat → Nat → α) (G2 : Nat → Nat → Nat → α)
    (ne : Nat) {it : Nat} (hit : it < c.l.iters) (j1 j2 : Nat) : loopTerm c W H D Z G2 ne it j1 j2 =
      ∑ i ∈ Finset.range c.l.dep.length, match c.l.eq i it with
        | some o => W o * c.l.chain2 (fun t1 t2 => H i t1 t2 it) (fun t => D i t it) Z (fun k j1 j2 => G2 (ne + k) j1 j2) it j1 j2
        | none => 0 := by
  unfold loopTerm constSum
  rw [← add_assoc, ← lsum_add]
  have h1 : (lsum c.gs fun gp => (if it ∈ gp.2.its then idxBlocks c (fun t1 t2 => hgv c.l W H gp.2 t1 t2 it) Z it j1 j2 else 0) +
      if it ∈ gp.2.its then constBlocks c (fun t1 t2 => hgv c.l W H gp.2 t1 t2 it) Z j1 j2 else 0) =
      lsum (groups c.l) fun gr => if it ∈ gr.its then lsum gr.tapeI (fun i => weight c.l W i it * dbl c.l (fun t1 t2 => H i t1 t2 it) Z it j1 j2) else 0 := by
    rw [← hc.gs_sum]
    refine lsum_congr fun gp _ => ?_
    by_cases hm : it ∈ gp.2.its
    · simp only [hm, if_true]
      rw [blocks_eq hc]
      exact dbl_lsum c.l Z it j1 j2 (fun i => weight c.l W i it) (fun i t1 t2 => H i t1 t2 it) gp.2.tapeI
    · simp [hm]
  have h2 : ddSum c W D G2 ne it j1 j2 =
      lsum (groups c.l) fun gr => if it ∈ gr.its then lsum gr.tapeI (fun i => weight c.l W i it * lsum c.l.tmp fun k => D i ((tmpTape c.l k).getD 0) it * G2 (ne + k) j1 j2) else 0 := by
    unfold ddSum tmpW
    have : ∀ k, (lsum c.gs fun gp => if it ∈ gp.2.its then lsum gp.2.tapeI (fun i => weight c.l W i it * D i ((tmpTape c.l k).getD 0) it) else 0) =
        lsum (groups c.l) fun gr => if it ∈ gr.its then lsum gr.tapeI (fun i => weight c.l W i it * D i ((tmpTape c.l k).getD 0) it) else 0 := fun k =>
      hc.gs_sum (fun gr => if it ∈ gr.its then lsum gr.tapeI (fun i => weight c.l W i it * D i ((tmpTape c.l k).getD 0) it) else 0)
    simp only [this, ← lsum_mul_right]
    rw [lsum_comm]
    refine lsum_congr fun gr _ => ?_
    by_cases hm : it ∈ gr.its
    · simp only [hm, if_true, ← lsum_mul_right]
      rw [lsum_comm]
      refine lsum_congr fun i _ => ?_
      rw [← lsum_mul_left]
      exact lsum_congr fun k _ => by ring
    · simp only [hm, if_false, zero_mul]
      exact lsum_zero fun _ _ => rfl
  rw [h1, h2, groups_sum c.l hit, groups_sum c.l hit, ← Finset.sum_add_distrib]
  refine Finset.sum_congr rfl fun i _ => ?_
  cases ho : c.l.eq i it with
  | none => simp
  | some o =>
    simp only [Option.isSome_some, if_true]
    rw [weight_eq c.l W ho hit, ← mul_add, Loop.chain2]
    congr 2
    exact (tmp_sum hc.tmp (fun t => D i t it) fun k => G2 (ne + k) j1 j2).symm

/-! ### all contributions of one loop -/

theorem leaf_pos_loc {c : Cx} {j1 j2 e g it e' : Nat} {cat : Cat} {K : Nat × Nat} (h : Leaf c j1 j2 e g (.pos cat K it e')) : e' = e := by
  cases h <;> rfl

theorem leaf_pos_cat {c : Cx} {j1 j2 e g it e' : Nat} {cat : Cat} {K : Nat × Nat} (h : Leaf c j1 j2 e g (.pos cat K it e')) : cat = .ii ∨ cat = .it ∨ cat = .ni := by
  cases h <;> simp

theorem leaf_const {c : Cx} {j1 j2 e g e' : Nat} {o : Nat × Nat} (h : Leaf c j1 j2 e g (.const o e')) : o = (j1, j2) ∧ e' = e := by
  cases h <;> exact ⟨rfl, rfl⟩

theorem sum_ge : ∀ {l : List Nat} {x : Nat}, x ∈ l → x ≤ l.sum
  | y :: l, x, h => by
    rw [List.sum_cons]
    rcases List.mem_cons.mp h with rfl | h
    · omega
    · have := sum_ge h
      omega

section
variable {c : Cx} (hc : CxOk c) {req : List (Nat × Nat × Nat)}
include hc

theorem sum_other_loc {r : Nat × Nat × Nat} {e : Nat} (hne : r.2.2 ≠ e) (g it : Nat) (Hg Z : Nat → Nat → α) : lsum (wLoop c r) (addOf c g it e Hg Z) = 0 := by
  refine lsum_zero fun w hw => ?_
  obtain ⟨g', w⟩ := w
  obtain ⟨j1, j2, e0⟩ := r
  unfold addOf
  cases w with
  | pos cat K it' e' =>
    have := leaf_pos_loc ((mem_leaf hc).mp hw)
    subst this
    simp only
    rw [if_neg]
    rintro ⟨_, _, h⟩
    exact hne h
  | _ => rfl

theorem idx_sum {W : Int → α} {H : Nat → Nat → Nat → Nat → α} {Z : Nat → Nat → α}
    (hd : ∀ gp ∈ c.gs, ∀ it, Der c gp.1 (fun t1 t2 => hgv c.l W H gp.2 t1 t2 it) Z) (e it : Nat) :
    (lsum c.gs fun gp => lsum (req.flatMap (wLoop c)) (addOf c gp.1 it e (fun t1 t2 => hgv c.l W H gp.2 t1 t2 it) Z)) =
      lsum req fun r => if r.2.2 = e then lsum c.gs fun gp => if it ∈ gp.2.its then idxBlocks c (fun t1 t2 => hgv c.l W H gp.2 t1 t2 it) Z it r.1 r.2.1 else 0 else 0 := by
  simp only [lsum_flatMap]
  rw [lsum_comm]
  refine lsum_congr fun r _ => ?_
  by_cases he : r.2.2 = e
  · rw [if_pos he]
    refine lsum_congr fun gp hgp => ?_
    obtain ⟨j1, j2, e0⟩ := r
    subst he
    exact sum_wLoop hc (hd gp hgp it) it e0 j1 j2 hgp
  · rw [if_neg he]
    exact lsum_zero fun gp _ => sum_other_loc hc he _ _ _ _

variable (hr : ReqOk req) (hE : Lucky c req) {W : Int → α} {H : Nat → Nat → Nat → Nat → α} {D : Nat → Nat → Nat → α} {G : Nat → Nat → α} {G2 : Nat → Nat → Nat → α}
  {ne : Nat} (hne : ∀ fr, c.fr = some fr → fr.eqs.length = ne) {all : List (Nat × Wr)} (hall : ∀ w ∈ req.flatMap (wLoop c), w ∈ all)
  (hD : ∀ (i : Nat) (row : List Nat), c.jac[i]? = some row → ∀ t, t ∉ row → ∀ it, D i t it = 0)
  (hGa : ∀ fr, c.fr = some fr → ∀ k ∈ c.l.tmp, ∀ j1 j2, fr.dep k j1 = false → G2 (ne + k) j1 j2 = 0)
  (hGb : ∀ k ∈ c.l.tmp, ∀ j1 j2, j2 ∉ c.hesTmp j1 → G2 (ne + k) j1 j2 = 0)
  (hd : ∀ gp ∈ c.gs, ∀ it, Der c gp.1 (fun t1 t2 => hgv c.l W H gp.2 t1 t2 it) fun k j => G (ne + k) j)

theorem mem_const {o : Nat × Nat} {e : Nat} : (o, e) ∈ constWr (req.flatMap (wLoop c)) → (o.1, o.2, e) ∈ req := by
  intro h
  obtain ⟨g, hg⟩ := mem_constWr.mp h
  obtain ⟨j1, j2, e0, hm, hl⟩ := (mem_ws hc).mp hg
  obtain ⟨rfl, rfl⟩ := leaf_const hl
  exact hm

include hE hne hall hd

/-- no constant location, no constant part -/
theorem const_zero {j1 j2 e : Nat} (ho : (j1, j2, e) ∈ req) (h : ((j1, j2), e) ∉ constWr (req.flatMap (wLoop c))) (it : Nat) :
    constSum c W H (fun k j => G (ne + k) j) c.gs j1 j2 it = 0 := by
  have hno : ∀ g, ¬ Leaf c j1 j2 e g (.const (j1, j2) e) := fun g hl => h (mem_constWr.mpr ⟨g, (mem_ws hc).mpr ⟨j1, j2, e, ho, hl⟩⟩)
  have hno' : ∀ g e', ¬ Leaf c j1 j2 e' g (.const (j1, j2) e') := by
    intro g e' hl
    apply hno g
    cases hl with
    | nnC h => exact .nnC h
    | ntC h => exact .ntC h
    | tnC h1 h2 h3 h4 => exact .tnC h1 h2 h3 h4
    | ttC h1 h2 h3 => exact .ttC h1 h2 h3
    | dzC h1 h2 h3 h4 => exact .dzC h1 h2 h3 h4
  unfold constSum
  refine lsum_zero fun gp hgp => ?_
  obtain ⟨g, gr⟩ := gp
  split
  · obtain ⟨u, h1, h2⟩ := constVal_ok hc hE hne hall hgp (hd _ hgp) ho
    rw [← h2]
    have a1 : (g, Wr.nnE (j1, j2)) ∉ req.flatMap (wLoop c) := by
      intro hm
      obtain ⟨_, _, e', _, hl⟩ := (mem_ws hc).mp hm
      cases hl with
      | nnV hn => exact hno' g e' (.nnC hn)
    have a2 : ntEvals (req.flatMap (wLoop c)) g (j1, j2) = [] := by
      rw [List.eq_nil_iff_forall_not_mem]
      intro k hk
      obtain ⟨_, _, e', _, hl⟩ := (mem_ws hc).mp (mem_ntEvals.mp hk)
      cases hl with
      | ntV hn => exact hno' g e' (.ntC hn)
    have a3 : tnEvals (req.flatMap (wLoop c)) g (j1, j2) = [] := by
      rw [List.eq_nil_iff_forall_not_mem]
      intro k hk
      obtain ⟨_, _, e', _, hl⟩ := (mem_ws hc).mp (mem_tnEvals.mp hk)
      cases hl with
      | tnV b1 b2 b3 b4 => exact hno' g e' (.tnC b1 b2 b3 b4)
    have a4 : ttKeys (req.flatMap (wLoop c)) g (j1, j2) = [] := by
      rw [List.eq_nil_iff_forall_not_mem]
      intro k hk
      obtain ⟨k2, hk2⟩ := mem_ttKeys.mp hk
      obtain ⟨_, _, e', _, hl⟩ := (mem_ws hc).mp hk2
      cases hl with
      | ttV b1 b2 b3 => exact hno' g e' (.ttC b1 b2 b3)
    unfold constVal at h1
    simp only at h1
    rw [if_neg a1, a2, a3, a4] at h1
    simp only [tmpDot, Option.bind_some, Option.map_some, Option.some.injEq] at h1
    rw [← h1]
    simp
  · rfl

include hD hGa hGb in
/-- no constant location, no second derivatives of temporaries -/
theorem dd_zero' {j1 j2 e : Nat} (ho : (j1, j2, e) ∈ req) (h : ((j1, j2), e) ∉ constWr (req.flatMap (wLoop c))) (it : Nat) : ddSum c W D G2 ne it j1 j2 = 0 := by
  refine dd_zero hc hD hGa hGb ho ?_ it
  by_contra hn
  obtain ⟨g, k, hk⟩ := (nlFound_iff hc hD hGa hGb).mp (by simpa using hn)
  obtain ⟨_, _, e', _, hl⟩ := (mem_ws hc).mp hk
  cases hl with
  | dzN b1 b2 b3 b4 => exact h (mem_constWr.mpr ⟨0, (mem_ws hc).mpr ⟨j1, j2, e, ho, .dzC b1 b2 b3 b4⟩⟩)

include hr hD hGa hGb

theorem const_all (e it : Nat) : (lsum (constPos (req.flatMap (wLoop c))) fun p => if p.2 = e then constSum c W H (fun k j => G (ne + k) j) c.gs p.1.1 p.1.2 it + ddSum c W D G2 ne it p.1.1 p.1.2 else 0) =
    lsum req fun r => if r.2.2 = e then constSum c W H (fun k j => G (ne + k) j) c.gs r.1 r.2.1 it + ddSum c W D G2 ne it r.1 r.2.1 else 0 := by
  have hu : ∀ o e e', (o, e) ∈ constWr (req.flatMap (wLoop c)) → (o, e') ∈ constWr (req.flatMap (wLoop c)) → e = e' := by
    intro o e e' h h'
    have := hr.pair _ (mem_const hc h) _ (mem_const hc h') (Or.inl ⟨rfl, rfl⟩)
    simp only [Prod.mk.injEq, true_and] at this
    exact this
  symm
  refine Eq.trans (lsum_subset (l' := (constPos (req.flatMap (wLoop c))).map fun p => (p.1.1, p.1.2, p.2)) (List.Nodup.of_map _ hr.loc) ?_ ?_ ?_) ?_
  · refine (constPos_nodup _).map ?_
    rintro ⟨⟨a, b⟩, d⟩ ⟨⟨a', b'⟩, d'⟩ h
    simp only [Prod.mk.injEq] at h ⊢
    exact ⟨⟨h.1, h.2.1⟩, h.2.2⟩
  · intro r hrm
    obtain ⟨p, hp, rfl⟩ := List.mem_map.mp hrm
    exact mem_const hc (constPos_mem hp)
  · intro r hrm hno
    obtain ⟨j1, j2, e0⟩ := r
    have : ((j1, j2), e0) ∉ constWr (req.flatMap (wLoop c)) := fun h => hno (List.mem_map.mpr ⟨((j1, j2), e0), (mem_constPos hu).mpr h, rfl⟩)
    simp only
    rw [const_zero hc hE hne hall hd hrm this, dd_zero' hc hE hne hall hD hGa hGb hd hrm this, add_zero, ite_self]
  · rw [lsum, List.map_map]
    rfl

/-- generated code of one loop -/
theorem gen_ok {isZ : (Nat → α) → Bool} (hz : ∀ f, isZ f = true → ∀ it, f it = 0) (hmax : c.l.iters - 1 ≤ sizeMax) :
    ∃ b b' cs, genGroups isZ c.l (hv c.l W H (req.flatMap (wLoop c))) (dzDx ne G all) (req.flatMap (wLoop c)) c.gs ⟨[], []⟩ = .ok b ∧
      genConst isZ c.l (hv c.l W H (req.flatMap (wLoop c))) (dzDx ne G all) (tmpHess isZ c.l W D G2 (req.flatMap (wLoop c)) all c.fr) (req.flatMap (wLoop c)) c.gs
        (constPos (req.flatMap (wLoop c))) b = .ok b' ∧ Meets c.l.iters true b' cs ∧
      ∀ it < c.l.iters, ∀ e, csum cs e it = lsum req fun r => if r.2.2 = e then loopTerm c W H D (fun k j => G (ne + k) j) G2 ne it r.1 r.2.1 else 0 := by
  obtain ⟨b, cs, h1, h2, h3⟩ := genGroups_ok hc hr hne hall hz hmax c.gs hd (meets_empty c.l.iters true)
  obtain ⟨b', cs', k1, k2, k3⟩ := genConst_ok hc hE hne hall hz hmax (dd := ddSum c W D G2 ne)
    (fun j1 j2 e ho hn => tmpHess_ok hc hne hall hD hGa hGb hz hmax ho hn) (fun j1 j2 e ho hn it => dd_zero hc hD hGa hGb ho hn it) hd
    (constPos (req.flatMap (wLoop c))) (fun p hp => mem_const hc (constPos_mem hp)) h2
  refine ⟨b, b', [] ++ cs ++ cs', h1, k1, k2, fun it hit e => ?_⟩
  rw [csum_append, k3 it hit, List.nil_append, h3, idx_sum hc hd, const_all hc hr hE hne hall hD hGa hGb hd, ← lsum_add]
  refine lsum_congr fun r _ => ?_
  by_cases he : r.2.2 = e
  · simp only [he, if_true]; rfl
  · simp [he]

/-- if the number of elements is zero the loop adds nothing -/
theorem empty_ok' (h0 : hessElSize (req.flatMap (wLoop c)) c.gs = 0) (it e : Nat) :
    (lsum req fun r => if r.2.2 = e then loopTerm c W H D (fun k j => G (ne + k) j) G2 ne it r.1 r.2.1 else 0) = 0 := by
  have hc0 : constPos (req.flatMap (wLoop c)) = [] := by
    unfold hessElSize at h0
    exact List.length_eq_zero_iff.mp (by omega)
  have hp0 : ∀ g cat K it e, (g, Wr.pos cat K it e) ∉ req.flatMap (wLoop c) := by
    intro g cat K it' e' hm
    obtain ⟨j1, j2, e0, hrm, hl⟩ := (mem_ws hc).mp hm
    have hg : ∃ gr, (g, gr) ∈ c.gs := by
      cases hl with
      | iiP h => exact ⟨_, h.here.choose_spec.1⟩
      | inP h => exact ⟨_, h.here.choose_spec.1⟩
      | itP h => exact ⟨_, h.here.choose_spec.1⟩
      | niP h => exact ⟨_, h.here.choose_spec.1⟩
      | tiP _ hi => exact ⟨_, hi.choose_spec.1⟩
    obtain ⟨gr, hg⟩ := hg
    unfold hessElSize at h0
    have hs : ((nub ((posWr (req.flatMap (wLoop c)) g .ii).map (·.1))).length + (nub ((posWr (req.flatMap (wLoop c)) g .it).map (·.1))).length +
        (nub ((posWr (req.flatMap (wLoop c)) g .ni).map (·.1))).length) = 0 := by
      have := sum_ge (l := c.gs.map fun g => (nub ((posWr (req.flatMap (wLoop c)) g.1 .ii).map (·.1))).length + (nub ((posWr (req.flatMap (wLoop c)) g.1 .it).map (·.1))).length +
        (nub ((posWr (req.flatMap (wLoop c)) g.1 .ni).map (·.1))).length) (List.mem_map.mpr ⟨_, hg, rfl⟩)
      simp only at this
      omega
    have key : K ∈ nub ((posWr (req.flatMap (wLoop c)) g cat).map (·.1)) :=
      mem_nub.mpr (List.mem_map.mpr ⟨(K, it', e'), mem_posWr.mpr hm, rfl⟩)
    have := List.length_pos_of_mem key
    rcases leaf_pos_cat hl with rfl | rfl | rfl <;> omega
  have hs : ∀ (F : Nat × Group → Nat → Nat → α), (lsum c.gs fun gp => lsum (req.flatMap (wLoop c)) (addOf c gp.1 it e (F gp) fun k j => G (ne + k) j)) = 0 := by
    intro F
    refine lsum_zero fun gp _ => lsum_zero fun w hw => ?_
    obtain ⟨g, w⟩ := w
    unfold addOf
    cases w with
    | pos cat K it' e' => exact absurd hw (hp0 g cat K it' e')
    | _ => rfl
  have h1 := idx_sum (req := req) hc hd e it
  rw [hs fun gp t1 t2 => hgv c.l W H gp.2 t1 t2 it] at h1
  have h2 := const_all (D := D) hc hr hE hne hall hD hGa hGb hd e it
  rw [hc0, lsum_nil] at h2
  have := congrArg₂ (· + ·) h1 h2
  simp only [add_zero] at this
  rw [← lsum_add] at this
  refine Eq.trans (lsum_congr fun r _ => ?_) this.symm
  by_cases he : r.2.2 = e
  · simp only [he, if_true]; rfl
  · simp [he]

end

end Verif.Loops
