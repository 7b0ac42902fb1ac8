import Verif.Dae.ModelDummy
import Mathlib.Data.List.Perm.Subperm
import Mathlib.Algebra.BigOperators.Group.List.Basic
import Mathlib.Algebra.BigOperators.Group.Finset.Basic
import Mathlib.Data.Finset.Image
import Mathlib.Algebra.BigOperators.Field
import Mathlib.Tactic.FieldSimp
import Mathlib.Tactic.SplitIfs

namespace Verif.Dae.Dummy

variable {K : Type} [Field K]

/-! ### levels -/

variable {S : Sys}

theorem vlevel_unique : ∀ {k k' v : Nat}, S.VLevel k v → S.VLevel k' v → k = k'
  | 0, 0, _, _, _ => rfl
  | 0, _ + 1, _, h, ⟨_, h', _⟩ => by rw [Sys.VLevel] at h; rw [h] at h'; cases h'
  | _ + 1, 0, _, ⟨_, h', _⟩, h => by rw [Sys.VLevel] at h; rw [h] at h'; cases h'
  | k + 1, k' + 1, _, ⟨u, h1, h2⟩, ⟨u', h1', h2'⟩ => by
    rw [h1] at h1'; cases h1'
    rw [vlevel_unique h2 h2']

theorem elevel_unique : ∀ {k k' v : Nat}, S.ELevel k v → S.ELevel k' v → k = k'
  | 0, 0, _, _, _ => rfl
  | 0, _ + 1, _, h, ⟨_, h', _⟩ => by rw [Sys.ELevel] at h; rw [h] at h'; cases h'
  | _ + 1, 0, _, ⟨_, h', _⟩, h => by rw [Sys.ELevel] at h; rw [h] at h'; cases h'
  | k + 1, k' + 1, _, ⟨u, h1, h2⟩, ⟨u', h1', h2'⟩ => by
    rw [h1] at h1'; cases h1'
    rw [elevel_unique h2 h2']

theorem vlevel_exists (hS : S.Ok) (v : Nat) : ∃ k, S.VLevel k v := by
  suffices ∀ n v, S.nv ≤ n + v → ∃ k, S.VLevel k v from this S.nv v (by omega)
  intro n
  induction n with
  | zero =>
    intro v hv
    refine ⟨0, ?_⟩
    rcases h : S.der v with _ | u
    · exact h
    · have := hS.anti_lt u v ((hS.anti_der u v).2 h); omega
  | succ n ih =>
    intro v hv
    rcases h : S.der v with _ | u
    · exact ⟨0, h⟩
    · have := hS.anti_lt u v ((hS.anti_der u v).2 h)
      obtain ⟨k, hk⟩ := ih u (by omega)
      exact ⟨k + 1, u, h, hk⟩

theorem elevel_exists (hS : S.Ok) (v : Nat) : ∃ k, S.ELevel k v := by
  suffices ∀ n v, S.ne ≤ n + v → ∃ k, S.ELevel k v from this S.ne v (by omega)
  intro n
  induction n with
  | zero =>
    intro v hv
    refine ⟨0, ?_⟩
    rcases h : S.eqDer v with _ | u
    · exact h
    · have := hS.eq_lt u v ((hS.eq_der u v).2 h); omega
  | succ n ih =>
    intro v hv
    rcases h : S.eqDer v with _ | u
    · exact ⟨0, h⟩
    · have := hS.eq_lt u v ((hS.eq_der u v).2 h)
      obtain ⟨k, hk⟩ := ih u (by omega)
      exact ⟨k + 1, u, h, hk⟩

/-- an equation which was differentiated `k` times has variables which were differentiated as often -/
theorem occurs_level (hS : S.Ok) : ∀ {k k' e w : Nat}, S.ELevel k e → S.occurs e w → S.VLevel k' w → k ≤ k'
  | 0, _, _, _, _, _, _ => Nat.zero_le _
  | k + 1, k', e, w, ⟨i, hi, hk⟩, ho, hw => by
    obtain ⟨v, hv, hov⟩ := hS.occurs_der i e w ((hS.eq_der i e).2 hi) ho
    cases k' with
    | zero => rw [Sys.VLevel] at hw; rw [hw] at hv; cases hv
    | succ k' =>
      obtain ⟨u, hu, hku⟩ := hw
      rw [hv] at hu; cases hu
      have := occurs_level hS hk hov hku
      omega

theorem lists_perm {l l' : List Nat} {P : Nat → Prop} (h : Lists l P) (h' : Lists l' P) : l.Perm l' := by
  refine (List.perm_ext_iff_of_nodup h.1 h'.1).2 fun a => ?_
  rw [h.2, h'.2]

theorem tops_vars (hS : S.Ok) : Lists (tops S.nv S.anti S.der) (S.VStage 0) := by
  refine ⟨(List.nodup_reverse.2 List.nodup_range).filter _, fun v => ?_⟩
  simp only [tops, List.mem_filter, List.mem_reverse, List.mem_range, Bool.and_eq_true, Sys.VStage, Sys.VLevel, Option.isNone_iff_eq_none]
  constructor
  · rintro ⟨_, h1, h2⟩; exact ⟨h2, h1⟩
  · rintro ⟨h1, h2⟩
    obtain ⟨w, hw⟩ := Option.isSome_iff_exists.1 h2
    exact ⟨(hS.anti_lt v w hw).2, h2, h1⟩

theorem tops_eqs (hS : S.Ok) : Lists (tops S.ne S.eqOf S.eqDer) (S.EStage 0) := by
  refine ⟨(List.nodup_reverse.2 List.nodup_range).filter _, fun v => ?_⟩
  simp only [tops, List.mem_filter, List.mem_reverse, List.mem_range, Bool.and_eq_true, Sys.EStage, Sys.ELevel, Option.isNone_iff_eq_none]
  constructor
  · rintro ⟨_, h1, h2⟩; exact ⟨h2, h1⟩
  · rintro ⟨h1, h2⟩
    obtain ⟨w, hw⟩ := Option.isSome_iff_exists.1 h2
    exact ⟨(hS.eq_lt v w hw).2, h2, h1⟩

theorem pred_nodup {f g : Nat → Option Nat} (hfg : ∀ v w, f v = some w → g w = some v) {l : List Nat} (hl : l.Nodup) :
    (predecessors f l).Nodup := by
  refine List.Nodup.filter _ ?_
  refine List.Nodup.filterMap (fun a b c h1 h2 => ?_) hl
  have h1 : f a = some c := h1
  have h2 : f b = some c := h2
  have := hfg a c h1
  rw [hfg b c h2] at this
  cases this; rfl

theorem pred_vars (hS : S.Ok) {k : Nat} {l : List Nat} (hl : Lists l (S.VStage k)) : Lists (predecessors S.anti l) (S.VStage (k + 1)) := by
  refine ⟨pred_nodup (fun v w h => (hS.anti_der v w).1 h) hl.1, fun v => ?_⟩
  simp only [predecessors, List.mem_filter, List.mem_filterMap, Sys.VStage, Sys.VLevel]
  constructor
  · rintro ⟨⟨u, hu, huv⟩, h⟩
    exact ⟨⟨u, (hS.anti_der u v).1 huv, ((hl.2 u).1 hu).1⟩, h⟩
  · rintro ⟨⟨u, hu, hk⟩, h⟩
    have := (hS.anti_der u v).2 hu
    exact ⟨⟨u, (hl.2 u).2 ⟨hk, by rw [this]; rfl⟩, this⟩, h⟩

theorem pred_eqs (hS : S.Ok) {k : Nat} {l : List Nat} (hl : Lists l (S.EStage k)) : Lists (predecessors S.eqOf l) (S.EStage (k + 1)) := by
  refine ⟨pred_nodup (fun v w h => (hS.eq_der v w).1 h) hl.1, fun v => ?_⟩
  simp only [predecessors, List.mem_filter, List.mem_filterMap, Sys.EStage, Sys.ELevel]
  constructor
  · rintro ⟨⟨u, hu, huv⟩, h⟩
    exact ⟨⟨u, (hS.eq_der u v).1 huv, ((hl.2 u).1 hu).1⟩, h⟩
  · rintro ⟨⟨u, hu, hk⟩, h⟩
    have := (hS.eq_der u v).2 hu
    exact ⟨⟨u, (hl.2 u).2 ⟨hk, by rw [this]; rfl⟩, this⟩, h⟩

/-! ### one selection -/

theorem addAlg_eq (alg : Nat → Bool) (rows : Nat) : ∀ (p acc : List Nat), acc.length + p.length ≤ rows →
    addAlg alg rows acc p = acc ++ p.filter alg
  | [], acc, _ => by simp [addAlg]
  | v :: p, acc, h => by
    simp only [List.length_cons] at h
    rw [addAlg, if_pos (by omega)]
    rcases hv : alg v with _ | _
    · simp only [Bool.false_eq_true, if_false]
      rw [addAlg_eq alg rows p acc (by omega), List.filter_cons_of_neg (by simp [hv])]
    · simp only [if_true]
      rw [addAlg_eq alg rows p _ (by simp; omega), List.filter_cons_of_pos hv]
      simp

theorem addRest_eq (alg : Nat → Bool) (rows : Nat) : ∀ (q p acc : List Nat), acc.length + (q.filter fun v => !alg v).length = rows →
    addRest alg rows acc (q ++ p) = some (acc ++ q.filter fun v => !alg v)
  | [], p, acc, h => by
    simp only [List.filter_nil, List.length_nil, Nat.add_zero] at h
    have hn : ¬ acc.length < rows := by omega
    cases p <;> simp [addRest, hn]
  | v :: q, p, acc, h => by
    rcases hv : alg v with _ | _
    · rw [List.filter_cons_of_pos (by simp [hv])] at h ⊢
      simp only [List.length_cons] at h
      rw [List.cons_append, addRest, if_pos (by omega)]
      simp only [hv, Bool.false_eq_true, if_false]
      rw [addRest_eq alg rows q p _ (by simp; omega)]
      simp
    · rw [List.filter_cons_of_neg (by simp [hv])] at h ⊢
      by_cases hlt : acc.length < rows
      · rw [List.cons_append, addRest, if_pos hlt]
        simp only [hv, if_true]
        exact addRest_eq alg rows q p acc h
      · rw [List.cons_append, addRest, if_neg hlt]
        have : (q.filter fun v => !alg v) = [] := List.eq_nil_of_length_eq_zero (by omega)
        simp [this]

/-- the first columns are picked, in another order -/
theorem pick_perm (O : Opts) {rows : Nat} {p : List Nat} (h : rows ≤ p.length) :
    ∃ new, pick O rows rows p = some new ∧ new.Perm (p.take rows) := by
  unfold pick
  split
  · have hlen : (p.take rows).length = rows := by simp; omega
    rw [addAlg_eq _ _ _ _ (by simp [hlen])]
    have hsplit : ((p.take rows).filter O.alg).length + ((p.take rows).filter fun v => !O.alg v).length = rows := by
      have := List.length_eq_length_filter_add (l := p.take rows) O.alg
      rw [hlen] at this; omega
    have := addRest_eq O.alg rows (p.take rows) (p.drop rows) ((p.take rows).filter O.alg) hsplit
    rw [List.take_append_drop] at this
    rw [List.nil_append, this]
    exact ⟨_, rfl, List.filter_append_perm O.alg _⟩
  · exact ⟨_, rfl, .refl _⟩

theorem Independent.perm {jac : Nat → Nat → K} {rows l l' : List Nat} (h : Independent jac rows l) (hp : l.Perm l') :
    Independent jac rows l' := by
  refine ⟨hp.nodup_iff.1 h.1, fun c hc v hv => ?_⟩
  refine h.2 c (fun i hi => ?_) v (hp.mem_iff.2 hv)
  rw [(hp.map _).sum_eq]; exact hc i hi

variable [DecidableEq K]

/-- what one selection gives -/
structure Picked (O : Opts) (jac : Nat → Nat → K) (eqs vars new : List Nat) : Prop where
  sub : ∀ v ∈ new, v ∈ vars
  nodup : new.Nodup
  len : new.length = eqs.length
  indep : eqs.length ≠ vars.length → Independent jac eqs new

theorem orderColumns_some {qr : QR} {jac : Nat → Nat → K} (hq : qr.Right jac) {eqs vl : List Nat} (hv : vl.Nodup)
    {rp : Nat × List Nat} (h : orderColumns qr eqs vl = some rp) :
    rp.1 = eqs.length ∧ eqs.length ≤ rp.2.length ∧ rp.2.Perm vl ∧ Independent jac eqs (rp.2.take eqs.length) := by
  unfold orderColumns at h
  rcases hqr : qr eqs vl with _ | ⟨r, p⟩
  · rw [hqr] at h; cases h
  · rw [hqr] at h
    simp only at h
    split at h
    · cases h
    · split at h
      · cases h
      · cases h
        have h1 := hq.rank_rows _ _ _ _ hqr
        have hr : r = eqs.length := by omega
        subst hr
        exact ⟨rfl, Nat.le_of_not_lt ‹_›, hq.perm _ _ _ _ hqr, (hq.indep _ _ _ _ hv hqr).1⟩

theorem finish_cases {O : Opts} {jac : Nat → Nat → K} {qr : QR} (hq : qr.Right jac) {eqs vars vl d : List Nat} (hv : vars.Nodup)
    (hsub : vl.Sublist vars) (hne : eqs.length ≠ vars.length) {rp : Nat × List Nat} (h : orderColumns qr eqs vl = some rp)
    (hd : ∀ v ∈ vars, v ∉ d) : ∃ new, finish O eqs d rp = .ok (d ++ new) ∧ Picked O jac eqs vars new ∧
      new.Perm (rp.2.take eqs.length) ∧ ∀ v ∈ new, v ∈ vl := by
  obtain ⟨h1, h2, h3, h4⟩ := orderColumns_some hq (hv.sublist hsub) h
  obtain ⟨new, hn, hp⟩ := pick_perm O h2
  have hnl : ∀ v ∈ new, v ∈ vl := fun v hv => h3.mem_iff.1 (List.mem_of_mem_take (hp.mem_iff.1 hv))
  refine ⟨new, ?_, ⟨fun v hv => hsub.subset (hnl v hv), hp.nodup_iff.2 h4.1, ?_, fun _ => h4.perm hp.symm⟩, hp, hnl⟩
  · unfold finish
    rw [h1, hn]
    simp only
    rw [if_neg]
    simp only [Bool.and_eq_true, List.any_eq_true, List.contains_iff_mem, not_and, not_exists]
    intro _ v hv hvd
    exact hd v (hsub.subset (hnl v hv)) hvd
  · rw [hp.length_eq, List.length_take]; omega

/-- the results of a selection -/
theorem select_cases {O : Opts} {jac : Nat → Nat → K} {qr : QR} (hq : qr.Right jac) {eqs vars d : List Nat} (hv : vars.Nodup)
    (hd : ∀ v ∈ vars, v ∉ d) :
    (∃ new, select O jac qr eqs vars d = .ok (d ++ new) ∧ Picked O jac eqs vars new) ∨
    select O jac qr eqs vars d = .exception ∨
    (O.debug = true ∧ eqs.length = vars.length ∧ vars ≠ [] ∧ select O jac qr eqs vars d = .assertion) := by
  unfold select
  by_cases hne : eqs.length = vars.length
  · rw [if_pos hne]
    split
    case isTrue h =>
      simp only [Bool.and_eq_true, List.any_eq_true] at h
      obtain ⟨h1, v, hv, _⟩ := h
      exact .inr (.inr ⟨h1, hne, List.ne_nil_of_mem hv, rfl⟩)
    case isFalse =>
      exact .inl ⟨vars, rfl, fun v hv => hv, hv, hne.symm, fun h => absurd hne h⟩
  · rw [if_neg hne]
    simp only
    split
    case h_1 rp hrp =>
      obtain ⟨new, h1, h2, _⟩ := finish_cases (O := O) hq hv List.filter_sublist hne hrp hd
      exact .inl ⟨new, h1, h2⟩
    case h_2 =>
      split
      · exact .inr (.inl rfl)
      · split
        case h_1 rp hrp =>
          obtain ⟨new, h1, h2, _⟩ := finish_cases (O := O) hq hv List.filter_sublist hne hrp hd
          exact .inl ⟨new, h1, h2⟩
        case h_2 => exact .inr (.inl rfl)

/-! ### all selections -/

/-- the errors in the relations between variables and derivatives vanish in one stage -/
theorem stage_solved (hS : S.Ok) {M : Moment K} (hM : M.Right S) {k : Nat} {eqs new : List Nat}
    (he : Lists eqs (S.EStage k)) (hnew : ∀ v ∈ new, S.VStage k v) (hnd : new.Nodup) {normVar normEq : Nat → K}
    (hnv : ∀ v, normVar v ≠ 0) (hne : ∀ i, normEq i ≠ 0) (hind : Independent (normJac M.part normVar normEq) eqs new)
    (hkept : ∀ w v, S.der w = some v → S.VStage k v → v ∉ new → M.rate w = M.val v)
    (hup : ∀ k' w v, k < k' → S.der w = some v → S.VStage k' v → M.rate w = M.val v) :
    ∀ w v, S.der w = some v → v ∈ new → M.rate w = M.val v := by
  classical
  -- the error of a derivative
  let er : Nat → K := fun v => match S.anti v with | some w => M.rate w - M.val v | none => 0
  have her : ∀ w v, S.der w = some v → er v = M.rate w - M.val v := fun w v h => by
    simp only [er, (hS.anti_der v w).2 h]
  suffices h : ∀ v ∈ new, er v = 0 by
    intro w v hw hv
    have := h v hv
    rw [her w v hw] at this
    exact sub_eq_zero.1 this
  suffices h : ∀ v ∈ new, er v / normVar v = 0 by
    intro v hv
    rcases div_eq_zero_iff.1 (h v hv) with h | h
    · exact h
    · exact absurd h (hnv v)
  refine hind.2 (fun v => er v / normVar v) fun i hi => ?_
  obtain ⟨hi1, hi2⟩ := (he.2 i).1 hi
  obtain ⟨e, hie⟩ := Option.isSome_iff_exists.1 hi2
  have hel : S.ELevel (k + 1) e := ⟨i, (hS.eq_der i e).1 hie, hi1⟩
  -- the equation and its derivative
  have hsum : ∑ w ∈ Finset.range S.nv, M.part e w * (M.rate w - M.derVal S w) = 0 := by
    have h1 := hM.rate_zero i e hie
    have h2 := hM.holds i e hie
    have : ∑ w ∈ Finset.range S.nv, M.part e w * (M.rate w - M.derVal S w)
        = ((∑ w ∈ Finset.range S.nv, M.part e w * M.rate w) + M.time e) - ((∑ w ∈ Finset.range S.nv, M.part e w * M.derVal S w) + M.time e) := by
      rw [add_sub_add_right_eq_sub, ← Finset.sum_sub_distrib]
      exact Finset.sum_congr rfl fun w _ => by rw [mul_sub]
    rw [this, h1, h2, sub_zero]
  -- every term of the equation is that of a new dummy derivative, or zero
  have hterm : ∀ w, M.part e w * (M.rate w - M.derVal S w) ≠ 0 → ∃ v ∈ new, S.der w = some v ∧ M.part e w = M.part i v := by
    intro w hw
    have hpart : M.part e w ≠ 0 := fun h => hw (by rw [h, zero_mul])
    have ho := hM.part_occurs e w hpart
    obtain ⟨v, hv, hov⟩ := hS.occurs_der i e w hie ho
    have hrate : M.rate w ≠ M.val v := fun h => hw (by simp only [Moment.derVal, hv, h, sub_self, mul_zero])
    have hanti : (S.anti v).isSome = true := by rw [(hS.anti_der v w).2 hv]; rfl
    obtain ⟨k', hk'⟩ := vlevel_exists hS v
    have hle := occurs_level hS hi1 hov hk'
    rcases Nat.lt_or_ge k k' with hlt | hge
    · exact absurd (hup k' w v hlt hv ⟨hk', hanti⟩) hrate
    · obtain rfl : k = k' := by omega
      refine ⟨v, Classical.byContradiction fun hn => hrate (hkept w v hv ⟨hk', hanti⟩ hn), hv, ?_⟩
      refine (hM.chain i e w v hie hv fun ho' => ?_).symm
      have := occurs_level hS hel ho' hk'
      omega
  -- the sum over the new dummy derivatives
  have hanti : ∀ v ∈ new, ∃ w, S.anti v = some w := fun v hv => Option.isSome_iff_exists.1 (hnew v hv).2
  have hcols : (new.map fun v => normJac M.part normVar normEq i v * (er v / normVar v)).sum
      = (∑ v ∈ new.toFinset, M.part i v * er v) / normEq i := by
    rw [← List.sum_toFinset _ hnd, Finset.sum_div]
    refine Finset.sum_congr rfl fun v _ => ?_
    have h1 := hnv v
    have h2 := hne i
    unfold normJac
    field_simp
  rw [hcols]
  have hfin : ∑ v ∈ new.toFinset, M.part i v * er v = 0 := by
    let an : Nat → Nat := fun v => (S.anti v).getD 0
    have han : ∀ v ∈ new, S.der (an v) = some v := fun v hv => by
      obtain ⟨w, hw⟩ := hanti v hv
      simp only [an, hw, Option.getD_some]
      exact (hS.anti_der v w).1 hw
    have hpart : ∀ v ∈ new, M.part i v = M.part e (an v) := fun v hv => by
      refine hM.chain i e (an v) v hie (han v hv) fun ho' => ?_
      have := occurs_level hS hel ho' (hnew v hv).1
      omega
    have hstep : ∑ v ∈ new.toFinset, M.part i v * er v
        = ∑ w ∈ new.toFinset.image an, M.part e w * (M.rate w - M.derVal S w) := by
      rw [Finset.sum_image]
      · refine Finset.sum_congr rfl fun v hv => ?_
        have hv : v ∈ new := by simpa using hv
        rw [hpart v hv, her (an v) v (han v hv)]
        simp only [Moment.derVal, han v hv]
      · intro v hv v' hv' h
        have h1 := han v (by simpa using hv)
        have h2 := han v' (by simpa using hv')
        rw [show an v = an v' from h, h2] at h1
        exact (Option.some.inj h1).symm
    rw [hstep, ← hsum]
    refine Finset.sum_subset (fun w hw => ?_) fun w _ hw => ?_
    · obtain ⟨v, hv, rfl⟩ := Finset.mem_image.1 hw
      have hv : v ∈ new := by simpa using hv
      have := hS.anti_lt v (an v) ((hS.anti_der v (an v)).2 (han v hv))
      simp only [Finset.mem_range]; omega
    · refine Classical.byContradiction fun hz => hw ?_
      obtain ⟨v, hv, hd, _⟩ := hterm w hz
      refine Finset.mem_image.2 ⟨v, by simpa using hv, ?_⟩
      simp only [an, (hS.anti_der v w).2 hd, Option.getD_some]
  rw [hfin, zero_div]

/-- what all selections from a level on give -/
structure From (S : Sys) (k : Nat) (new : List Nat) : Prop where
  nodup : new.Nodup
  at' : ∀ v ∈ new, ∃ k', k ≤ k' ∧ S.VStage k' v
  count : ∃ l, Lists l (fun i => ∃ k', k ≤ k' ∧ S.EStage k' i) ∧ new.length = l.length

theorem no_more_eqs {k : Nat} (h : ∀ i, ¬ S.EStage (k + 1) i) (hS : S.Ok) : ∀ j i, ¬ S.EStage (k + 1 + j) i
  | 0, i => h i
  | j + 1, i => by
    rintro ⟨⟨u, hu, hk⟩, _⟩
    exact no_more_eqs h hS j u ⟨hk, by rw [(hS.eq_der u i).2 hu]; rfl⟩

theorem stages_cases (hS : S.Ok) {O : Opts} {jac : Nat → Nat → K} {qr : QR} (hq : qr.Right jac) : ∀ (n k : Nat) (eqs vars d : List Nat),
    Lists eqs (S.EStage k) → Lists vars (S.VStage k) → (∀ i ∈ eqs, i < n) → 0 < n → (∀ v k', k ≤ k' → S.VStage k' v → v ∉ d) →
    (∃ new, stages S O jac qr n eqs vars d = .ok (d ++ new) ∧ From S k new ∧
      ∀ (M : Moment K) (normVar normEq : Nat → K), M.Right S → jac = normJac M.part normVar normEq → (∀ v, normVar v ≠ 0) →
        (∀ i, normEq i ≠ 0) →
        (∀ k' eqs vars, Lists eqs (S.EStage k') → Lists vars (S.VStage k') → eqs.length = vars.length → Independent jac eqs vars) →
        (∀ w v k', k ≤ k' → S.der w = some v → S.VStage k' v → v ∉ new → M.rate w = M.val v) →
        ∀ w v, S.der w = some v → v ∈ new → M.rate w = M.val v) ∨
    stages S O jac qr n eqs vars d = .exception ∨
    (O.debug = true ∧ stages S O jac qr n eqs vars d = .assertion ∧
      ∃ k' eqs vars, Lists eqs (S.EStage k') ∧ Lists vars (S.VStage k') ∧ eqs.length = vars.length ∧ vars ≠ [])
  | 0, _, _, _, _, _, _, _, h, _ => absurd h (Nat.lt_irrefl 0)
  | n + 1, k, eqs, vars, d, he, hv, hn, _, hd => by
    have hd' : ∀ v ∈ vars, v ∉ d := fun v h => hd v k (Nat.le_refl k) ((hv.2 v).1 h)
    rcases select_cases (O := O) (jac := jac) hq (eqs := eqs) hv.1 hd' with ⟨new, hsel, hp⟩ | hsel | ⟨h1, h2, h3, hsel⟩
    · have hnew : ∀ v ∈ new, S.VStage k v := fun v h => (hv.2 v).1 (hp.sub v h)
      have hindep : (∀ k' eqs vars, Lists eqs (S.EStage k') → Lists vars (S.VStage k') → eqs.length = vars.length → Independent jac eqs vars) →
          Independent jac eqs new := fun hreg => by
        by_cases hlen : eqs.length = vars.length
        · have hperm : new.Perm vars := by
            refine (List.subperm_of_subset hp.nodup hp.sub).perm_of_length_le ?_
            rw [hp.len, hlen]
          exact (hreg k eqs vars he hv hlen).perm hperm.symm
        · exact hp.indep hlen
      by_cases hnil : predecessors S.eqOf eqs = []
      · refine .inl ⟨new, ?_, ⟨hp.nodup, fun v h => ⟨k, Nat.le_refl k, hnew v h⟩, eqs, ⟨he.1, fun i => ?_⟩, hp.len⟩, ?_⟩
        · simp only [stages, hsel, hnil, if_true]
        · rw [he.2]
          constructor
          · exact fun h => ⟨k, Nat.le_refl k, h⟩
          · rintro ⟨k', hk', h⟩
            rcases Nat.lt_or_ge k k' with hlt | hge
            · have hno : ∀ i, ¬ S.EStage (k + 1) i := fun i hi => by
                have := ((pred_eqs hS he).2 i).2 hi
                rw [hnil] at this; cases this
              obtain ⟨j, rfl⟩ : ∃ j, k' = k + 1 + j := ⟨k' - (k + 1), by omega⟩
              exact absurd h (no_more_eqs hno hS j i)
            · obtain rfl : k = k' := by omega
              exact h
        · intro M normVar normEq hM hjac hnv hne hreg hkept w v hw hvn
          subst hjac
          refine stage_solved hS hM he hnew hp.nodup hnv hne (hindep hreg) (fun w v h1 h2 h3 => hkept w v k (Nat.le_refl k) h1 h2 h3) ?_ w v hw hvn
          intro k' w v hlt h1 h2
          refine hkept w v k' (by omega) h1 h2 fun h => ?_
          have := vlevel_unique (hnew v h).1 h2.1
          omega
      · have hpe := pred_eqs hS he
        have hpv := pred_vars hS hv
        have hn' : ∀ i ∈ predecessors S.eqOf eqs, i < n := fun e h => by
          simp only [predecessors, List.mem_filter, List.mem_filterMap] at h
          obtain ⟨⟨i, hi, hie⟩, _⟩ := h
          have h1 := hn i hi
          have h2 := (hS.eq_lt i e hie).1
          omega
        have hpos : 0 < n := by
          obtain ⟨i, hi⟩ := List.exists_mem_of_ne_nil _ hnil
          have := hn' i hi
          omega
        have hstep : stages S O jac qr (n + 1) eqs vars d =
            stages S O jac qr n (predecessors S.eqOf eqs) (predecessors S.anti vars) (d ++ new) := by
          simp only [stages, hsel, if_neg hnil]
        rw [hstep]
        rcases stages_cases hS (O := O) hq n (k + 1) _ _ (d ++ new) hpe hpv hn' hpos (fun v k' hk' h hmem => by
            rcases List.mem_append.1 hmem with h' | h'
            · exact hd v k' (by omega) h h'
            · have := vlevel_unique (hnew v h').1 h.1
              omega) with ⟨more, hrun, hf, hsolve⟩ | h | h
        · refine .inl ⟨new ++ more, by rw [hrun, List.append_assoc], ⟨?_, ?_, ?_⟩, ?_⟩
          · refine List.nodup_append.2 ⟨hp.nodup, hf.nodup, fun a ha b hb hab => ?_⟩
            subst hab
            obtain ⟨k', hk', h⟩ := hf.at' a hb
            have := vlevel_unique (hnew a ha).1 h.1
            omega
          · intro v h
            rcases List.mem_append.1 h with h | h
            · exact ⟨k, Nat.le_refl k, hnew v h⟩
            · obtain ⟨k', hk', h⟩ := hf.at' v h
              exact ⟨k', by omega, h⟩
          · obtain ⟨l, hl, hlen⟩ := hf.count
            refine ⟨eqs ++ l, ⟨List.nodup_append.2 ⟨he.1, hl.1, fun a ha b hb hab => ?_⟩, fun i => ?_⟩, by
              simp only [List.length_append, hp.len, hlen]⟩
            · subst hab
              obtain ⟨k', hk', h⟩ := (hl.2 a).1 hb
              have := elevel_unique ((he.2 a).1 ha).1 h.1
              omega
            · rw [List.mem_append, he.2, hl.2]
              constructor
              · rintro (h | ⟨k', hk', h⟩)
                · exact ⟨k, Nat.le_refl k, h⟩
                · exact ⟨k', by omega, h⟩
              · rintro ⟨k', hk', h⟩
                rcases Nat.lt_or_ge k k' with hlt | hge
                · exact .inr ⟨k', hlt, h⟩
                · obtain rfl : k = k' := by omega
                  exact .inl h
          · intro M normVar normEq hM hjac hnv hne hreg hkept
            have hupper : ∀ w v k', k + 1 ≤ k' → S.der w = some v → S.VStage k' v → M.rate w = M.val v := by
              intro w v k' hk' hw hvk
              by_cases hmem : v ∈ more
              · refine hsolve M normVar normEq hM hjac hnv hne hreg (fun w v k' hk' h1 h2 h3 => ?_) w v hw hmem
                refine hkept w v k' (by omega) h1 h2 fun h => ?_
                rcases List.mem_append.1 h with h | h
                · have := vlevel_unique (hnew v h).1 h2.1
                  omega
                · exact h3 h
              · refine hkept w v k' (by omega) hw hvk fun h => ?_
                rcases List.mem_append.1 h with h | h
                · have := vlevel_unique (hnew v h).1 hvk.1
                  omega
                · exact hmem h
            intro w v hw hvn
            rcases List.mem_append.1 hvn with h | h
            · subst hjac
              refine stage_solved hS hM he hnew hp.nodup hnv hne (hindep hreg) (fun w v h1 h2 h3 => ?_) (fun k' w v hlt h1 h2 => hupper w v k' hlt h1 h2) w v hw h
              refine hkept w v k (Nat.le_refl k) h1 h2 fun h => ?_
              rcases List.mem_append.1 h with h | h
              · exact h3 h
              · obtain ⟨k', hk', h'⟩ := hf.at' v h
                have := vlevel_unique h'.1 h2.1
                omega
            · obtain ⟨k', hk', h'⟩ := hf.at' v h
              exact hupper w v k' hk' hw h'
        · exact .inr (.inl h)
        · exact .inr (.inr h)
    · exact .inr (.inl (by simp only [stages, hsel]))
    · exact .inr (.inr ⟨h1, by simp only [stages, hsel], k, eqs, vars, he, hv, h2, h3⟩)

/-! ### success, avoided variables, the option -/

theorem zeroCol_of_indep {jac : Nat → Nat → K} {eqs l : List Nat} (h : Independent jac eqs l) {v : Nat} (hv : v ∈ l) :
    zeroCol jac eqs v = false := by
  rcases hz : zeroCol jac eqs v with _ | _
  · rfl
  · exfalso
    simp only [zeroCol, List.all_eq_true, decide_eq_true_eq] at hz
    have := h.2 (fun u => if u = v then 1 else 0) (fun i hi => ?_) v hv
    · simp at this
    · refine List.sum_eq_zero fun x hx => ?_
      obtain ⟨u, _, rfl⟩ := List.mem_map.1 hx
      by_cases hu : u = v
      · subst hu; simp [hz i hi]
      · simp [hu]

theorem orderColumns_of_indep {qr : QR} {jac : Nat → Nat → K} (hq : qr.Right jac) {eqs vl sel : List Nat} (hv : vl.Nodup)
    (hsub : sel ⊆ vl) (hi : Independent jac eqs sel) (hlen : sel.length = eqs.length) : ∃ rp, orderColumns qr eqs vl = some rp := by
  obtain ⟨r, p, hqr, hr⟩ := hq.max eqs vl sel hv hsub hi
  have h1 := (hq.indep _ _ _ _ hv hqr).2
  refine ⟨(r, p), ?_⟩
  unfold orderColumns
  rw [hqr]
  simp only
  rw [if_neg (by omega), if_neg (by omega)]

theorem select_succeeds {O : Opts} {jac : Nat → Nat → K} {qr : QR} (hq : qr.Right jac) {eqs vars d sel : List Nat} (hv : vars.Nodup)
    (hd : ∀ v ∈ vars, v ∉ d) (hsub : sel ⊆ vars) (hi : Independent jac eqs sel) (hlen : sel.length = eqs.length) :
    select O jac qr eqs vars d ≠ .exception := by
  intro hex
  unfold select at hex
  by_cases hne : eqs.length = vars.length
  · rw [if_pos hne] at hex
    split at hex <;> cases hex
  · rw [if_neg hne] at hex
    simp only at hex
    split at hex
    case h_1 rp hrp =>
      obtain ⟨new, h1, _⟩ := finish_cases (O := O) hq hv List.filter_sublist hne hrp hd
      rw [h1] at hex; cases hex
    case h_2 hno =>
      split at hex
      case isTrue hav =>
        obtain ⟨rp, hrp⟩ := orderColumns_of_indep hq (hv.sublist (List.filter_sublist (p := fun v => !(
          if eqs.length ≤ vars.length - ((vars.filter fun v => zeroCol jac eqs v).length + (vars.filter fun v => !zeroCol jac eqs v && O.avoid v).length)
          then zeroCol jac eqs v || (!zeroCol jac eqs v && O.avoid v) else zeroCol jac eqs v)))) (sel := sel) (fun v h => by
            have hz := zeroCol_of_indep hi h
            have hvv := hsub h
            have ha : ¬ (v ∈ vars.filter fun v => !zeroCol jac eqs v && O.avoid v) := by rw [hav]; simp
            simp only [List.mem_filter, hvv, true_and, hz, Bool.not_false, Bool.true_and] at ha
            simp [hvv, hz, ha]) hi hlen
        rw [hno] at hrp; cases hrp
      case isFalse =>
        split at hex
        case h_1 rp hrp =>
          obtain ⟨new, h1, _⟩ := finish_cases (O := O) hq hv List.filter_sublist hne hrp hd
          rw [h1] at hex; cases hex
        case h_2 hno2 =>
          obtain ⟨rp, hrp⟩ := orderColumns_of_indep hq (hv.sublist (List.filter_sublist (p := fun v => !((
            if eqs.length ≤ vars.length - ((vars.filter fun v => zeroCol jac eqs v).length + (vars.filter fun v => !zeroCol jac eqs v && O.avoid v).length)
            then zeroCol jac eqs v || (!zeroCol jac eqs v && O.avoid v) else zeroCol jac eqs v) && !(!zeroCol jac eqs v && O.avoid v))) (l := vars))) (sel := sel)
            (fun v h => by
              have hz := zeroCol_of_indep hi h
              refine List.mem_filter.2 ⟨hsub h, ?_⟩
              rw [hz]
              split_ifs <;> rcases O.avoid v with _ | _ <;> rfl) hi hlen
          rw [hno2] at hrp; cases hrp

theorem split_count (f g : Nat → Bool) : ∀ l : List Nat,
    l.length = (l.filter f).length + (l.filter fun v => !f v && g v).length + (l.filter fun v => !f v && !g v).length
  | [] => rfl
  | v :: l => by
    have := split_count f g l
    rcases hf : f v with _ | _ <;> rcases hg : g v with _ | _ <;>
      simp only [List.filter_cons, hf, hg, List.length_cons, Bool.not_false, Bool.not_true, Bool.and_true, Bool.and_false, Bool.true_and,
        Bool.false_and, Bool.false_eq_true, if_true, if_false] <;> omega

theorem select_avoids {O : Opts} {jac : Nat → Nat → K} {qr : QR} (hq : qr.Right jac) {eqs vars d d' sel : List Nat} (hv : vars.Nodup)
    (hd : ∀ v ∈ vars, v ∉ d) (hsub : sel ⊆ vars) (hi : Independent jac eqs sel) (hlen : sel.length = eqs.length)
    (hav : ∀ v ∈ sel, O.avoid v = false) (hrun : select O jac qr eqs vars d = .ok d') : ∀ v ∈ d', v ∉ d → O.avoid v = false := by
  unfold select at hrun
  by_cases hne : eqs.length = vars.length
  · rw [if_pos hne] at hrun
    split at hrun
    · cases hrun
    · cases hrun
      have hperm : sel.Perm vars := by
        refine (List.subperm_of_subset hi.1 hsub).perm_of_length_le ?_
        omega
      intro v h1 h2
      rcases List.mem_append.1 h1 with h | h
      · exact absurd h h2
      · exact hav v (hperm.mem_iff.2 h)
  · rw [if_neg hne] at hrun
    simp only at hrun
    have hin : ∀ v ∈ sel, v ∈ vars.filter fun v => !zeroCol jac eqs v && !O.avoid v := fun v h => by
      simp [hsub h, zeroCol_of_indep hi h, hav v h]
    have hcount : eqs.length ≤ vars.length - ((vars.filter fun v => zeroCol jac eqs v).length + (vars.filter fun v => !zeroCol jac eqs v && O.avoid v).length) := by
      have h1 := split_count (fun v => zeroCol jac eqs v) O.avoid vars
      have h2 := (List.subperm_of_subset hi.1 hin).length_le
      omega
    simp only [hcount, if_true] at hrun
    obtain ⟨rp, hrp⟩ := orderColumns_of_indep hq (hv.sublist (List.filter_sublist
      (p := fun v => !(zeroCol jac eqs v || (!zeroCol jac eqs v && O.avoid v))) (l := vars))) (sel := sel) (fun v h => by
        simp [hsub h, zeroCol_of_indep hi h, hav v h]) hi hlen
    rw [hrp] at hrun
    obtain ⟨new, h1, _, _, h4⟩ := finish_cases (O := O) hq hv List.filter_sublist hne hrp hd
    simp only at hrun
    rw [h1] at hrun
    cases hrun
    intro v hvm hvd
    rcases List.mem_append.1 hvm with h | h
    · exact absurd h hvd
    · have := (List.mem_filter.1 (h4 v h)).2
      revert this
      rcases zeroCol jac eqs v with _ | _ <;> rcases O.avoid v with _ | _ <;> simp

theorem stages_succeed (hS : S.Ok) {O : Opts} {jac : Nat → Nat → K} {qr : QR} (hq : qr.Right jac)
    (hreg : ∀ k eqs vars, Lists eqs (S.EStage k) → Lists vars (S.VStage k) →
      ∃ sel, sel ⊆ vars ∧ Independent jac eqs sel ∧ sel.length = eqs.length) : ∀ (n k : Nat) (eqs vars d : List Nat),
    Lists eqs (S.EStage k) → Lists vars (S.VStage k) → (∀ v k', k ≤ k' → S.VStage k' v → v ∉ d) →
    stages S O jac qr n eqs vars d ≠ .exception
  | 0, _, _, _, _, _, _, _ => by simp [stages]
  | n + 1, k, eqs, vars, d, he, hv, hd => by
    have hd' : ∀ v ∈ vars, v ∉ d := fun v h => hd v k (Nat.le_refl k) ((hv.2 v).1 h)
    obtain ⟨sel, h1, h2, h3⟩ := hreg k eqs vars he hv
    have hns := select_succeeds (O := O) hq hv.1 hd' h1 h2 h3
    rcases select_cases (O := O) (jac := jac) hq (eqs := eqs) hv.1 hd' with ⟨new, hsel, hp⟩ | hsel | ⟨_, _, _, hsel⟩
    · have hnew : ∀ v ∈ new, S.VStage k v := fun v h => (hv.2 v).1 (hp.sub v h)
      simp only [stages, hsel]
      split
      · simp
      · refine stages_succeed hS hq hreg n (k + 1) _ _ (d ++ new) (pred_eqs hS he) (pred_vars hS hv) fun v k' hk' h hmem => ?_
        rcases List.mem_append.1 hmem with h' | h'
        · exact hd v k' (by omega) h h'
        · have := vlevel_unique (hnew v h').1 h.1
          omega
    · exact absurd hsel hns
    · simp [stages, hsel]

theorem finish_option {O : Opts} {jac : Nat → Nat → K} {qr : QR} (hq : qr.Right jac) {eqs vars vl d d2 : List Nat} (hv : vars.Nodup)
    (hsub : vl.Sublist vars) (hne : eqs.length ≠ vars.length) {rp : Nat × List Nat} (h : orderColumns qr eqs vl = some rp)
    (hd : ∀ v ∈ vars, v ∉ d) (hd2 : ∀ v ∈ vars, v ∉ d2) (hdd : d2.Perm d) (b : Bool) {r : List Nat} (hr : finish O eqs d rp = .ok r) :
    ∃ r2, finish { O with algFirst := b } eqs d2 rp = .ok r2 ∧ r2.Perm r := by
  obtain ⟨new, h1, _, h3, _⟩ := finish_cases (O := O) hq hv hsub hne h hd
  obtain ⟨new2, h1', _, h3', _⟩ := finish_cases (O := { O with algFirst := b }) hq hv hsub hne h hd2
  rw [h1] at hr; cases hr
  exact ⟨_, h1', hdd.append (h3'.trans h3.symm)⟩

theorem select_option {O : Opts} {jac : Nat → Nat → K} {qr : QR} (hq : qr.Right jac) {eqs vars d d2 : List Nat} (hv : vars.Nodup)
    (hd : ∀ v ∈ vars, v ∉ d) (hdd : d2.Perm d) (b : Bool) {r : List Nat} (hr : select O jac qr eqs vars d = .ok r) :
    ∃ r2, select { O with algFirst := b } jac qr eqs vars d2 = .ok r2 ∧ r2.Perm r := by
  have hd2 : ∀ v ∈ vars, v ∉ d2 := fun v h h' => hd v h (hdd.mem_iff.1 h')
  unfold select at hr ⊢
  by_cases hne : eqs.length = vars.length
  · rw [if_pos hne] at hr ⊢
    split at hr
    · cases hr
    case isFalse hb =>
      cases hr
      rw [if_neg]
      · exact ⟨_, rfl, hdd.append (.refl _)⟩
      · intro hb'
        apply hb
        simp only [Bool.and_eq_true, List.any_eq_true, List.contains_iff_mem] at hb' ⊢
        obtain ⟨h1, v, h2, h3⟩ := hb'
        exact ⟨h1, v, h2, List.mem_append.2 (.inr h2)⟩
  · rw [if_neg hne] at hr ⊢
    simp only at hr ⊢
    split at hr
    case h_1 rp hrp =>
      exact finish_option hq hv List.filter_sublist hne hrp hd hd2 hdd b hr
    case h_2 hno =>
      split at hr
      · cases hr
      case isFalse hav =>
        rw [if_neg hav]
        split at hr
        case h_1 rp hrp =>
          exact finish_option hq hv List.filter_sublist hne hrp hd hd2 hdd b hr
        · cases hr

theorem stages_option (hS : S.Ok) {O : Opts} {jac : Nat → Nat → K} {qr : QR} (hq : qr.Right jac) (b : Bool) :
    ∀ (n k : Nat) (eqs vars d d2 r : List Nat), Lists eqs (S.EStage k) → Lists vars (S.VStage k) →
    (∀ v k', k ≤ k' → S.VStage k' v → v ∉ d) → d2.Perm d → stages S O jac qr n eqs vars d = .ok r →
    ∃ r2, stages S { O with algFirst := b } jac qr n eqs vars d2 = .ok r2 ∧ r2.Perm r
  | 0, _, _, _, _, _, _, _, _, _, _, h => by simp [stages] at h
  | n + 1, k, eqs, vars, d, d2, r, he, hv, hd, hdd, hrun => by
    have hd' : ∀ v ∈ vars, v ∉ d := fun v h => hd v k (Nat.le_refl k) ((hv.2 v).1 h)
    rcases select_cases (O := O) (jac := jac) hq (eqs := eqs) hv.1 hd' with ⟨new, hsel, hp⟩ | hsel | ⟨_, _, _, hsel⟩
    · have hnew : ∀ v ∈ new, S.VStage k v := fun v h => (hv.2 v).1 (hp.sub v h)
      obtain ⟨r1, hr1, hp1⟩ := select_option (O := O) hq hv.1 hd' hdd b hsel
      simp only [stages, hsel] at hrun
      simp only [stages, hr1]
      split at hrun
      case isTrue h =>
        cases hrun
        rw [if_pos h]
        exact ⟨_, rfl, hp1⟩
      case isFalse h =>
        rw [if_neg h]
        refine stages_option hS hq b n (k + 1) _ _ (d ++ new) r1 r (pred_eqs hS he) (pred_vars hS hv) (fun v k' hk' h hmem => ?_) hp1 hrun
        rcases List.mem_append.1 hmem with h' | h'
        · exact hd v k' (by omega) h h'
        · have := vlevel_unique (hnew v h').1 h.1
          omega
    · simp [stages, hsel] at hrun
    · simp [stages, hsel] at hrun

/-! ### the output information -/

theorem newInfo_right (hS : S.Ok) {tape : Nat → Nat} (htape : ∀ v w, v < S.nv → w < S.nv → tape v = tape w → v = w) :
    ∀ (d : List Nat) (info : Nat → Info), (∀ v ∈ d, (S.anti v).isSome = true) →
    ∃ info', newInfo S tape info d = some info' ∧ ∀ v, v < S.nv →
      (info' (tape v)).anti = (if v ∈ d then none else (info (tape v)).anti) ∧
      (info' (tape v)).der = (if ∃ u ∈ d, S.der v = some u then none else (info (tape v)).der)
  | [], info, _ => ⟨info, rfl, fun v _ => by simp⟩
  | u :: d, info, h => by
    obtain ⟨w, hw⟩ := Option.isSome_iff_exists.1 (h u List.mem_cons_self)
    have hwu := hS.anti_lt u w hw
    have hdw := (hS.anti_der u w).1 hw
    simp only [newInfo, hw]
    obtain ⟨info', hrun, hinfo⟩ := newInfo_right hS htape d _ fun v hv => h v (List.mem_cons_of_mem u hv)
    refine ⟨info', hrun, fun v hv => ?_⟩
    rw [(hinfo v hv).1, (hinfo v hv).2]
    have e1 : tape v = tape u ↔ v = u := ⟨htape v u hv hwu.2, fun h => by rw [h]⟩
    have e2 : tape v = tape w ↔ v = w := ⟨htape v w hv (by omega), fun h => by rw [h]⟩
    have e3 : S.der v = some u ↔ v = w := ⟨fun h => by
      have := (hS.anti_der u v).2 h
      rw [hw] at this; exact (Option.some.inj this).symm, fun h => by rw [h]; exact hdw⟩
    simp only [e1, e2, List.mem_cons, exists_eq_or_imp, e3]
    clear hinfo hrun h htape hwu e1 e2 e3 hdw hw
    constructor
    · by_cases h1 : v ∈ d
      · simp only [h1, or_true, if_true]
      · simp only [h1, or_false, if_false]
        split_ifs <;> rfl
    · by_cases h1 : ∃ u ∈ d, S.der v = some u
      · simp only [h1, or_true, if_true]
      · simp only [h1, or_false, if_false]
        split_ifs <;> rfl

end Verif.Dae.Dummy
