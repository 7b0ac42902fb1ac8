import Verif.Solve.LemmasCoef
import Verif.Solve.LemmasTop
import Mathlib.Tactic.Ring
import Mathlib.Tactic.FieldSimp
/- Clones of expressions: what the two uses of the evaluator compute. -/
namespace Verif.Solve
open Verif.Codegen Verif.Cg Verif.Paths Verif.Eval

section
variable {α : Type}

theorem sound_and {A S : Type} {O : Ops α A S} {I : Interp α} {Le : S → S → Prop} {Ok : S → Prop} {Va : S → A → Prop}
    {Fin : S → Prop} {Den : A → α → Prop} {Dom : Op → List α → Prop} (H : Sound O I Le Ok Va Fin Den Dom) (P : Prop) :
    Sound O I Le Ok Va (fun s => Fin s ∧ P) Den Dom where
  refl := H.refl
  trans := H.trans
  va_mono := H.va_mono
  fin_mono h hf := ⟨H.fin_mono h hf.1, hf.2⟩
  va_const := H.va_const
  den_const := H.den_const
  step op as s h1 h2 h3 h4 h5 := by
    obtain ⟨r, s', e, h6, h7, h8, h9⟩ := H.step op as s h1 h2 h3 h4 h5
    exact ⟨r, s', e, h6, h7, h8, fun hf => h9 hf.1⟩

/-- the depth of the old operations does not change -/
theorem rank_ext {w w' : World α} (hext : Ext w w') (hc : Closed w) (h : ∃ rank, Ranked w.graph rank)
    (h' : ∃ rank, Ranked w'.graph rank) :
    ∃ rank, Ranked w'.graph rank ∧ ∀ n, n < w.nodes.length → rank n ≤ w.nodes.length := by
  obtain ⟨rank, hr, hle⟩ := rank_bounded hc h
  obtain ⟨rank', hr'⟩ := h'
  refine ⟨fun n => if n < w.nodes.length then rank n else w.nodes.length + 1 + rank' n, ?_, ?_⟩
  · intro n m hm
    by_cases hn : n < w.nodes.length
    · have hm' : m ∈ kids w.graph n := by
        unfold kids at hm ⊢; rwa [graph_ext hext hn] at hm
      have hml : m < w.nodes.length := by
        unfold kids argNodes at hm'
        rw [List.mem_filterMap] at hm'
        obtain ⟨a, ha, hm'⟩ := hm'
        cases a with
        | param v => cases hm'
        | node k =>
          cases hm'
          obtain ⟨i, hi⟩ := List.getElem?_of_mem ha
          exact closed_kid hc hi
      simp only [hn, hml, if_true]
      exact hr n m hm'
    · have := hr' n m hm
      simp only [hn, if_false]
      by_cases hml : m < w.nodes.length
      · simp only [hml, if_true]
        have := hle m
        omega
      · simp only [hml, if_false]; omega
  · intro n hn
    simp only [hn, if_true]
    exact hle n

open Classical in
/-- a clone computes what is meant -/
theorem cloneExpr_does {I : Interp α} (L : Laws I) {ord : Op → List Nat} {depth : Nat}
    {hook : List (Nat × Nat) → Nat → Option (Cg α)} {h0 : Nat} {av : Option Nat} {w : World α} (hw : OkW h0 av w)
    {n : Nat} {rank : Nat → Nat} (hd : rank n < depth) (P : (Nat → α) → Prop) (D : (Nat → α) → Nat → α)
    (hM : ∀ x val, Means (cloneSetup I w ord hook) I (VaC av) (fun s => s.Val I x val ∧ P val) (Good False val) (cgDom I)
      [n] rank w (D val)) :
    Does I h0 av w (cloneExpr I w ord depth hook n) (fun val => if P val then some (D val n) else none) := by
  have main : ∀ x val, ∃ c w', cloneExpr I w ord depth hook n = .ok (c, w') ∧ Grow w w' ∧ OkW h0 av w' ∧ VaC av w' c ∧
      (w'.Val I x val ∧ P val → Good False val c (D val n)) := by
    intro x val
    obtain ⟨ys, st', e, h1, h2, h3, h4, h5⟩ := evalAll_spec (fuel := depth)
      (sound_and (cg_sound L h0 av x val) (P val)) (hM x val) [⟨some n, none⟩] ⟨fun _ => none, w⟩
      (by
        intro c hc m hm
        rw [List.mem_singleton] at hc
        subst hc
        cases hm
        exact ⟨List.mem_singleton.mpr rfl, hd⟩)
      (by
        intro c hc hn
        rw [List.mem_singleton] at hc
        subst hc; cases hn)
      ⟨.inl rfl, hw, (fun n a h => by cases h), (fun _ n a h => by cases h)⟩
    match ys, h4 with
    | [c], _ =>
      refine ⟨c, st'.st, ?_, ?_, h1.ok, h3 c (List.mem_singleton.mpr rfl), ?_⟩
      · unfold cloneExpr evaluate
        rw [if_neg (by simp [cloneSetup]), e]
        simp [Evaluator.new]
      · rcases h2 with h2 | ⟨h2, _⟩
        · have : w = st'.st := h2
          rw [← this]; exact Grow.refl _
        · exact h2
      · intro hf
        exact h5 hf 0 _ c rfl rfl (D val n) rfl
  obtain ⟨c, w', e, h1, h2, h3, _⟩ := main (fun _ => I.zero) (fun _ => I.zero)
  refine ⟨c, w', e, h1, h2, h3, ?_⟩
  intro x val hv p hp
  by_cases hP : P val
  · simp only [hP, if_true] at hp
    cases hp
    obtain ⟨c', w'', e', _, _, _, h4⟩ := main x val
    rw [e] at e'
    cases e'
    exact h4 ⟨hv, hP⟩
  · simp only [hP, if_false] at hp; cases hp

/-! ### paths -/

theorem visit_route {A S : Type} {E : Setup α A S} {n : Nat} {path : List (Nat × Nat)} {m : Nat} (h : Visit E [n] path m) :
    ∃ pre, Route E.G n pre m ∧ path.map (fun s => (s.1, some s.2)) = edgesUp E.G n pre := by
  induction h with
  | root hm =>
    rw [List.mem_singleton] at hm
    subst hm
    exact ⟨[], route_nil.mpr rfl, rfl⟩
  | @arg p u i m _ _ hi ih =>
    obtain ⟨pre, h1, h2⟩ := ih
    refine ⟨pre ++ [i], route_append.mpr ⟨u, h1, route_cons.mpr ⟨m, hi, route_nil.mpr rfl⟩⟩, ?_⟩
    rw [List.map_append, h2, edgesUp_append h1]
    simp [edgesUp, hi]

theorem edgesUp_snd {G : Graph α} : ∀ (is : List Nat) (n t : Nat), Route G n is t →
    (edgesUp G n is).map Prod.snd = is.map some := by
  intro is
  induction is with
  | nil => intro n t _; rfl
  | cons i is ih =>
    intro n t h
    obtain ⟨m, hi, h'⟩ := route_cons.mp h
    simp only [edgesUp, hi, List.map_cons, ih m t h']

theorem stepsUp_take {G : Graph α} : ∀ (is : List Nat) (n t k : Nat), Route G n is t → k ≤ is.length →
    ((stepsUp G n is).take k).map Prod.snd = (is.take k).map some := by
  intro is
  induction is with
  | nil => intro n t k _ hk; simp at hk; subst hk; rfl
  | cons i is ih =>
    intro n t k h hk
    obtain ⟨m, hi, h'⟩ := route_cons.mp h
    rw [stepsUp_cons hi]
    cases k with
    | zero => rfl
    | succ k =>
      simp only [List.take_succ_cons, List.map_cons]
      rw [ih m t k h' (by simpa using hk)]

theorem stepsUp_length {G : Graph α} : ∀ (is : List Nat) (n t : Nat), Route G n is t →
    (stepsUp G n is).length = is.length + 1 := by
  intro is
  induction is with
  | nil => intro n t _; rfl
  | cons i is ih =>
    intro n t h
    obtain ⟨m, hi, h'⟩ := route_cons.mp h
    rw [stepsUp_cons hi, List.length_cons, ih m t h', List.length_cons]

theorem onPath_iff {G : Graph α} {n t m : Nat} {is pre : List Nat} (his : Route G n is t) (hpre : Route G n pre m)
    {path : List (Nat × Nat)} (hp : path.map (fun s => (s.1, some s.2)) = edgesUp G n pre) :
    isOnPath (stepsUp G n is) path m = true ↔ ∃ suf, is = pre ++ suf := by
  have hlen : path.length = pre.length := by
    have := congrArg List.length hp
    rwa [List.length_map, edgesUp_length hpre] at this
  unfold isOnPath
  constructor
  · intro h
    have hlt : path.length < (stepsUp G n is).length := by
      by_contra hge
      rw [List.getElem?_eq_none (by omega)] at h
      simp at h
    rw [stepsUp_length is n t his] at hlt
    rw [List.getElem?_eq_getElem (by rw [stepsUp_length is n t his]; exact hlt)] at h
    simp only [Bool.and_eq_true, beq_iff_eq] at h
    have h2 := congrArg (List.map Prod.snd) h.2
    rw [hp, edgesUp_snd pre n m hpre, stepsUp_take is n t _ his (by omega)] at h2
    have h3 : is.take path.length = pre := by
      have hinj : Function.Injective (some : Nat → Option Nat) := fun a b h => Option.some.inj h
      exact List.map_injective_iff.mpr hinj h2
    exact ⟨is.drop path.length, by rw [← h3]; exact (List.take_append_drop _ _).symm⟩
  · rintro ⟨suf, rfl⟩
    obtain ⟨m', h1, h2⟩ := route_append.mp his
    have := route_unique hpre h1
    subst this
    rw [stepsUp_append hpre]
    have hlen' : path.length = (edgesUp G n pre).length := by rw [edgesUp_length hpre, hlen]
    rw [hlen', List.getElem?_append_right (Nat.le_refl _), Nat.sub_self]
    obtain ⟨i, rest, e⟩ := stepsUp_head h2
    rw [e]
    simp only [List.getElem?_cons_zero, List.take_left', beq_self_eq_true, Bool.true_and]
    rw [hp]
    simp

/-- the flags of a path depend only on what follows -/
theorem replaced_append {G : Graph α} {v : Nat} : ∀ (pre : List Nat) (n m : Nat) (suf : List Nat), Route G n pre m →
    Route G m suf v → (replaced G (stepsUp G n (pre ++ suf))).getD pre.length false =
      (replaced G (stepsUp G m suf)).headD false := by
  intro pre
  induction pre with
  | nil =>
    intro n m suf h _
    rw [route_nil] at h
    subst h
    rw [List.nil_append, List.length_nil]
    cases replaced G (stepsUp G n suf) <;> rfl
  | cons i pre ih =>
    intro n m suf h h'
    obtain ⟨u, hi, h1⟩ := route_cons.mp h
    rw [List.cons_append, stepsUp_cons hi, List.length_cons, ← ih u m suf h1 h']
    have hne : stepsUp G u (pre ++ suf) ≠ [] := stepsUp_ne (route_append.mpr ⟨m, h1, h'⟩)
    cases hs : stepsUp G u (pre ++ suf) with
    | nil => exact absurd hs hne
    | cons a b =>
      show (replaced G ((n, some i) :: a :: b)).getD _ _ = _
      rw [replaced] <;> simp

theorem replaced_cons {G : Graph α} {n i m v : Nat} {is : List Nat} (hi : (G n).args[i]? = some (.node m))
    (h : Route G m is v) : (replaced G (stepsUp G n (i :: is))).headD false =
      (vanishes (G n).op && (replaced G (stepsUp G m is)).headD false) := by
  rw [stepsUp_cons hi]
  have hne : stepsUp G m is ≠ [] := stepsUp_ne h
  cases hs : stepsUp G m is with
  | nil => exact absurd hs hne
  | cons a b =>
    show (replaced G ((n, some i) :: a :: b)).headD _ = _
    rw [replaced] <;> simp

end

/-! ### affine dependence -/

theorem step_affine {I : Interp ℝ} (R : RealI I) {nd : Node ℝ} (hs : Shaped nd) {i : Nat}
    (hi : i < nd.args.length) (hcol : collectable nd (some i) = true) {vs : List ℝ} (hlen : vs.length = nd.args.length)
    (hdiv : nd.op = .div → vs.getD 1 0 ≠ 0) {p : ℝ} (hsem : opSem I nd.op vs = some p) (d : ℝ) :
    opSem I nd.op (vs.set i (vs.getD i 0 - d)) = some (p - passes nd.op i vs * d) := by
  obtain ⟨op, args⟩ := nd
  unfold Shaped at hs
  simp only at hs hi hlen hdiv hsem ⊢
  rw [hs] at hi hlen
  have one : arity op = 1 → ∃ a, vs = [a] ∧ i = 0 := by
    intro h
    rw [h] at hlen hi
    match vs, hlen with
    | [a], _ => exact ⟨a, rfl, by omega⟩
  have two : arity op = 2 → ∃ a b, vs = [a, b] ∧ (i = 0 ∨ i = 1) := by
    intro h
    rw [h] at hlen hi
    match vs, hlen with
    | [a, b], _ => exact ⟨a, b, rfl, by omega⟩
  unfold collectable at hcol
  cases op
  case add =>
    obtain ⟨a, b, rfl, rfl | rfl⟩ := two rfl <;>
    · simp only [opSem, Option.some.injEq, R.add] at hsem
      subst hsem
      simp [opSem, R.add, passes]; ring
  case sub =>
    obtain ⟨a, b, rfl, rfl | rfl⟩ := two rfl <;>
    · simp only [opSem, Option.some.injEq, R.sub] at hsem
      subst hsem
      simp [opSem, R.sub, passes]; ring
  case mul =>
    obtain ⟨a, b, rfl, rfl | rfl⟩ := two rfl <;>
    · simp only [opSem, Option.some.injEq, R.mul] at hsem
      subst hsem
      simp [opSem, R.mul, passes]; ring
  case div =>
    have h0 : i = 0 := by simpa using hcol
    subst h0
    obtain ⟨a, b, rfl, _⟩ := two rfl
    have hb := hdiv rfl
    simp only [List.getD_cons_succ, List.getD_cons_zero] at hb
    simp only [opSem, Option.some.injEq, R.div] at hsem
    subst hsem
    simp only [opSem, R.div, passes, List.set_cons_zero, List.getD_cons_succ, List.getD_cons_zero, Option.some.injEq]
    field_simp
  case neg =>
    obtain ⟨a, rfl, rfl⟩ := one rfl
    simp only [opSem, Option.some.injEq, R.neg] at hsem
    subst hsem
    simp [opSem, R.neg, passes]; ring
  case «alias» =>
    obtain ⟨a, rfl, rfl⟩ := one rfl
    simp only [opSem, Option.some.injEq] at hsem
    subst hsem
    simp [opSem, passes]
  all_goals simp at hcol

theorem vanish_sem {I : Interp ℝ} (R : RealI I) {nd : Node ℝ} (hs : Shaped nd) {i : Nat}
    (hi : i < nd.args.length) (hcol : collectable nd (some i) = true) (hv : vanishes nd.op = true) {vs : List ℝ}
    (hlen : vs.length = nd.args.length) : opSem I nd.op (vs.set i 0) = some 0 := by
  obtain ⟨op, args⟩ := nd
  unfold Shaped at hs
  simp only at hs hi hlen ⊢
  rw [hs] at hi hlen
  have one : arity op = 1 → ∃ a, vs = [a] ∧ i = 0 := by
    intro h
    rw [h] at hlen hi
    match vs, hlen with
    | [a], _ => exact ⟨a, rfl, by omega⟩
  have two : arity op = 2 → ∃ a b, vs = [a, b] ∧ (i = 0 ∨ i = 1) := by
    intro h
    rw [h] at hlen hi
    match vs, hlen with
    | [a, b], _ => exact ⟨a, b, rfl, by omega⟩
  unfold collectable at hcol
  cases op
  case mul => obtain ⟨a, b, rfl, rfl | rfl⟩ := two rfl <;> simp [opSem, R.mul]
  case div =>
    have h0 : i = 0 := by simpa using hcol
    subst h0
    obtain ⟨a, b, rfl, _⟩ := two rfl
    simp [opSem, R.div]
  case neg => obtain ⟨a, rfl, rfl⟩ := one rfl; simp [opSem, R.neg]
  case «alias» => obtain ⟨a, rfl, rfl⟩ := one rfl; simp [opSem]
  all_goals simp [vanishes] at hv

end Verif.Solve
