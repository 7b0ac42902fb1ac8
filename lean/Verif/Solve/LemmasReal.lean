import Mathlib.Analysis.SpecialFunctions.Arcosh
import Mathlib.Analysis.SpecialFunctions.Artanh
import Verif.Solve.Spec
import Verif.Solve.Lemmas
/- The inverses used by the solver over the real numbers. -/
namespace Verif.Solve
open Verif.Codegen Verif.Cg Verif.Paths Verif.Eval

theorem real_laws {I : Interp ℝ} (R : RealI I) : Laws I where
  zero_add a := by rw [R.add, R.zero, zero_add]
  add_zero a := by rw [R.add, R.zero, add_zero]
  sub_zero a := by rw [R.sub, R.zero, sub_zero]
  zero_mul a := by rw [R.mul, R.zero, zero_mul]
  mul_zero a := by rw [R.mul, R.zero, mul_zero]
  one_mul a := by rw [R.mul, R.one, one_mul]
  mul_one a := by rw [R.mul, R.one, mul_one]
  zero_div a _ := by rw [R.div, R.zero, zero_div]
  div_one a := by rw [R.div, R.one, div_one]
  div_self a h := by rw [R.div, R.one]; exact div_self (by rwa [R.zero] at h)
  pow_zero a := by rw [R.pow, R.zero, R.one, Real.rpow_zero]
  pow_one a := by rw [R.pow, R.one, Real.rpow_one]
  eq_iff := R.eq
  trichotomy a h h' := by
    rw [R.lt]
    have h1 : ¬ a > I.zero := by rw [← R.gt, h]; simp
    exact lt_of_le_of_ne (not_lt.mp h1) h'
  zero_not_lt := by
    rw [← Bool.not_eq_true, R.lt]; exact lt_irrefl _
  zero_not_gt := by
    rw [← Bool.not_eq_true, R.gt]; exact lt_irrefl _

theorem log_add_sqrt_cosh {v : ℝ} (hv : 0 ≤ v) :
    Real.log (Real.cosh v + Real.sqrt (Real.cosh v * Real.cosh v - 1)) = v := by
  have := Real.arcosh_cosh hv
  unfold Real.arcosh at this
  rw [← pow_two]; exact this

theorem log_add_sqrt_sinh (v : ℝ) :
    Real.log (Real.sinh v + Real.sqrt (Real.sinh v * Real.sinh v + 1)) = v := by
  have := Real.arsinh_sinh v
  unfold Real.arsinh at this
  rw [← pow_two, add_comm (_ ^ 2)]; exact this

theorem half_logs_tanh (v : ℝ) :
    (1 / 2) * (Real.log (1 + Real.tanh v) - Real.log (1 - Real.tanh v)) = v := by
  have h := Real.artanh_tanh v
  have h1 := Real.tanh_lt_one v
  have h2 : -1 < Real.tanh v := by
    have := Real.tanh_lt_one (-v)
    rw [Real.tanh_neg] at this; linarith
  rw [Real.artanh_eq_half_log ⟨h2.le, h1.le⟩, Real.log_div (by linarith) (by linarith)] at h
  exact h

/-- what is known about the operations which can be inverted -/
def Invertible (op : Op) (i : Nat) (vs : List ℝ) : Prop :=
  match op with
  | .mul | .div | .neg | .add | .alias | .sub | .un .exp | .un .log | .un .sqrt | .un .cosh | .un .sinh
  | .un .tanh => True
  | .pow => i = 0 → vs.getD 1 0 = 1
  | _ => False

theorem direct_div {I : Interp ℝ} (R : RealI I) (dec : DecidableEq ℝ) {a b : ℝ} (h : b ≠ 0) :
    Bin.div.direct I a b = some (a / b) := by
  have e : Bin.div.direct I a b = if b = I.zero then none else some (I.div a b) := rfl
  rw [e, if_neg (by rw [R.zero]; exact h), R.div]

theorem undo_regular {I : Interp ℝ} (R : RealI I) (dec : DecidableEq ℝ) {half : ℝ} (hh : half = 1 / 2) {op : Op}
    {i : Nat} {vs : List ℝ} {v p : ℝ} (hlen : vs.length = arity op) (hi : i < vs.length)
    (hop : Invertible op i vs) (hsem : opSem I op (vs.set i v) = some p) (hreg : Regular op i vs v) :
    undo I half op (i == 0) vs p = some v := by
  subst hh
  have one : arity op = 1 → ∃ a, vs = [a] ∧ i = 0 := by
    intro h
    rw [h] at hlen
    match vs, hlen with
    | [a], _ => exact ⟨a, rfl, by simpa using hi⟩
  have two : arity op = 2 → ∃ a b, vs = [a, b] ∧ (i = 0 ∨ i = 1) := by
    intro h
    rw [h] at hlen
    match vs, hlen with
    | [a, b], _ =>
      refine ⟨a, b, rfl, ?_⟩
      simp only [List.length_cons, List.length_nil] at hi; omega
  unfold Invertible at hop
  cases op with
  | mul =>
    obtain ⟨a, b, rfl, rfl | rfl⟩ := two rfl
    · simp only [List.set_cons_zero, opSem, Option.some.injEq] at hsem
      simp only [Regular, List.getD_cons_succ, List.getD_cons_zero] at hreg
      subst hsem
      simp only [undo, beq_self_eq_true, if_true, List.getD_cons_succ, List.getD_cons_zero]
      rw [direct_div R dec hreg, R.mul, mul_div_assoc, div_self hreg, mul_one]
    · simp only [List.set_cons_zero, List.set_cons_succ, opSem, Option.some.injEq] at hsem
      simp only [Regular, List.getD_cons_zero] at hreg
      subst hsem
      simp only [undo, List.getD_cons_zero]
      rw [if_neg (by simp), direct_div R dec hreg, R.mul, mul_comm, mul_div_assoc, div_self hreg, mul_one]
  | div =>
    obtain ⟨a, b, rfl, rfl | rfl⟩ := two rfl
    · simp only [List.set_cons_zero, opSem, Option.some.injEq] at hsem
      simp only [Regular, List.getD_cons_succ, List.getD_cons_zero] at hreg
      subst hsem
      simp only [undo, beq_self_eq_true, if_true, List.getD_cons_succ, List.getD_cons_zero]
      rw [R.mul, R.div, div_mul_cancel₀ _ hreg]
    · simp only [List.set_cons_zero, List.set_cons_succ, opSem, Option.some.injEq] at hsem
      simp only [Regular, List.getD_cons_zero] at hreg
      subst hsem
      simp only [undo, List.getD_cons_zero]
      rw [if_neg (by simp), R.div, direct_div R dec (div_ne_zero hreg.1 hreg.2), div_div_cancel₀ hreg.1]
  | neg =>
    obtain ⟨a, rfl, rfl⟩ := one rfl
    simp only [List.set_cons_zero, opSem, Option.some.injEq] at hsem
    subst hsem
    simp only [undo]
    rw [R.mul, R.neg, R.negOne]; simp
  | add =>
    obtain ⟨a, b, rfl, rfl | rfl⟩ := two rfl
    · simp only [List.set_cons_zero, opSem, Option.some.injEq] at hsem
      subst hsem
      simp only [undo, beq_self_eq_true, if_true, List.getD_cons_succ, List.getD_cons_zero]
      rw [R.sub, R.add]; simp
    · simp only [List.set_cons_zero, List.set_cons_succ, opSem, Option.some.injEq] at hsem
      subst hsem
      simp only [undo, List.getD_cons_zero]
      rw [if_neg (by simp), R.sub, R.add]; simp
  | sub =>
    obtain ⟨a, b, rfl, rfl | rfl⟩ := two rfl
    · simp only [List.set_cons_zero, opSem, Option.some.injEq] at hsem
      subst hsem
      simp only [undo, beq_self_eq_true, if_true, List.getD_cons_succ, List.getD_cons_zero]
      rw [R.sub, R.add]; simp
    · simp only [List.set_cons_zero, List.set_cons_succ, opSem, Option.some.injEq] at hsem
      subst hsem
      simp only [undo, List.getD_cons_zero]
      rw [if_neg (by simp), R.sub, R.sub]; simp
  | «alias» =>
    obtain ⟨a, rfl, rfl⟩ := one rfl
    simp only [List.set_cons_zero, opSem, Option.some.injEq] at hsem
    subst hsem; rfl
  | pow =>
    obtain ⟨a, b, rfl, rfl | rfl⟩ := two rfl
    · have hb := hop rfl
      simp only [List.getD_cons_succ, List.getD_cons_zero] at hb
      subst hb
      simp only [List.set_cons_zero, opSem, Option.some.injEq] at hsem
      subst hsem
      simp only [undo, beq_self_eq_true, if_true]
      rw [R.pow, Real.rpow_one]
    · simp only [List.set_cons_zero, List.set_cons_succ, opSem, Option.some.injEq] at hsem
      simp only [Regular, List.getD_cons_zero] at hreg
      subst hsem
      simp only [undo, List.getD_cons_zero]
      have hl : Real.log a ≠ 0 := by
        intro h
        rcases Real.log_eq_zero.mp h with h | h | h
        · exact absurd h hreg.1.ne'
        · exact hreg.2 h
        · linarith [hreg.1]
      rw [if_neg (by simp), R.log, R.log, R.pow, Real.log_rpow hreg.1, direct_div R dec hl, mul_div_assoc,
        div_self hl, mul_one]
  | un fn =>
    obtain ⟨a, rfl, rfl⟩ := one rfl
    cases fn <;> simp only at hop
    all_goals simp only [List.set_cons_zero, opSem, Option.some.injEq] at hsem
    all_goals subst hsem
    all_goals simp only [Regular] at hreg
    all_goals simp only [undo, R.log, R.exp, R.sqrt, R.cosh, R.sinh, R.tanh, R.add, R.mul, R.sub, R.one,
      Option.some.injEq]
    · exact log_add_sqrt_cosh hreg
    · exact Real.log_exp v
    · exact Real.exp_log hreg
    · exact log_add_sqrt_sinh v
    · exact Real.mul_self_sqrt hreg
    · exact half_logs_tanh v
  | inv => exact hop.elim
  | assign => exact hop.elim
  | sign => exact hop.elim
  | cond c => exact hop.elim

/-- what `isSolvable` accepts can be inverted -/
theorem invertible_of_step {I : Interp ℝ} (R : RealI I) {nd : Node ℝ} {i : Nat} (hs : Shaped nd) (val : Nat → ℝ)
    (h : solvableStep I nd (i == 0) = .ok true) : Invertible nd.op i (nd.args.map (argVal val)) := by
  obtain ⟨op, args⟩ := nd
  unfold Shaped at hs
  simp only at hs ⊢
  cases op with
  | mul | div | neg | add | «alias» | sub => trivial
  | un fn => cases fn <;> first | trivial | cases h
  | inv => cases h
  | assign => cases h
  | sign => cases h
  | cond c => cases h
  | pow =>
    intro hi
    subst hi
    match args, hs with
    | [a, b], _ =>
      cases b with
      | node n => cases h
      | param v =>
        have e : solvableStep I ⟨.pow, [a, .param v]⟩ true = (if I.cmp .eq v I.zero then .ok false
            else if I.cmp .eq v I.one then .ok true else .ok false) := rfl
        rw [show ((0 : Nat) == 0) = true from rfl, e] at h
        split at h
        · cases h
        · split at h
          · rename_i h2
            rw [R.eq, R.one] at h2
            simpa [argVal] using h2
          · cases h

/-- the value needed at the end of the route is the one found by the inverses -/
theorem need_undo {I : Interp ℝ} (R : RealI I) (dec : DecidableEq ℝ) {half : ℝ} (hh : half = 1 / 2) {G : Graph ℝ}
    (hs : ShapedG G) {val : Nat → ℝ} {n : Nat} {is : List Nat} {p q : ℝ} (h : Need I G val n is p q) :
    isSolvablePath I G (stepsUp G n is) = .ok true → undoAlong I half G val n is p = some q := by
  induction h with
  | here => intro _; rfl
  | @step n i m is p v q hi hsem hreg hn ih =>
    intro hsol
    have hne : stepsUp G m is ≠ [] := by
      cases is with
      | nil => simp [stepsUp]
      | cons j js =>
        cases hn with
        | step h1 _ _ _ => rw [stepsUp_cons h1]; simp
    rw [stepsUp_cons hi, isSolvablePath_cons hne, some_beq_zero] at hsol
    have hstep : solvableStep I (G n) (i == 0) = .ok true := by
      cases h : solvableStep I (G n) (i == 0) with
      | error e => rw [h] at hsol; cases hsol
      | ok b => cases b with
        | true => rfl
        | false => rw [h] at hsol; cases hsol
    rw [hstep] at hsol
    have hlt : i < ((G n).args.map (argVal val)).length := by
      rw [List.length_map]; exact (List.getElem?_eq_some_iff.mp hi).1
    have := undo_regular R dec hh (by rw [List.length_map]; exact hs n) hlt
      (invertible_of_step R (hs n) val hstep) hsem hreg
    simp only [undoAlong, hi, this, Option.bind_some]
    exact ih hsol

theorem val_node {I : Interp ℝ} {w : World ℝ} {x val : Nat → ℝ} (hv : w.Val I x val) (hs : ShapedG w.graph) {n i : Nat}
    {a : Arg ℝ} (hi : (w.graph n).args[i]? = some a) :
    opSem I (w.graph n).op ((w.graph n).args.map (argVal val)) = some (val n) := by
  by_cases hn : n < w.nodes.length
  · obtain ⟨⟨nd, h⟩, e⟩ : ∃ q, w.nodes[n]? = some q := ⟨_, List.getElem?_eq_getElem hn⟩
    have hg := graph_of e
    have hsn := hs n
    unfold Shaped at hsn
    rw [hg] at hi hsn ⊢
    refine hv.2 n nd h e ?_
    intro h0
    rw [h0] at hsn
    rw [List.length_eq_zero_iff.mp hsn] at hi
    cases hi
  · rw [graph_none (by omega)] at hi; cases hi

theorem set_val {val : Nat → ℝ} {args : List (Arg ℝ)} {i m : Nat} (hi : args[i]? = some (.node m)) :
    (args.map (argVal val)).set i (val m) = args.map (argVal val) := by
  apply List.ext_getElem?
  intro j
  rw [List.getElem?_set]
  by_cases hj : i = j
  · subst hj
    have hlt := (List.getElem?_eq_some_iff.mp hi).1
    rw [if_pos rfl, if_pos (by rw [List.length_map]; exact hlt), List.getElem?_map, hi]; rfl
  · rw [if_neg hj]

/-- `val` itself is a chain of needed values -/
theorem need_val {I : Interp ℝ} {w : World ℝ} {x val : Nat → ℝ} (hv : w.Val I x val) (hs : ShapedG w.graph) {t : Nat} :
    ∀ (is : List Nat) (n : Nat), Route w.graph n is t → RegularAlong w.graph val n is →
      Need I w.graph val n is (val n) (val t) := by
  intro is
  induction is with
  | nil => intro n h _; rw [route_nil] at h; subst h; exact .here
  | cons i is ih =>
    intro n h hr
    obtain ⟨m, hi, h'⟩ := route_cons.mp h
    simp only [RegularAlong, hi] at hr
    refine .step hi ?_ hr.1 (ih m h' hr.2)
    rw [set_val hi]
    exact val_node hv hs hi

/-- putting the needed value gives the value -/
theorem need_gives {I : Interp ℝ} {w : World ℝ} {x val : Nat → ℝ} (hv : w.Val I x val) (hs : ShapedG w.graph) {t : Nat}
    {n : Nat} {is : List Nat} {p q : ℝ} (h : Need I w.graph val n is p q) :
    Route w.graph n is t → val t = q → val n = p := by
  induction h with
  | here => intro h e; rw [route_nil] at h; subst h; exact e
  | @step n i m is p v q hi hsem hreg hn ih =>
    intro hr e
    obtain ⟨m', hi', h'⟩ := route_cons.mp hr
    rw [hi] at hi'; cases hi'
    have hm := ih h' e
    subst hm
    rw [set_val hi, val_node hv hs hi] at hsem
    exact Option.some.inj hsem

end Verif.Solve
