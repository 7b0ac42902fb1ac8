import Mathlib.Analysis.SpecialFunctions.Log.Base
import Mathlib.Tactic.FieldSimp
import Mathlib.Tactic.Ring
import Verif.Solve.LemmasReal
import Verif.Solve.LemmasTop
/- Evaluations which differ in one variable, and values which can be attained. -/
namespace Verif.Solve
open Verif.Codegen Verif.Cg Verif.Paths Verif.Eval

variable {α : Type}

theorem reaches_kid {G : Graph α} {n i m v : Nat} (hi : (G n).args[i]? = some (.node m)) (h : Reaches G m v) :
    Reaches G n v := by
  obtain ⟨is, h⟩ := h
  exact ⟨i :: is, route_cons.mpr ⟨m, hi, h⟩⟩

/-- what does not depend on `v` has the same value -/
theorem val_avoid {I : Interp α} {w : World α} (hr : ∃ rank, Ranked w.graph rank) {v : Nat} {x x' val val' : Nat → α}
    (hdecl : ∀ (n : Nat) nd h, w.nodes[n]? = some (nd, h) → nd.op = .inv → n ∈ w.indeps)
    (hv : w.Val I x val) (hv' : w.Val I x' val')
    (hx : ∀ (j n : Nat), w.indeps[j]? = some n → n ≠ v → x' j = x j) :
    ∀ n, n < w.nodes.length → Closed w → ¬ Reaches w.graph n v → val' n = val n := by
  obtain ⟨rank, hrank⟩ := hr
  suffices ∀ k n, rank n < k → n < w.nodes.length → Closed w → ¬ Reaches w.graph n v → val' n = val n from
    fun n => this (rank n + 1) n (Nat.lt_succ_self _)
  intro k
  induction k with
  | zero => intro n h; omega
  | succ k ih =>
    intro n hk hn hc hav
    obtain ⟨⟨nd, h⟩, e⟩ : ∃ q, w.nodes[n]? = some q := ⟨_, List.getElem?_eq_getElem hn⟩
    have hg := graph_of e
    by_cases hop : nd.op = .inv
    · obtain ⟨j, hj⟩ := List.getElem?_of_mem (hdecl n nd h e hop)
      rw [hv.1 j n hj, hv'.1 j n hj]
      refine hx j n hj fun h => hav ?_
      subst h; exact ⟨[], route_nil.mpr rfl⟩
    · have h1 := hv.2 n nd h e hop
      have h2 := hv'.2 n nd h e hop
      have : nd.args.map (argVal val') = nd.args.map (argVal val) := by
        apply List.map_congr_left
        intro a ha
        cases a with
        | param c => rfl
        | node m =>
          obtain ⟨i, hi⟩ := List.getElem?_of_mem ha
          rw [← hg] at hi
          refine ih m ?_ (closed_kid hc hi) hc fun h => hav (reaches_kid hi h)
          have := hrank n m (Eval.mem_kids_of hi)
          omega
      rw [this, h1] at h2
      exact (Option.some.inj h2).symm

theorem regular_set (op : Op) (i : Nat) (vs : List ℝ) (u v : ℝ) : Regular op i (vs.set i u) v ↔ Regular op i vs v := by
  cases op with
  | mul =>
    match i with
    | 0 => simp only [Regular]; cases vs <;> simp
    | i + 1 => simp only [Regular]; cases vs <;> simp
  | div =>
    match i with
    | 0 => simp only [Regular]; cases vs <;> simp
    | i + 1 => simp only [Regular]; cases vs <;> simp
  | pow =>
    match i with
    | 0 => simp only [Regular]
    | i + 1 => simp only [Regular]; cases vs <;> simp
  | un f => cases f <;> simp only [Regular]
  | _ => simp only [Regular]

/-- needed values do not depend on the variable at the end of the only route -/
theorem need_transfer {I : Interp ℝ} {w : World ℝ} (hc : Closed w) (hr : ∃ rank, Ranked w.graph rank) {v : Nat} {x x' val val' : Nat → ℝ}
    (hdecl : ∀ (n : Nat) nd h, w.nodes[n]? = some (nd, h) → nd.op = .inv → n ∈ w.indeps)
    (hv : w.Val I x val) (hv' : w.Val I x' val')
    (hx : ∀ (j n : Nat), w.indeps[j]? = some n → n ≠ v → x' j = x j) {n : Nat} {is : List Nat} {p q : ℝ}
    (h : Need I w.graph val n is p q) : (∀ is', Route w.graph n is' v ↔ is' = is) → Need I w.graph val' n is p q := by
  induction h with
  | here => intro _; exact .here
  | @step n i m is p u q hi hsem hreg hn ih =>
    intro hun
    have hset : ((w.graph n).args.map (argVal val')).set i u = ((w.graph n).args.map (argVal val)).set i u := by
      apply List.ext_getElem?
      intro j
      rw [List.getElem?_set, List.getElem?_set, List.length_map, List.length_map]
      by_cases hj : i = j
      · rw [if_pos hj, if_pos hj]
      · rw [if_neg hj, if_neg hj, List.getElem?_map, List.getElem?_map]
        cases ha : (w.graph n).args[j]? with
        | none => rfl
        | some a =>
          cases a with
          | param c => rfl
          | node m' =>
            have := val_avoid hr hdecl hv hv' hx m' (closed_kid hc ha) hc (by
              rintro ⟨js, hjs⟩
              have := (hun (j :: js)).mp (route_cons.mpr ⟨m', ha, hjs⟩)
              exact hj (List.cons.inj this).1.symm)
            simp only [Option.map_some, argVal, this]
    refine .step hi (by rw [hset]; exact hsem) ?_ (ih ?_)
    · rw [← regular_set _ _ _ u, hset, regular_set]; exact hreg
    · intro is'
      constructor
      · intro h
        exact (List.cons.inj ((hun (i :: is')).mp (route_cons.mpr ⟨m, hi, h⟩))).2
      · rintro rfl
        obtain ⟨m', hi', h'⟩ := route_cons.mp ((hun (i :: is')).mpr rfl)
        rw [hi] at hi'; cases hi'; exact h'

theorem attains_iff {I : Interp ℝ} (R : RealI I) {op : Op} {i : Nat} {vs : List ℝ} {p : ℝ} (hlen : vs.length = arity op)
    (hi : i < vs.length) (hop : Invertible op i vs) :
    Attains op i vs p ↔ ∃ v, opSem I op (vs.set i v) = some p ∧ Regular op i vs v := by
  have one : arity op = 1 → ∃ a, vs = [a] ∧ i = 0 := by
    intro h
    rw [h] at hlen
    match vs, hlen with
    | [a], _ => exact ⟨a, rfl, by simpa using hi⟩
  have two : arity op = 2 → ∃ a b, vs = [a, b] ∧ (i = 0 ∨ i = 1) := by
    intro h
    rw [h] at hlen
    match vs, hlen with
    | [a, b], _ =>
      refine ⟨a, b, rfl, ?_⟩
      simp only [List.length_cons, List.length_nil] at hi; omega
  unfold Invertible at hop
  cases op with
  | mul =>
    obtain ⟨a, b, rfl, rfl | rfl⟩ := two rfl
    · simp only [Attains, Regular, List.set_cons_zero, opSem, Option.some.injEq, R.mul, List.getD_cons_succ,
        List.getD_cons_zero]
      exact ⟨fun h => ⟨p / b, by field_simp, h⟩, fun ⟨_, _, h⟩ => h⟩
    · simp only [Attains, Regular, List.set_cons_zero, List.set_cons_succ, opSem, Option.some.injEq, R.mul,
        List.getD_cons_zero]
      exact ⟨fun h => ⟨p / a, by field_simp, h⟩, fun ⟨_, _, h⟩ => h⟩
  | div =>
    obtain ⟨a, b, rfl, rfl | rfl⟩ := two rfl
    · simp only [Attains, Regular, List.set_cons_zero, opSem, Option.some.injEq, R.div, List.getD_cons_succ,
        List.getD_cons_zero]
      exact ⟨fun h => ⟨p * b, by field_simp, h⟩, fun ⟨_, _, h⟩ => h⟩
    · simp only [Attains, Regular, List.set_cons_zero, List.set_cons_succ, opSem, Option.some.injEq, R.div,
        List.getD_cons_zero]
      exact ⟨fun ⟨h, h'⟩ => ⟨a / p, div_div_cancel₀ h, h, div_ne_zero h h'⟩,
        fun ⟨v, e, h, h'⟩ => ⟨h, by rw [← e]; exact div_ne_zero h h'⟩⟩
  | neg =>
    obtain ⟨a, rfl, rfl⟩ := one rfl
    simp only [Attains, Regular, List.set_cons_zero, opSem, Option.some.injEq, R.neg]
    exact ⟨fun _ => ⟨-p, neg_neg p, trivial⟩, fun _ => trivial⟩
  | add =>
    obtain ⟨a, b, rfl, rfl | rfl⟩ := two rfl
    · simp only [Attains, Regular, List.set_cons_zero, opSem, Option.some.injEq, R.add]
      exact ⟨fun _ => ⟨p - b, by ring, trivial⟩, fun _ => trivial⟩
    · simp only [Attains, Regular, List.set_cons_zero, List.set_cons_succ, opSem, Option.some.injEq, R.add]
      exact ⟨fun _ => ⟨p - a, by ring, trivial⟩, fun _ => trivial⟩
  | sub =>
    obtain ⟨a, b, rfl, rfl | rfl⟩ := two rfl
    · simp only [Attains, Regular, List.set_cons_zero, opSem, Option.some.injEq, R.sub]
      exact ⟨fun _ => ⟨p + b, by ring, trivial⟩, fun _ => trivial⟩
    · simp only [Attains, Regular, List.set_cons_zero, List.set_cons_succ, opSem, Option.some.injEq, R.sub]
      exact ⟨fun _ => ⟨a - p, by ring, trivial⟩, fun _ => trivial⟩
  | «alias» =>
    obtain ⟨a, rfl, rfl⟩ := one rfl
    simp only [Attains, Regular, List.set_cons_zero, opSem, Option.some.injEq]
    exact ⟨fun _ => ⟨p, rfl, trivial⟩, fun _ => trivial⟩
  | pow =>
    obtain ⟨a, b, rfl, rfl | rfl⟩ := two rfl
    · have hb := hop rfl
      simp only [List.getD_cons_succ, List.getD_cons_zero] at hb
      subst hb
      simp only [Attains, Regular, List.set_cons_zero, opSem, Option.some.injEq, R.pow, List.getD_cons_succ,
        List.getD_cons_zero]
      exact ⟨fun _ => ⟨p, Real.rpow_one p, trivial⟩, fun _ => trivial⟩
    · simp only [Attains, Regular, List.set_cons_zero, List.set_cons_succ, opSem, Option.some.injEq, R.pow,
        List.getD_cons_zero]
      constructor
      · rintro ⟨h1, h2, h3⟩
        exact ⟨Real.logb a p, Real.rpow_logb h1 h2 h3, h1, h2⟩
      · rintro ⟨v, e, h1, h2⟩
        exact ⟨h1, h2, by rw [← e]; exact Real.rpow_pos_of_pos h1 v⟩
  | un fn =>
    obtain ⟨a, rfl, rfl⟩ := one rfl
    cases fn <;> simp only at hop
    all_goals simp only [Attains, Regular, List.set_cons_zero, opSem, Option.some.injEq, R.log, R.exp, R.sqrt, R.cosh,
      R.sinh, R.tanh]
    · exact ⟨fun h => ⟨Real.arcosh p, Real.cosh_arcosh h, Real.arcosh_nonneg h⟩,
        fun ⟨v, e, _⟩ => by rw [← e]; exact Real.one_le_cosh v⟩
    · exact ⟨fun h => ⟨Real.log p, Real.exp_log h, trivial⟩, fun ⟨v, e, _⟩ => by rw [← e]; exact Real.exp_pos v⟩
    · exact ⟨fun _ => ⟨Real.exp p, Real.log_exp p, Real.exp_pos p⟩, fun _ => trivial⟩
    · exact ⟨fun _ => ⟨Real.arsinh p, Real.sinh_arsinh p, trivial⟩, fun _ => trivial⟩
    · exact ⟨fun h => ⟨p * p, Real.sqrt_mul_self h, mul_self_nonneg p⟩,
        fun ⟨v, e, _⟩ => by rw [← e]; exact Real.sqrt_nonneg v⟩
    · constructor
      · rintro ⟨h1, h2⟩
        exact ⟨Real.artanh p, Real.tanh_artanh ⟨h1, h2⟩, trivial⟩
      · rintro ⟨v, e, _⟩
        rw [← e]
        have := Real.tanh_lt_one (-v)
        rw [Real.tanh_neg] at this
        exact ⟨by linarith, Real.tanh_lt_one v⟩
  | inv => exact hop.elim
  | assign => exact hop.elim
  | sign => exact hop.elim
  | cond c => exact hop.elim

theorem opSem_total (I : Interp α) {op : Op} {vs : List α} (h : vs.length = arity op) (hop : op ≠ .inv) :
    ∃ p, opSem I op vs = some p := by
  have one : arity op = 1 → ∃ a, vs = [a] := by
    intro h'
    rw [h'] at h
    match vs, h with
    | [a], _ => exact ⟨a, rfl⟩
  have two : arity op = 2 → ∃ a b, vs = [a, b] := by
    intro h'
    rw [h'] at h
    match vs, h with
    | [a, b], _ => exact ⟨a, b, rfl⟩
  cases op
  case inv => exact absurd rfl hop
  case cond c =>
    have h : vs.length = 4 := h
    match vs, h with
    | [a, b, c, d], _ => exact ⟨_, rfl⟩
  all_goals first
    | (obtain ⟨a, rfl⟩ := one rfl; exact ⟨_, rfl⟩)
    | (obtain ⟨a, b, rfl⟩ := two rfl; exact ⟨_, rfl⟩)

/-- evaluation by recursion -/
def evalN (I : Interp α) (w : World α) (x : Nat → α) : Nat → Nat → α
  | 0, _ => I.zero
  | k + 1, n =>
    if (w.graph n).op = .inv then x (w.indeps.idxOf n)
    else (opSem I (w.graph n).op ((w.graph n).args.map (argVal (evalN I w x k)))).getD I.zero

theorem val_exists {w : World α} (hs : ShapedG w.graph) (hr : ∃ rank, Ranked w.graph rank) (I : Interp α)
    (hn : w.indeps.Nodup) (hi : ∀ n ∈ w.indeps, (w.graph n).op = .inv) (x : Nat → α) : ∃ val, w.Val I x val := by
  obtain ⟨rank, hrank⟩ := hr
  have stable : ∀ k k' n, rank n < k → rank n < k' → evalN I w x k n = evalN I w x k' n := by
    intro k
    induction k with
    | zero => intro k' n h; omega
    | succ k ih =>
      intro k' n h h'
      obtain ⟨k', rfl⟩ : ∃ j, k' = j + 1 := ⟨k' - 1, by omega⟩
      unfold evalN
      by_cases ho : (w.graph n).op = .inv
      · rw [if_pos ho, if_pos ho]
      · rw [if_neg ho, if_neg ho]
        have : (w.graph n).args.map (argVal (evalN I w x k)) = (w.graph n).args.map (argVal (evalN I w x k')) := by
          apply List.map_congr_left
          intro a ha
          cases a with
          | param c => rfl
          | node m =>
            obtain ⟨i, hi⟩ := List.getElem?_of_mem ha
            have := hrank n m (Eval.mem_kids_of hi)
            exact ih k' m (by omega) (by omega)
        rw [this]
  refine ⟨fun n => evalN I w x (rank n + 1) n, ?_, ?_⟩
  · intro j n hj
    have hm := List.mem_of_getElem? hj
    show evalN I w x (rank n + 1) n = x j
    unfold evalN
    rw [if_pos (hi n hm)]
    obtain ⟨hl, e⟩ := List.getElem?_eq_some_iff.mp hj
    rw [← e, List.Nodup.idxOf_getElem hn]
  · intro n nd h e ho
    have hg := graph_of e
    have hlen : (nd.args.map (argVal fun n => evalN I w x (rank n + 1) n)).length = arity nd.op := by
      have := hs n
      rw [hg] at this
      rw [List.length_map]; exact this
    obtain ⟨p, hp⟩ := opSem_total I hlen ho
    rw [hp]
    show some p = some (evalN I w x (rank n + 1) n)
    unfold evalN
    rw [hg, if_neg ho]
    have : nd.args.map (argVal (evalN I w x (rank n))) =
        nd.args.map (argVal fun n => evalN I w x (rank n + 1) n) := by
      apply List.map_congr_left
      intro a ha
      cases a with
      | param c => rfl
      | node m =>
        obtain ⟨i, hi⟩ := List.getElem?_of_mem ha
        rw [← hg] at hi
        have := hrank n m (Eval.mem_kids_of hi)
        exact stable _ _ m this (Nat.lt_succ_self _)
    rw [this, hp]; rfl

end Verif.Solve
