import Verif.Eval.LemmasKnown

/-
C85: known values of the results of atomic functions in evaluations with `CG` objects.
-/
namespace Verif.Eval.Known

variable {A : Type}

/-- C85: if there are no results of an earlier evaluation, as in a new evaluator and after an evaluation without exceptions, all calls are of order zero and available functions succeed,
then the values known for the elements are those of the functions, and they are known exactly if the arguments (and initial values) are known and the function is available. After it
nothing is left. -/
theorem known_right_partial (fns : Funs A) (calls : Nat → Call A) (rs : List Req) (vs : List (Option A)) (cache' : Cache A)
    (hs : ∀ t k i, Req.elem t k i ∈ rs → k = 0 ∧ (calls t).p = 0 ∧ (calls t).args.length = 2 ∧
      ∀ f, fns (calls t).id = some f → ∀ q tx n, ∃ l, f q 0 tx n = some l)
    (h : evaluate fns calls rs (fun _ => none) = (some vs, cache')) :
    (∃ es : List (Nat × Nat × Nat), rs = es.map (fun e => .elem e.1 e.2.1 e.2.2) ∧ vs = es.map fun e => expected fns (calls e.1) e.2.1 e.2.2) ∧
      ∀ t, cache' t = none := by
  rw [evaluate] at h
  cases hr : run fns calls rs [] (fun _ => none) with
  | mk r cache =>
    rw [hr] at h
    cases r with
    | none => cases h
    | some vs' =>
      cases h
      exact ⟨run_spec fns calls rs [] _ cache vs (fun t k i ht => ⟨⟨(hs t k i ht).2.1, (hs t k i ht).2.2.1, (hs t k i ht).2.2.2⟩, (hs t k i ht).1⟩)
        nofun (fun _ _ => rfl) hr, fun _ => rfl⟩

/-- C85: after an evaluation without exceptions no results are left, also if there were some of an evaluation which failed before it -/
theorem cleared_right (fns : Funs A) (calls : Nat → Call A) (rs : List Req) (cache cache' : Cache A) (vs : List (Option A))
    (h : evaluate fns calls rs cache = (some vs, cache')) (t : Nat) : cache' t = none := by
  rw [evaluate] at h
  cases hr : run fns calls rs [] cache with
  | mk r c =>
    rw [hr] at h
    cases r with
    | none => cases h
    | some vs' =>
      cases h
      rfl

/-! ### cases -/

/-- squares for order zero (id 1); with order one for one argument (id 2); a function which fails (id 3) -/
private def funs : Funs Int
  | 1 => some fun _ _ tx n => some ((tx.map fun v => v * v).take n)
  | 2 => some fun _ p tx _ => match p, tx with | 0, [a] => some [a * a] | 1, [a, b] => some [a * a, 2 * a * b] | _, _ => none
  | 3 => some fun _ _ _ _ => none
  | _ => none

private def known (v : Int) : El Int := ⟨some v, false⟩
private def unknown : El Int := ⟨none, false⟩

private def someCalls : Nat → Call Int
  | 0 => ⟨true, 1, 0, 0, [[known 3, known 4], [⟨some 0, true⟩, ⟨some 0, true⟩]]⟩
  | 1 => ⟨true, 1, 0, 0, [[known 3, unknown], [⟨some 0, true⟩, ⟨some 0, true⟩]]⟩
  | _ => ⟨true, 9, 0, 0, [[known 3], [⟨some 0, true⟩]]⟩

-- values of a call with known arguments, none for one with an unknown argument or for an unavailable function
example : (evaluate funs someCalls [.elem 0 0 1, .elem 1 0 0, .elem 0 0 0, .elem 2 0 0] fun _ => none).1 = some [some 16, none, some 9, none] := by
  decide +kernel

example : ∀ t k i, Req.elem t k i ∈ [Req.elem 0 0 1, .elem 1 0 0, .elem 0 0 0] → k = 0 ∧ (someCalls t).p = 0 ∧ (someCalls t).args.length = 2 ∧
    ∀ f, funs (someCalls t).id = some f → ∀ q tx n, ∃ l, f q 0 tx n = some l := by
  intro t k i h
  have h1 : ∀ f, funs 1 = some f → ∀ q tx n, ∃ l, f q 0 tx n = some l := by
    intro f hf q tx n
    cases hf
    exact ⟨_, rfl⟩
  simp only [List.mem_cons, Req.elem.injEq, List.not_mem_nil, or_false] at h
  rcases h with ⟨rfl, rfl, rfl⟩ | ⟨rfl, rfl, rfl⟩ | ⟨rfl, rfl, rfl⟩ <;> exact ⟨rfl, rfl, rfl, h1⟩

/-- C85, failure: results are not removed after an evaluation which failed. In the next one, with unknown arguments, the value of the first evaluation is taken for known. -/
theorem stale_counterexample : ∃ (fns : Funs Int) (calls calls' : Nat → Call Int) (rs rs' : List Req),
    (evaluate fns calls rs fun _ => none).1 = none ∧
    (evaluate fns calls' rs' (evaluate fns calls rs fun _ => none).2).1 = some [some 16] ∧ expected fns (calls' 0) 0 1 = none ∧ rs' = [.elem 0 0 1] :=
  ⟨funs, someCalls, fun _ => someCalls 1, [.elem 0 0 0, .fail], [.elem 0 0 1], by decide +kernel, by decide +kernel, by decide +kernel, rfl⟩

-- a failed evaluation leaves results, the next one without exceptions removes them
example : ((evaluate funs someCalls [.elem 0 0 0, .fail] fun _ => none).2 0) = some [9, 16] ∧
    ((evaluate funs someCalls [.elem 1 0 0] (evaluate funs someCalls [.elem 0 0 0, .fail] fun _ => none).2).2 0) = none := by
  decide +kernel

/-- C85, failure: for order one the first two arrays, both of coefficients of the arguments, are taken for those of the arguments and the results. For the square at 3 in direction 1 the
derivative is 6, but 1 is taken for it (the function is called with one coefficient instead of two, and reports a failure). -/
theorem order_counterexample : ∃ (fns : Funs Int) (c : Call Int), c.p = 1 ∧ expected fns c 1 0 = some 6 ∧
    (evaluate fns (fun _ => c) [.elem 0 1 0] fun _ => none).1 = some [some 1] :=
  ⟨funs, ⟨true, 2, 0, 1, [[known 3], [known 1], [⟨some 0, true⟩], [⟨some 0, true⟩]]⟩, rfl, by decide +kernel, by decide +kernel⟩

/-- C85, failure: that an atomic function reports a failure is not looked at, the initial values of the results (zeros) are taken for known -/
theorem failure_counterexample : ∃ (fns : Funs Int) (c : Call Int), c.p = 0 ∧ expected fns c 0 0 = none ∧
    (evaluate fns (fun _ => c) [.elem 0 0 0] fun _ => none).1 = some [some 0] :=
  ⟨funs, ⟨true, 3, 0, 0, [[known 3], [⟨some 0, true⟩]]⟩, rfl, by decide +kernel, by decide +kernel⟩

end Verif.Eval.Known
