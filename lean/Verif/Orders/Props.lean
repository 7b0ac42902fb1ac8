import Verif.Orders.Lemmas
/-
C37: the comparison functions given to `std::sort`, `std::map` and `std::set` are strict weak orders,
and where the function identifies the keys of a container, only equal keys are identified.
-/
namespace Verif.Orders

/-- `SetComparator`: a strict weak order identifying only equal sets -/
theorem setLess_strictWeak {T : Type} [LinearOrder T] :
    StrictWeak (setLess (T := T)) ∧ KeyExact (setLess (T := T)) := setLess_order

example : setLess [1, 5] [2, 3] = true ∧ setLess [2, 3] [1, 5] = false ∧ setLess [9] [1, 2] = true := by
  decide

/-- keys of the groups of Hessian/Jacobian rows -/
theorem rowIterLess_strictWeak : StrictWeak rowIterLess ∧ KeyExact rowIterLess := by
  apply strictWeak_of_total
  · intro a; simp [rowIterLess, compareSets_self]
  · intro a b c h1 h2
    unfold rowIterLess at *
    rcases Nat.lt_trichotomy a.1 b.1 with h | h | h
    · rcases Nat.lt_trichotomy b.1 c.1 with k | k | k
      · simp [h.trans k]
      · simp [← k, h]
      · simp [k, Nat.lt_asymm k] at h2
    · rcases Nat.lt_trichotomy b.1 c.1 with k | k | k
      · simp [h, k]
      · simp [h] at h1
        simp [k] at h2
        simp [h, k]
        exact compareSets_trans h1 h2
      · simp [k, Nat.lt_asymm k] at h2
    · simp [h, Nat.lt_asymm h] at h1
  · intro a b h1 h2
    unfold rowIterLess at *
    rcases Nat.lt_trichotomy a.1 b.1 with h | h | h
    · simp [h] at h1
    · simp [h] at h1 h2
      have := (setLess_order (T := Nat)).2 a.2 b.2 (by simpa [setLess] using h1) (by simpa [setLess] using h2)
      exact Prod.ext h this
    · simp [h] at h2

example : rowIterLess (3, [1, 2]) (3, [1, 4]) = true ∧ rowIterLess (3, [1, 4]) (3, [1, 2]) = false := by decide

/-- contributions to a Hessian (`n = 6`) or Jacobian (`n = 2`): tuples of `n` sets -/
theorem contribLess_strictWeak {T : Type} [LinearOrder T] (n : Nat) :
    StrictWeak (fun a b : {l : List (List T) // l.length = n} => contribLess a.1 b.1) ∧
    KeyExact (fun a b : {l : List (List T) // l.length = n} => contribLess a.1 b.1) := by
  apply strictWeak_of_total
  · intro a; exact contribLess_self a.1
  · intro a b c h1 h2; exact contribLess_trans h1 h2
  · intro a b h1 h2; exact Subtype.ext (contribLess_total (a.2.trans b.2.symm) h1 h2)

example : contribLess [[], [1, 2]] [[], [1, 3]] = true ∧ contribLess [[1], []] [[], [7]] = false := by decide

/-- pairs of equations: a strict weak order which identifies exactly the equal pairs -/
theorem pairLess_strictWeak : StrictWeak pairLess ∧ KeyExact pairLess := by
  apply strictWeak_of_total
  · intro a; simp [pairLess]
  · intro a b c h1 h2
    simp [pairLess] at *
    omega
  · intro a b h1 h2
    simp [pairLess] at *
    apply Prod.ext <;> omega

/-- the constructor identifies exactly the unordered pairs -/
theorem uniquePair_eq (a b c d : Nat) :
    uniquePair a b = uniquePair c d ↔ (a = c ∧ b = d) ∨ (a = d ∧ b = c) := by
  unfold uniquePair
  split <;> split <;> rw [Prod.mk.injEq] <;> omega

example : uniquePair 4 2 = uniquePair 2 4 ∧ uniquePair 4 2 ≠ uniquePair 2 5 := by decide

/-- independent nodes: null first, then by index -/
theorem indepNodeLess_strictWeak : StrictWeak indepNodeLess ∧ KeyExact indepNodeLess := by
  apply strictWeak_of_total
  · intro a; cases a <;> simp [indepNodeLess]
  · intro a b c h1 h2
    cases a <;> cases b <;> cases c <;> simp [indepNodeLess] at *
    omega
  · intro a b h1 h2
    cases a <;> cases b <;> simp [indepNodeLess] at *
    omega

example : indepNodeLess none (some 0) = true ∧ indepNodeLess (some 2) (some 5) = true := by decide

/-- indexed independents of loops with the same number `n` of iterations -/
theorem indexedIndepLess_strictWeak (n : Nat) :
    StrictWeak (fun a b : {l : List (Option Nat) // l.length = n} => indexedIndepLess a.1 b.1) ∧
    KeyExact (fun a b : {l : List (Option Nat) // l.length = n} => indexedIndepLess a.1 b.1) := by
  apply strictWeak_of_total
  · intro a; exact indexedIndepLess_self a.1
  · intro a b c h1 h2
    exact indexedIndepLess_trans (a.2.trans b.2.symm) (b.2.trans c.2.symm) h1 h2
  · intro a b h1 h2; exact Subtype.ext (indexedIndepLess_total (a.2.trans b.2.symm) h1 h2)

example : indexedIndepLess [some 1, none] [some 1, some 4] = false ∧
    indexedIndepLess [some 1, some 4] [some 1, none] = true := by decide

/-- variables of a DAE by decreasing order -/
theorem vnodeLess_strictWeak : StrictWeak vnodeLess :=
  strictWeak_of_key (K := Natᵒᵈ) (fun n => OrderDual.toDual n)
    (by intro a b; simp [vnodeLess])

example : vnodeLess 3 1 = true ∧ vnodeLess 1 3 = false := by decide

/-- sort key of `sortVariablesByOrder` -/
theorem varLess_strictWeak : StrictWeak varLess := by
  refine ⟨?_, ?_, ?_, ?_⟩
  · intro a; simp [varLess]
  · rintro ⟨i, _, d, o⟩ ⟨i', _, d', o'⟩ h
    cases d <;> cases d' <;> simp [varLess] at * <;> omega
  · rintro ⟨i, _, d, o⟩ ⟨i', _, d', o'⟩ ⟨i2, _, d2, o2⟩ h1 h2
    cases d <;> cases d' <;> cases d2 <;> simp [varLess] at * <;> omega
  · rintro ⟨i, _, d, o⟩ ⟨i', _, d', o'⟩ ⟨i2, _, d2, o2⟩ h1 h2 h3 h4
    cases d <;> cases d' <;> cases d2 <;> simp [varLess] at * <;> omega

/-- variables which `sortVariablesByOrder` does not tell apart have the same index, so the sorted
sequence is unique -/
theorem varLess_exact (a b : VarOrder) (h1 : varLess a b = false) (h2 : varLess b a = false) :
    a.originalIndex = b.originalIndex ∧ a.order = b.order ∧ a.hasDerivatives = b.hasDerivatives := by
  obtain ⟨i, _, d, o⟩ := a
  obtain ⟨i', _, d', o'⟩ := b
  cases d <;> cases d' <;> simp [varLess] at * <;> omega

example : varLess ⟨4, 0, true, 2⟩ ⟨1, 0, false, 2⟩ = true ∧ varLess ⟨1, 0, true, 1⟩ ⟨0, 0, true, 2⟩ = false := by
  decide

/-- `comparePair` is a valid three way comparison when the times are totally ordered -/
theorem comparePair_threeWay {F : Type} [LinearOrder F] :
    ThreeWay (comparePair (fun a b : F => decide (a < b)) (fun a b => decide (a = b))) := by
  constructor
  · intro a b
    unfold comparePair
    rcases lt_trichotomy a b with h | h | h
    · simp [h, not_lt.2 h.le, h.ne']
    · simp [h]
    · simp [h, not_lt.2 h.le, h.ne']
  · intro a b c h1 h2
    unfold comparePair at *
    have key : ∀ x y : F, (if decide (x < y) = true then (-1 : Int) else if decide (x = y) = true then 0 else 1) ≤ 0
        ↔ x ≤ y := by
      intro x y
      rcases lt_trichotomy x y with h | h | h
      · simp [h, h.le]
      · simp [h]
      · simp [h.ne', not_lt.2 h.le, not_le.2 h]
    rw [key] at *
    exact h1.trans h2

example : comparePair (fun a b : Nat => decide (a < b)) (fun a b => decide (a = b)) 3 8 = -1 := by decide

/-! ### comparison functions which are not strict weak orders -/

/-- `OperationPathNode::operator<` puts two different path nodes each before the other -/
theorem pathNodeLess_counterexample : ¬ StrictWeak pathNodeLess := by
  intro h
  have := h.asymm (1, 2) (2, 1) (by decide)
  revert this; decide

/-- among path nodes of one operation it is a strict weak order -/
theorem pathNodeLess_partial (node : Nat) : StrictWeak (fun i j : Nat => pathNodeLess (node, i) (node, j)) :=
  strictWeak_of_key (fun n => n) (by intro a b; simp [pathNodeLess])

/-- `sortEquationByAssignedOrder2` puts an equation before itself (algebraic equation of the original
system: `originalIndex = originalIndex0`) -/
theorem eqLess_counterexample : ¬ StrictWeak eqLess := by
  intro h
  have := h.irrefl ⟨2, 2, false, -1⟩
  revert this; decide

/-- It is a strict weak order on equations which are differential or obtained by differentiation. -/
theorem eqLess_partial :
    StrictWeak (fun a b : {e : EqOrder // e.differential = true ∨ e.originalIndex ≠ e.originalIndex0} =>
      eqLess a.1 b.1) := by
  refine strictWeak_of_key (K := Int ×ₗ Int)
    (fun e => toLex (if e.1.differential then (0, e.1.assignedVar) else (1, (e.1.originalIndex0 : Int)))) ?_
  rintro ⟨⟨i, i0, d, v⟩, h⟩ ⟨⟨i', i0', d', v'⟩, h'⟩
  cases d <;> cases d' <;> simp only [eqLess, Prod.Lex.toLex_lt_toLex] <;> simp
  by_cases e : i0 = i0'
  · subst e
    have : i ≠ i0 := by simpa using h
    simp [this]
  · simp [e]

example : eqLess ⟨7, 2, false, -1⟩ ⟨8, 3, false, -1⟩ = true ∧ eqLess ⟨2, 2, true, 4⟩ ⟨8, 3, false, -1⟩ = true := by
  decide

/-- `comparePair` with a time which is not a number (`none`): both results are positive -/
theorem comparePair_nan_counterexample :
    let lt : Option Nat → Option Nat → Bool := fun a b => match a, b with | some x, some y => decide (x < y) | _, _ => false
    let eq : Option Nat → Option Nat → Bool := fun a b => match a, b with | some x, some y => decide (x = y) | _, _ => false
    ¬ ThreeWay (comparePair lt eq) := by
  intro lt eq h
  have := (h.sign (some 1) none).2 (by decide)
  revert this; decide

end Verif.Orders
