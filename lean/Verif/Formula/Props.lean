import Verif.Formula.LemmasShow

/-
C71: formulas printed as LaTeX and MathML, as they are displayed and read, have the values of the recorded
expressions.
-/
namespace Verif.Formula

variable {α : Type} [CommRing α]

/-- **C71.** A displayed LaTeX formula has at most one reading. -/
theorem latex_one_reading (I : Interp α) (ts : List (Tex α)) (v w : α) (h : TexMeans I ts v) (h' : TexMeans I ts w) : v = w := by
  obtain ⟨is, h1, h2⟩ := h
  obtain ⟨js, h3, h4⟩ := h'
  cases h1.unique h3
  exact h2.unique h4

/-- **C71.** A displayed MathML formula has at most one reading. -/
theorem mathml_one_reading (I : Interp α) (ts : List (Mml α)) (v w : α) (h : MmlMeans I ts v) (h' : MmlMeans I ts w) : v = w := by
  obtain ⟨is, h1, h2⟩ := h
  obtain ⟨js, h3, h4⟩ := h'
  cases h1.unique h3
  exact h2.unique h4

/-- **C71 (partial).** With the default settings or others the displayed LaTeX formula of an expression has the
value of the expression, when no power has a base which is itself a power, a negative number or a number
printed with an exponent, and no alias leads to a negative number. -/
theorem latex_means_partial (I : Interp α) (F : Format α) (hF : F.Right I) (O : Opts) (e : Expr α) (hA : AliasesRight F e)
    (hB : BasesRight F e) (w : α) : TexMeans I (latex F O e) w ↔ w = e.value I := by
  have h : TexMeans I (latex F O e) (e.value I) := ⟨_, (latex_emits e).shows, (good hF e hA (.inr hB)).1.sum.means⟩
  exact ⟨fun hw => latex_one_reading I _ _ _ hw h, fun hw => hw ▸ h⟩

/-- **C71 (partial).** The same for MathML. -/
theorem mathml_means_partial (I : Interp α) (F : Format α) (hF : F.Right I) (O : Opts) (e : Expr α) (hA : AliasesRight F e)
    (hB : BasesRight F e) (w : α) : MmlMeans I (mathml F O e) w ↔ w = e.value I := by
  have h : MmlMeans I (mathml F O e) (e.value I) := ⟨_, (mathml_emits e).shows, (good hF e hA (.inr hB)).1.sum.means⟩
  exact ⟨fun hw => mathml_one_reading I _ _ _ hw h, fun hw => hw ▸ h⟩

/-- **C71 (partial).** With bases always in parentheses (`setPowBaseEnclose(true)`) there is no condition on
the bases of powers. -/
theorem latex_enclosed_means_partial (I : Interp α) (F : Format α) (hF : F.Right I) (visible : Bool) (e : Expr α)
    (hA : AliasesRight F e) (w : α) : TexMeans I (latex F ⟨true, visible⟩ e) w ↔ w = e.value I := by
  have h : TexMeans I (latex F ⟨true, visible⟩ e) (e.value I) :=
    ⟨_, (latex_emits e).shows, (good hF e hA (.inl rfl)).1.sum.means⟩
  exact ⟨fun hw => latex_one_reading I _ _ _ hw h, fun hw => hw ▸ h⟩

/-- **C71 (partial).** The same for MathML. -/
theorem mathml_enclosed_means_partial (I : Interp α) (F : Format α) (hF : F.Right I) (visible : Bool) (e : Expr α)
    (hA : AliasesRight F e) (w : α) : MmlMeans I (mathml F ⟨true, visible⟩ e) w ↔ w = e.value I := by
  have h : MmlMeans I (mathml F ⟨true, visible⟩ e) (e.value I) :=
    ⟨_, (mathml_emits e).shows, (good hF e hA (.inl rfl)).1.sum.means⟩
  exact ⟨fun hw => mathml_one_reading I _ _ _ hw h, fun hw => hw ▸ h⟩

/-! ### a case -/

/-- integers: numbers from a million on, when they are multiples of it, are printed with the exponent 6 -/
def caseF : Format Int where
  negative v := v < 0
  digits v := if 1000000 ≤ v ∧ v % 1000000 = 0 then (v / 1000000, some (false, 6)) else (v, none)

theorem caseF_right (x y : Int) : caseF.Right (testI x y) where
  neg v h := by simp only [caseF, decide_eq_true_eq, decide_eq_false_iff_not] at *; omega
  plain v m h hd := by
    simp only [caseF] at hd
    split at hd <;> simp_all
  expo v m s e h hd := by
    simp only [caseF] at hd
    split at hd
    case isFalse => simp at hd
    case isTrue hc =>
      simp only [Prod.mk.injEq, Option.some.injEq] at hd
      obtain ⟨rfl, rfl, rfl⟩ := hd
      have h6 : (testI x y).pow 10 ((6 : Nat) : Int) = 1000000 := rfl
      simp only [Bool.false_eq_true, if_false, h6]
      omega

/-- `2000000 * (-3) * (x - (y - 1)) - sin(x)^(x + y)`, also as an alias -/
def caseE : Expr Int :=
  .sub (.mul (.mul (.const 2000000) (.const (-3))) (.ali (.sub (.var (.x 0)) (.sub (.var (.y 0)) (.const 1)))))
    (.pow (.un .sin (.var (.x 0))) (.add (.var (.x 0)) (.var (.y 0))))

/-- the case meets the hypotheses -/
example : AliasesRight caseF caseE ∧ BasesRight caseF caseE := by
  refine ⟨⟨⟨⟨trivial, trivial⟩, ⟨trivial, trivial, trivial⟩, ?_⟩, trivial, trivial, trivial⟩,
    ⟨⟨trivial, trivial⟩, trivial, trivial, trivial⟩, trivial, ⟨trivial, trivial⟩, ?_, ?_⟩
  · intro v h; simp [Expr.target] at h
  · intro c d h; simp [Expr.target] at h
  · intro v h; simp [Expr.target] at h

/-- the LaTeX text: `2 \times 10^{+6}\times\left(-3\right)...` -/
example : (latex caseF .default caseE).take 13 = [.num 2, .times, .num 10, .hat, .lbrace, .plus, .num 6, .rbrace,
    .times, .lpar, .minus, .num 3, .rpar] := rfl

/-- the displayed formula is read with the value -/
example : read (testI 3 5) 40 .sum [.num 2, .times, .num 10, .sup [.plus, .num 6], .times, .group [.minus, .num 3],
    .group [.sym (.x 0), .minus, .group [.sym (.y 0), .minus, .num 1]], .minus, .fn "sin", .group [.sym (.x 0)],
    .sup [.group [.sym (.x 0), .plus, .sym (.y 0)]]]
    = some (caseE.value (testI 3 5), []) := rfl

/-! ### what goes wrong -/

/-- **C71, negation.** The base of a power which is a negative number is not enclosed: `pow(-2, x)` is
displayed as `-2` with a raised `x`, which is the negative of a power. For `x = 2` the formula has the value
`-4`, the expression 4. MathML displays the same. -/
theorem negative_base_counterexample :
    ∃ e : Expr Int, e.value (testI 2 0) = 4 ∧ AliasesRight caseF e ∧
      TexMeans (testI 2 0) (latex caseF .default e) (-4) ∧ MmlMeans (testI 2 0) (mathml caseF .default e) (-4) := by
  refine ⟨.pow (.const (-2)) (.var (.x 0)), rfl, ⟨trivial, trivial⟩, ?_, ?_⟩
  · exact ⟨_, (latex_emits _).shows, ⟨12, fun m hm => by obtain ⟨k, rfl⟩ : ∃ k, m = k + 12 := ⟨m - 12, by omega⟩; rfl⟩⟩
  · exact ⟨_, (mathml_emits _).shows, ⟨12, fun m hm => by obtain ⟨k, rfl⟩ : ∃ k, m = k + 12 := ⟨m - 12, by omega⟩; rfl⟩⟩

/-- **C71, negation.** The base of a power which is itself a power is not enclosed: `pow(pow(x, 2), 3)` is
displayed as `x` with two raised numbers beside each other, which has no reading. -/
theorem power_of_power_counterexample :
    ∃ e : Expr Int, AliasesRight caseF e ∧ ∀ w, ¬ TexMeans (testI 2 0) (latex caseF .default e) w ∧
      ¬ MmlMeans (testI 2 0) (mathml caseF .default e) w := by
  have hnone : ∀ k, read (testI 2 0) (k + 12) .sum [.sym (.x 0), .sup [.num 2], .sup [.num 3]] = none := fun k => rfl
  refine ⟨.pow (.pow (.var (.x 0)) (.const 2)) (.const 3), ⟨⟨trivial, trivial⟩, trivial⟩, fun w => ⟨?_, ?_⟩⟩
  · rintro ⟨is, h1, n, hn⟩
    rw [h1.unique (latex_emits _).shows] at hn
    have := hn (n + 12) (by omega)
    rw [show items caseF .default false (.pow (.pow (.var (.x 0)) (.const 2)) (.const 3)) =
      [.sym (.x 0), .sup [.num 2], .sup [.num 3]] from rfl, hnone] at this
    cases this
  · rintro ⟨is, h1, n, hn⟩
    rw [h1.unique (mathml_emits _).shows] at hn
    have := hn (n + 12) (by omega)
    rw [show items caseF .default true (.pow (.pow (.var (.x 0)) (.const 2)) (.const 3)) =
      [.sym (.x 0), .sup [.num 2], .sup [.num 3]] from rfl, hnone] at this
    cases this

/-- **C71, negation.** A base which is printed with an exponent of ten is not enclosed: `pow(2e6, x)` is
displayed with two raised expressions beside each other, which has no reading. -/
theorem exponent_base_counterexample :
    ∃ e : Expr Int, AliasesRight caseF e ∧ ∀ w, ¬ TexMeans (testI 2 0) (latex caseF .default e) w := by
  have hnone : ∀ k, read (testI 2 0) (k + 12) .sum [.num 2, .times, .num 10, .sup [.plus, .num 6], .sup [.sym (.x 0)]] = none :=
    fun k => rfl
  refine ⟨.pow (.const 2000000) (.var (.x 0)), ⟨trivial, trivial⟩, fun w => ?_⟩
  rintro ⟨is, h1, n, hn⟩
  rw [h1.unique (latex_emits _).shows] at hn
  have := hn (n + 12) (by omega)
  rw [show items caseF .default false (.pow (.const 2000000) (.var (.x 0))) =
    [.num 2, .times, .num 10, .sup [.plus, .num 6], .sup [.sym (.x 0)]] from rfl, hnone] at this
  cases this

/-- **C71, negation.** A factor which is an alias of a negative number is not enclosed: `x * (-2)` is then
displayed as `x -2`, which is a difference, also with bases in parentheses. For `x = 5` the formula has the
value 3, the expression -10. -/
theorem alias_negative_counterexample :
    ∃ e : Expr Int, e.value (testI 5 0) = -10 ∧ BasesRight caseF e ∧
      TexMeans (testI 5 0) (latex caseF ⟨true, false⟩ e) 3 ∧ MmlMeans (testI 5 0) (mathml caseF ⟨true, false⟩ e) 3 := by
  refine ⟨.mul (.var (.x 0)) (.ali (.const (-2))), rfl, ⟨trivial, trivial⟩, ?_, ?_⟩
  · exact ⟨_, (latex_emits _).shows, ⟨12, fun m hm => by obtain ⟨k, rfl⟩ : ∃ k, m = k + 12 := ⟨m - 12, by omega⟩; rfl⟩⟩
  · exact ⟨_, (mathml_emits _).shows, ⟨12, fun m hm => by obtain ⟨k, rfl⟩ : ∃ k, m = k + 12 := ⟨m - 12, by omega⟩; rfl⟩⟩

end Verif.Formula
