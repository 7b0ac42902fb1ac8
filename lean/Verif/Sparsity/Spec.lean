/-
Specification for sparsity patterns: boolean matrices and their algebra.
-/
namespace Verif.Sparsity

/-- a pattern: the columns of the non-zeros of each row -/
abbrev Pattern := List (List Nat)

/-- there is a non-zero at row `i`, column `j` -/
def Entry (p : Pattern) (i j : Nat) : Prop := ∃ row, p[i]? = some row ∧ j ∈ row

/-- rows are sets: strictly increasing -/
def Sorted (p : Pattern) : Prop := ∀ row ∈ p, row.Pairwise (· < ·)

instance (p : Pattern) : Decidable (Sorted p) :=
  inferInstanceAs (Decidable (∀ row ∈ p, row.Pairwise (· < ·)))

/-- the first `m` rows exist and have their non-zeros in columns below `n` -/
def Dims (p : Pattern) (m n : Nat) : Prop := m ≤ p.length ∧ ∀ i j, i < m → Entry p i j → j < n

/-- boolean product of the first `m` rows of `a` and the first `n` rows of `b` -/
def Prod (a b : Nat → Nat → Prop) (n : Nat) (i j : Nat) : Prop := ∃ k, k < n ∧ a i k ∧ b k j

end Verif.Sparsity
