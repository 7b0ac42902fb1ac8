/-
Specification vocabulary for iteration ranges: which iterations a list of closed ranges covers.
Independent of the model.
-/
namespace Verif.Ranges

/-- the largest value of `size_t` (64 bit) -/
def sizeMax : Nat := 2 ^ 64 - 1

/-- iteration `i` lies in one of the closed ranges -/
def Covers (rs : List (Nat × Nat)) (i : Nat) : Prop :=
  ∃ r ∈ rs, r.1 ≤ i ∧ i ≤ r.2

/-- ranges are non-empty, fit in `size_t` and are listed in lexicographic order -/
def OrderedRanges (rs : List (Nat × Nat)) : Prop :=
  rs.Pairwise (fun r s => r.1 < s.1 ∨ (r.1 = s.1 ∧ r.2 ≤ s.2)) ∧ ∀ r ∈ rs, r.1 ≤ r.2 ∧ r.2 ≤ sizeMax

/-- ranges are non-empty, fit in `size_t`, are ordered and do not overlap -/
def DisjointRanges (rs : List (Nat × Nat)) : Prop :=
  rs.Pairwise (fun r s => r.2 < s.1) ∧ ∀ r ∈ rs, r.1 ≤ r.2 ∧ r.2 ≤ sizeMax

/-- in addition no two ranges touch (they cannot be merged any further) -/
def SeparatedRanges (rs : List (Nat × Nat)) : Prop :=
  rs.Pairwise (fun r s => r.2 + 1 < s.1) ∧ ∀ r ∈ rs, r.1 ≤ r.2 ∧ r.2 ≤ sizeMax

/-- a strictly increasing list: the content of a `std::set<size_t>` in iteration order -/
def IsSet (l : List Nat) : Prop := l.Pairwise (· < ·)

end Verif.Ranges
