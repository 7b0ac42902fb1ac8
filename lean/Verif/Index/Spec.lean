/-
Specification side of the index patterns: what it means that a pattern reproduces given points.
-/
namespace Verif.Index

/-- points with strictly increasing keys: the content of a `std::map<size_t, size_t>` -/
def Sorted {β : Type} (pts : List (Nat × β)) : Prop := pts.Pairwise fun p q => p.1 < q.1

instance {β : Type} (pts : List (Nat × β)) : Decidable (Sorted pts) :=
  inferInstanceAs (Decidable (pts.Pairwise fun p q => p.1 < q.1))

/-- a partial function of one index reproduces the points -/
def Reproduces {R : Type} (f : Nat → Option R) (pts : List (Nat × R)) : Prop :=
  ∀ p ∈ pts, f p.1 = some p.2

/-- a partial function of two indexes reproduces the points -/
def Reproduces2 {R : Type} (f : Nat → Nat → Option R) (pts : List (Nat × List (Nat × R))) : Prop :=
  ∀ row ∈ pts, ∀ p ∈ row.2, f row.1 p.1 = some p.2

end Verif.Index
