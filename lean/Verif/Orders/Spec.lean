/-
Specification: what the standard library requires of comparison functions.
-/
namespace Verif.Orders

/-- strict weak order, required by `std::sort`, `std::map` and `std::set` -/
structure StrictWeak {α : Type} (lt : α → α → Bool) : Prop where
  irrefl : ∀ a, lt a a = false
  asymm : ∀ a b, lt a b = true → lt b a = false
  trans : ∀ a b c, lt a b = true → lt b c = true → lt a c = true
  incomp : ∀ a b c, lt a b = false → lt b a = false → lt b c = false → lt c b = false →
    lt a c = false ∧ lt c a = false

/-- keys which the order does not tell apart are equal -/
def KeyExact {α : Type} (lt : α → α → Bool) : Prop := ∀ a b, lt a b = false → lt b a = false → a = b

/-- a three way comparison function as required by `qsort` -/
structure ThreeWay {α : Type} (cmp : α → α → Int) : Prop where
  sign : ∀ a b, cmp a b < 0 ↔ cmp b a > 0
  trans : ∀ a b c, cmp a b ≤ 0 → cmp b c ≤ 0 → cmp a c ≤ 0

end Verif.Orders
