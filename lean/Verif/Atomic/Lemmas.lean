import Verif.Atomic.ModelRun
import Verif.Deriv.PropsDir
import Mathlib.Data.List.GetD
import Mathlib.Data.List.Nodup
/-
Lemmas on the flags and sparse arrays of recorded calls.
-/
namespace Verif.Atomic
open Verif.Deriv (sumTo sumTo_congr sumTo_zero Err Mem load store storeList)

theorem sumTo_append {R : Type} [AddMonoid R] (f : Nat → R) (a : Nat) : ∀ b, sumTo (a + b) f = sumTo a f + sumTo b fun j => f (a + j)
  | 0 => by simp [sumTo]
  | b + 1 => by
    rw [← Nat.add_assoc, sumTo, sumTo_append f a b, sumTo, add_assoc]

/-- the sum over the elements of a sparse array is the sum over all elements -/
theorem sparse_sum {R : Type} [NonUnitalNonAssocSemiring R] (nz : Nat → Bool) (v : Nat → R) (g : Nat → R) :
    ∀ {n : Nat}, (∀ j < n, nz j = false → v j = 0) →
    (sumTo ((List.range n).filter nz).length fun e =>
      g (((List.range n).filter nz).getD e 0) * (((List.range n).filter nz).map v).getD e 0) =
    sumTo n fun j => g j * v j
  | 0, _ => rfl
  | n + 1, h => by
    have ih := sparse_sum nz v g (n := n) fun j hj => h j (by omega)
    rw [List.range_succ, List.filter_append]
    cases hn : nz n with
    | false =>
      simp only [List.filter_cons, hn, List.filter_nil, List.append_nil, Bool.false_eq_true, if_false]
      rw [ih, sumTo, h n (by omega) hn, mul_zero, add_zero]
    | true =>
      simp only [List.filter_cons, hn, List.filter_nil, if_true, List.length_append, List.length_singleton]
      rw [sumTo, sumTo]
      congr 1
      · rw [← ih]
        apply sumTo_congr
        intro e he
        rw [List.getD_append _ _ _ _ he, List.map_append, List.getD_append _ _ _ _ (by simpa using he)]
      · rw [List.map_append, List.getD_append_right _ _ _ _ (by omega), List.getD_append_right _ _ _ _ (by simp)]
        simp

theorem setEach_length (s o : Nat) (f : Nat → Bool) (v : List Bool) : ∀ m, (setEach v m s o f).length = v.length
  | 0 => rfl
  | m + 1 => by
    have := setEach_length s o f v m
    rw [setEach] at this ⊢
    rw [List.range_succ, List.foldl_append, List.foldl_cons, List.foldl_nil, List.length_set, this]

theorem setEach_get {s o : Nat} (hs : 0 < s) (f : Nat → Bool) (v : List Bool) (pos : Nat) : ∀ m,
    ((∀ i < m, pos = i * s + o → pos < v.length → (setEach v m s o f)[pos]? = some (f i)) ∧
     ((∀ i < m, pos ≠ i * s + o) → (setEach v m s o f)[pos]? = v[pos]?))
  | 0 => ⟨fun i hi => by omega, fun _ => rfl⟩
  | m + 1 => by
    have hl := setEach_length s o f v m
    obtain ⟨h1, h2⟩ := setEach_get hs f v pos m
    have he : setEach v (m + 1) s o f = (setEach v m s o f).set (m * s + o) (f m) := by
      rw [setEach, List.range_succ, List.foldl_append, List.foldl_cons, List.foldl_nil]; rfl
    rw [he]
    constructor
    · intro i hi hp hb
      rw [List.getElem?_set]
      by_cases hm : m * s + o = pos
      · rw [if_pos hm, if_pos (by rw [hl, hm]; exact hb)]
        have : i * s = m * s := by omega
        rw [Nat.eq_of_mul_eq_mul_right hs this]
      · rw [if_neg hm]
        refine h1 i ?_ hp hb
        rcases Nat.lt_succ_iff_lt_or_eq.1 hi with h | h
        · exact h
        · subst h; exact absurd hp.symm hm
    · intro hp
      rw [List.getElem?_set, if_neg (Ne.symm (hp m (by omega)))]
      exact h2 fun i hi => hp i (by omega)

theorem isParameters_ev {R : Type} [Zero R] {tx : Nat → Cg R} {size : Nat} (h : isParameters tx size = true) (env : Nat → R)
    {i : Nat} (hi : i < size) : getValue (tx i) = (tx i).ev env := by
  rw [isParameters, List.all_eq_true] at h
  have := h i (List.mem_range.2 hi)
  cases ht : tx i with
  | par c => rfl
  | var id => rw [ht] at this; cases this

theorem isZero_ev {R : Type} [Zero R] [DecidableEq R] {c : Cg R} (h : c.isZero = true) (env : Nat → R) : c.ev env = 0 := by
  cases c with
  | par c => simpa [Cg.isZero, Cg.ev] using h
  | var id => cases h

end Verif.Atomic
