import Verif.Atomic.Props
import Verif.Atomic.LemmasRun
/-
C50: the functions which receive the calls of a generated function do what `Verif/Atomic/Props.lean` expects of them.
-/
namespace Verif.Atomic
open Verif.Deriv (sumTo sumTo_congr sumTo_zero Err Mem load store storeList storeList_ok Cells)

variable {R : Type} [CommRing R] [DecidableEq R]

/-! ### atomic functions of the user -/

/-- the user's forward function is right whatever it is given as Taylor coefficients of the results -/
def UserForward (F : Fn R) (user : Nat → Nat → (Nat → R) → (Nat → R) → Nat → R) : Prop :=
  (∀ q v u, ∀ i < F.m, user q 0 v u i = F.val ((List.range F.n).map v) i) ∧
  ∀ v u, ∀ i < F.m, user 1 1 v u (i * 2 + 1) =
    tangent F ((List.range F.n).map fun j => v (j * 2)) (fun j => v (j * 2 + 1)) i

/-- the user's reverse function is right whatever it is given as Taylor coefficients of the results -/
def UserReverse (F : Fn R) (user : Nat → (Nat → R) → (Nat → R) → (Nat → R) → Nat → R) : Prop :=
  (∀ v u w, ∀ j < F.n, user 0 v u w j = partialT F ((List.range F.n).map v) w j) ∧
  ∀ v u w, ∀ j < F.n, user 1 v u w (j * 2) = partialX F ((List.range F.n).map fun k => v (k * 2))
    (fun k => v (k * 2 + 1)) (fun i => w (i * 2)) (fun i => w (i * 2 + 1)) j

theorem contents_of {a : Mem R} {l : Nat} {v : R} (h : a[l]? = some (some v)) : contents a l = v := by
  rw [contents, List.getD_eq_getElem?_getD, h]; rfl

theorem map_getD (x : List R) {n : Nat} (h : x.length = n) : (List.range n).map (fun j => x.getD j 0) = x := by
  apply List.ext_getElem
  · simp [h]
  · intro i h1 h2
    rw [List.getElem_map, List.getElem_range, List.getD_eq_getElem?_getD, List.getElem?_eq_getElem h2]
    rfl

/-- one dense array -/
theorem convert_dense (x : List R) {n : Nat} (h : x.length = n) :
    ∃ a, convert n 0 [.dense x] 0 (List.replicate (n * 1) none) = .ok a ∧ (List.range n).map (contents a) = x := by
  obtain ⟨a, h1, _, h2, _⟩ := dense_cells (R := R) (vs := x) (n := n) (p := 0) (k := 0)
    (dst := List.replicate (n * 1) none) (by omega) (by intro j hj; simp; omega)
  refine ⟨a, by rw [convert, h1]; rfl, ?_⟩
  refine Eq.trans (List.map_congr_left fun j hj => ?_) (map_getD x h)
  have := h2 j (List.mem_range.1 hj)
  exact contents_of (by simpa using this)

/-- one sparse array -/
theorem convert_sparse {idx : List Nat} {t : List R} {n : Nat} (size : Nat) (hlen : idx.length = t.length) (hnd : idx.Nodup)
    (hidx : ∀ j ∈ idx, j < n) :
    ∃ a, convert n 0 [.sparse size idx t] 0 (List.replicate (n * 1) none) = .ok a ∧
      ∀ j < n, contents a j = sparseVal idx t j := by
  obtain ⟨a, h1, _, h2, _⟩ := sparse_cells (R := R) (size := size) (n := n) (p := 0) (k := 0)
    (dst := List.replicate (n * 1) none) hlen hnd hidx (by omega) (by intro j hj; simp; omega)
  refine ⟨a, by rw [convert, h1]; rfl, fun j hj => ?_⟩
  have := h2 j hj
  exact contents_of (by simpa using this)

/-- the arguments and a direction -/
theorem convert_direction (x : List R) {idx : List Nat} {t : List R} {n : Nat} (h : x.length = n)
    (size : Nat) (hlen : idx.length = t.length) (hnd : idx.Nodup) (hidx : ∀ j ∈ idx, j < n) :
    ∃ a, convert n 1 [.dense x, .sparse size idx t] 0 (List.replicate (n * 2) none) = .ok a ∧
      ((List.range n).map fun j => contents a (j * 2)) = x ∧ ∀ j < n, contents a (j * 2 + 1) = sparseVal idx t j := by
  obtain ⟨a, h1, hl, h2, _⟩ := dense_cells (R := R) (vs := x) (n := n) (p := 1) (k := 0)
    (dst := List.replicate (n * 2) none) (by omega) (by intro j hj; simp; omega)
  obtain ⟨b, h3, _, h4, h5⟩ := sparse_cells (R := R) (size := size) (n := n) (p := 1) (k := 1)
    (dst := a) hlen hnd hidx (by omega) (by intro j hj; rw [hl]; simp; omega)
  refine ⟨b, by simp only [convert, h1, h3], ?_, fun j hj => contents_of (h4 j hj)⟩
  refine Eq.trans (List.map_congr_left fun j hj => ?_) (map_getD x h)
  have hj := List.mem_range.1 hj
  apply contents_of
  rw [h5 (j * 2) (fun i hi => by omega)]
  exact h2 j hj

/-- the weights of the results -/
theorem convert_weights (w : List R) {m : Nat} (h : w.length = m) (size : Nat) :
    ∃ a, convert m 1 [.sparse size [] [], .dense w] 0 (List.replicate (m * 2) none) = .ok a ∧
      ∀ i < m, contents a (i * 2) = 0 ∧ contents a (i * 2 + 1) = w.getD i 0 := by
  obtain ⟨a, h1, hl, h2, _⟩ := sparse_cells (R := R) (size := size) (idx := []) (vs := []) (n := m) (p := 1) (k := 0)
    (dst := List.replicate (m * 2) none) rfl List.nodup_nil (by simp) (by omega) (by intro j hj; simp; omega)
  obtain ⟨b, h3, _, h4, h5⟩ := dense_cells (R := R) (vs := w) (n := m) (p := 1) (k := 1) (dst := a) (by omega)
    (by intro j hj; rw [hl]; simp; omega)
  refine ⟨b, by simp only [convert, h1, h3], fun i hi => ⟨contents_of ?_, contents_of (h4 i hi)⟩⟩
  rw [h5 (i * 2) (fun i hi => by omega), show i * 2 = i * (1 + 1) + 0 from rfl, h2 i hi]
  rfl

theorem convertAdd_zero (src : Nat → R) {m : Nat} :
    ∃ y, convertAdd src m 0 0 (List.replicate m (some 0)) = .ok y ∧ ∀ i < m, y[i]? = some (some (src i)) := by
  obtain ⟨y, h1, _, h3⟩ := storeList_ok ((List.range m).map fun j => (j, src j)) (List.replicate m (some 0)) (fun w hw => by
    obtain ⟨j, hj, rfl⟩ := List.mem_map.1 hw
    simpa using hj)
  refine ⟨y, by rw [convertAdd, if_pos rfl, h1], fun i hi => ?_⟩
  refine ((h3 src (fun w hw => ?_)) i).1 ⟨_, List.mem_map.2 ⟨i, List.mem_range.2 hi, rfl⟩, rfl⟩
  obtain ⟨j, _, rfl⟩ := List.mem_map.1 hw
  rfl

theorem convertAdd_one (src : Nat → R) {m k : Nat} :
    ∃ y, convertAdd src m 1 k (List.replicate m (some 0)) = .ok y ∧ ∀ i < m, y[i]? = some (some (src (i * 2 + k))) := by
  obtain ⟨y, h1, h2, _⟩ := addEach_ok src 1 k (fun _ => 0) (List.range m) (List.replicate m (some 0)) List.nodup_range
    (fun j hj => by rw [List.getElem?_replicate, if_pos (List.mem_range.1 hj)])
  refine ⟨y, by rw [convertAdd, if_neg (by omega), h1], fun i hi => ?_⟩
  rw [h2 i (List.mem_range.2 hi), zero_add]

/-- C50. Zero order calls of an atomic function of the user. -/
theorem user_forward_zero {F : Fn R} {user : Nat → Nat → (Nat → R) → (Nat → R) → Nat → R} (hu : UserForward F user) :
    ForZeroOk F (userForward user) := by
  intro x hx q
  obtain ⟨a, ha, hax⟩ := convert_dense x hx
  obtain ⟨y, hy, hyv⟩ := convertAdd_zero (user q 0 (contents a) fun _ => 0) (m := F.m)
  refine ⟨y, ?_, fun i hi => ?_⟩
  · have : convert x.length 0 [RArr.dense x] 0 (List.replicate (x.length * (0 + 1)) none) = .ok a := by rw [hx]; exact ha
    simp only [userForward, RArr.size, List.take_succ_cons, List.take_nil, this, List.length_replicate, hy]
  · rw [hyv i hi, hu.1 _ _ _ i hi, hax]

/-- C50. First order calls of an atomic function of the user. -/
theorem user_forward_one {F : Fn R} {user : Nat → Nat → (Nat → R) → (Nat → R) → Nat → R} (hu : UserForward F user) :
    ForOneOk F (fun _ => True) (userForward user) := by
  intro x idx t hx hlen hnd hidx
  obtain ⟨a, ha, hax, hat⟩ := convert_direction x hx F.n hlen hnd fun j hj => (hidx j hj).1
  obtain ⟨y, hy, hyv⟩ := convertAdd_one (user 1 1 (contents a) fun _ => 0) (m := F.m) (k := 1)
  refine ⟨y, ?_, fun i hi => ?_⟩
  · have : convert x.length 1 [RArr.dense x, .sparse F.n idx t] 0 (List.replicate (x.length * (1 + 1)) none) = .ok a := by
      rw [hx]; exact ha
    simp only [userForward, RArr.size, List.take_succ_cons, List.take_nil, this, List.length_replicate, hy]
  · rw [hyv i hi, hu.2 _ _ i hi, hax, tangent, ← sumTo_sparseVal _ idx t hlen hnd fun j hj => (hidx j hj).1]
    congr 2
    apply sumTo_congr
    intro j hj
    rw [hat j hj]

/-- C50. First order reverse calls of an atomic function of the user. -/
theorem user_reverse_zero {F : Fn R} {user : Nat → (Nat → R) → (Nat → R) → (Nat → R) → Nat → R} (hu : UserReverse F user) :
    RevZeroOk F (fun _ => True) (userReverse user) := by
  intro x idx w hx hlen hnd hidx
  obtain ⟨a, ha, hax⟩ := convert_dense x hx
  obtain ⟨b, hb, hbw⟩ := convert_sparse (R := R) F.m hlen hnd fun i hi => (hidx i hi).1
  obtain ⟨y, hy, hyv⟩ := convertAdd_zero (user 0 (contents a) (fun _ => 0) (contents b)) (m := F.n)
  refine ⟨y, ?_, fun j hj => ?_⟩
  · have h1 : convert x.length 0 [RArr.dense x] 0 (List.replicate (x.length * (0 + 1)) none) = .ok a := by rw [hx]; exact ha
    have h2 : convert F.m 0 [RArr.sparse F.m idx w] 0 (List.replicate (F.m * (0 + 1)) none) = .ok b := hb
    simp only [userReverse, RArr.size, List.take_succ_cons, List.take_nil, h1, h2]
    rw [hx]
    exact hy
  · rw [hyv j hj, hu.1 _ _ _ j hj, hax, partialT, ← sumTo_sparseVal (fun i => F.jac x i j) idx w hlen hnd
      fun i hi => (hidx i hi).1]
    congr 2
    apply sumTo_congr
    intro i hi
    rw [hbw i hi]

/-- C50. Second order reverse calls of an atomic function of the user, without weights of order zero. -/
theorem user_reverse_one_partial {F : Fn R} {user : Nat → (Nat → R) → (Nat → R) → (Nat → R) → Nat → R}
    (hu : UserReverse F user) : RevOneOk F (fun _ => True) (userReverse user) := by
  intro x idx t w hx hw hlen hnd hidx
  obtain ⟨a, ha, hax, hat⟩ := convert_direction x hx F.n hlen hnd fun j hj => (hidx j hj).1
  obtain ⟨b, hb, hbw⟩ := convert_weights w hw F.m
  obtain ⟨y, hy, hyv⟩ := convertAdd_one (user 1 (contents a) (fun _ => 0) (contents b)) (m := F.n) (k := 0)
  refine ⟨y, ?_, fun j hj => ?_⟩
  · have h1 : convert x.length 1 [RArr.dense x, .sparse F.n idx t] 0 (List.replicate (x.length * (1 + 1)) none) = .ok a := by
      rw [hx]; exact ha
    have h2 : convert F.m 1 [RArr.sparse F.m [] [], .dense w] 0 (List.replicate (F.m * (1 + 1)) none) = .ok b := hb
    simp only [userReverse, RArr.size, List.take_succ_cons, List.take_nil, h1, h2]
    rw [hx]
    exact hy
  · rw [hyv j hj, Nat.add_zero, hu.2 _ _ _ j hj, hax, partialX, sumTo_zero (fun i hi => by
      rw [(hbw i hi).1, mul_zero]), zero_add, ← sumTo_sparseVal
      (fun k => sumTo F.m fun i => F.hes x i k j * w.getD i 0) idx t hlen hnd fun j hj => (hidx j hj).1]
    congr 2
    apply sumTo_congr
    intro k hk
    rw [hat k hk]
    congr 1
    apply sumTo_congr
    intro i hi
    rw [(hbw i hi).2]

/-! ### compiled models -/

open Verif.Deriv (firstFn secondFn byKey keyed groups)

/-- C50. Zero order calls of a compiled model. -/
theorem model_forward_zero {F : Fn R} {zero : List R → List R}
    (hz : ∀ x, x.length = F.n → ∀ i < F.m, (zero x).getD i 0 = F.val x i) (fn : Verif.Deriv.Fun R)
    (els : List (Nat × List Nat)) : ForZeroOk F (modelForward zero fn els F.m) := by
  intro x hx q
  obtain ⟨y, h1, _, h3⟩ := storeList_ok ((List.range F.m).map fun i => (i, (zero x).getD i 0)) (List.replicate F.m (some 0))
    (fun w hw => by
      obtain ⟨j, hj, rfl⟩ := List.mem_map.1 hw
      simpa using hj)
  refine ⟨y, h1, fun i hi => ?_⟩
  rw [← hz x hx i hi]
  refine ((h3 (fun i => (zero x).getD i 0) (fun w hw => ?_)) i).1 ⟨_, List.mem_map.2 ⟨i, List.mem_range.2 hi, rfl⟩, rfl⟩
  obtain ⟨j, _, rfl⟩ := List.mem_map.1 hw
  rfl

/-- C50. First order calls of a compiled model whose generated derivatives are right (C46), for directions along
arguments which have elements in the Jacobian pattern `els`. -/
theorem model_forward_one {F : Fn R} (zero : List R → List R) (atomics : Bool) {els : List (Nat × Nat)} (hn : els.Nodup)
    (hb : ∀ p ∈ els, p.1 < F.m) (hJ : ∀ x, ∀ i < F.m, ∀ j < F.n, (i, j) ∉ els → F.jac x i j = 0) :
    ForOneOk F (fun j => ∃ i, (i, j) ∈ els)
      (modelForward zero (firstFn atomics (byKey true F.jac) (keyed true els)) (groups (keyed true els)) F.m) := by
  intro x idx t hx hlen hnd hidx
  obtain ⟨y, h1, _, h2, _⟩ := Verif.Deriv.sparse_forward_one_partial atomics F.jac hn hb x (idx := idx) (tx1 := t)
    (by omega) (fun j hj => (hidx j hj).2) (fun j hj i hi hno => hJ x i hi j (hidx j hj).1 hno)
    (ty := List.replicate F.m (some 0)) (by simp)
  exact ⟨y, h1, h2⟩

/-- C50. First order reverse calls of a compiled model, for weights of results which have elements in the pattern. -/
theorem model_reverse_zero {F : Fn R} (atomics : Bool) {els : List (Nat × Nat)} (hn : els.Nodup)
    (hb : ∀ p ∈ els, p.2 < F.n) (hJ : ∀ x, ∀ i < F.m, ∀ j < F.n, (i, j) ∉ els → F.jac x i j = 0)
    (fn2 : Verif.Deriv.Fun R) (els2 : List (Nat × List Nat)) :
    RevZeroOk F (fun i => ∃ j, (i, j) ∈ els) (modelReverse (firstFn atomics F.jac els) (groups els) fn2 els2 F.n) := by
  intro x idx w hx hlen hnd hidx
  obtain ⟨y, h1, _, h2, _⟩ := Verif.Deriv.sparse_reverse_one_partial atomics F.jac hn hb x (idx := idx) (py := w)
    (by omega) (fun j hj => (hidx j hj).2) (fun i hi j hj hno => hJ x i (hidx i hi).1 j hj hno)
    (px := List.replicate F.n (some 0)) (by simp)
  exact ⟨y, h1, h2⟩

/-- C50. Second order reverse calls of a compiled model, for directions along arguments which have elements in the
Hessian pattern. -/
theorem model_reverse_one_partial {F : Fn R} (atomics : Bool) {els : List (Nat × Nat)} (hn : els.Nodup)
    (hb : ∀ p ∈ els, p.2 < F.n) (hH : ∀ x, ∀ k < F.n, ∀ j < F.n, (k, j) ∉ els → ∀ i < F.m, F.hes x i k j = 0)
    (fn1 : Verif.Deriv.Fun R) (els1 : List (Nat × List Nat)) :
    RevOneOk F (fun k => ∃ j, (k, j) ∈ els)
      (modelReverse fn1 els1
        (secondFn atomics (fun x w k j => sumTo F.m fun i => F.hes x i k j * w.getD i 0) F.m els) (groups els) F.n) := by
  intro x idx t w hx hw hlen hnd hidx
  obtain ⟨y, h1, _, h2, _⟩ := Verif.Deriv.sparse_reverse_two_partial atomics
    (fun x w k j => sumTo F.m fun i => F.hes x i k j * w.getD i 0) hn hb x w (idx := idx) (tx1 := t)
    (by omega) (fun j hj => (hidx j hj).2) (fun k hk j hj hno => sumTo_zero fun i hi => by
      rw [hH x k (hidx k hk).1 j hj hno i hi, zero_mul])
    (px := List.replicate F.n (some 0)) (by simp)
  rw [hw] at h1
  exact ⟨y, h1, h2⟩

end Verif.Atomic
