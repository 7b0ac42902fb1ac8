import Verif.Deriv.LemmasAssemble
import Mathlib.Algebra.Ring.Int.Defs
/-
C45: sparse Jacobians and Hessians assembled from one function per row or column. `els` are the elements (row, column)
requested by the user, the result has one value for each of them.
-/
namespace Verif.Deriv

theorem firstOrder_good {V : Type} [Zero V] [MulOneClass V] (D : List V → Nat → Nat → V) {req : List (Nat × Nat)}
    (hn : req.Nodup) (x : List V) : Good (firstOrder D req) [x, [1]] (D x) req := by
  intro k vs hg
  unfold firstOrder
  rw [find_groups hg]
  simp only [organize_ok hn (D x) hg, mul_one, List.map_id']

theorem firstOrderAtomics_good {V : Type} [MulOneClass V] (D : List V → Nat → Nat → V) (req : List (Nat × Nat))
    (x : List V) : Good (firstOrderAtomics D req) [x, [1]] (D x) req := by
  intro k vs hg
  unfold firstOrderAtomics
  rw [find_groups hg]
  simp only [mul_one]

theorem secondOrder_good {V : Type} [Zero V] [MulOneClass V] (H : List V → List V → Nat → Nat → V) (m : Nat)
    {req : List (Nat × Nat)} (hn : req.Nodup) (x w : List V) (hw : w.length = m) :
    Good (secondOrder H m req) [x, [1], w] (H x w) req := by
  intro k vs hg
  unfold secondOrder
  rw [find_groups hg]
  simp only [if_pos (Nat.le_of_eq hw.symm), List.take_of_length_le (Nat.le_of_eq hw), organize_ok hn (H x w) hg, mul_one,
    List.map_id']

theorem keyed_nodup {forward : Bool} {els : List (Nat × Nat)} (h : els.Nodup) : (keyed forward els).Nodup := by
  unfold keyed
  cases forward with
  | false => exact h
  | true =>
    refine h.map fun p q e => ?_
    have h1 : p.2 = q.2 := congrArg Prod.fst e
    have h2 : p.1 = q.1 := congrArg Prod.snd e
    exact Prod.ext h2 h1

theorem keyed_length (forward : Bool) (els : List (Nat × Nat)) : (keyed forward els).length = els.length := by
  cases forward <;> simp [keyed]

/-- the derivative of a key -/
def byKey {V : Type} (forward : Bool) (J : List V → Nat → Nat → V) : List V → Nat → Nat → V :=
  fun x k i => if forward then J x i k else J x k i

theorem holds_keyed {V : Type} {forward : Bool} {J : List V → Nat → Nat → V} {els : List (Nat × Nat)} {x : List V}
    {a : Mem V} (h : Holds (byKey forward J x) (keyed forward els) a) : Holds (J x) els a := by
  refine ⟨h.1.trans (keyed_length _ _), fun e i j hij => ?_⟩
  cases forward with
  | false => exact h.2 e i j hij
  | true => exact h.2 e j i (by simp [keyed, hij])

/-! ### the Jacobian -/

/-- One thread: for any elements without repetition, in any order, forward or reverse, the generated function is free
of undefined behaviour and stores every requested element at its place. -/
theorem sparse_jacobian_partial {V : Type} [Zero V] [MulOneClass V] (forward : Bool) (J : List V → Nat → Nat → V)
    {els : List (Nat × Nat)} (hn : els.Nodup) (x : List V) (rest : Args V) {jac : Mem V}
    (hlen : jac.length = els.length) :
    ∃ a, runSingle jacArgs (firstOrder (byKey forward J) (keyed forward els)) (keyed forward els) (x :: rest) jac = .ok a ∧
      Holds (J x) els a := by
  have hn' := keyed_nodup (forward := forward) hn
  obtain ⟨a, h1, h2⟩ := runSingle_ok (mkArgs := jacArgs) hn' (inp := x :: rest) rfl (firstOrder_good (byKey forward J) hn' x)
    (jac := jac) (hlen.trans (keyed_length _ _).symm)
  exact ⟨a, h1, holds_keyed h2⟩

/-- The same with the functions generated when atomic functions are used. -/
theorem sparse_jacobian_atomics_partial {V : Type} [MulOneClass V] (forward : Bool) (J : List V → Nat → Nat → V)
    {els : List (Nat × Nat)} (hn : els.Nodup) (x : List V) (rest : Args V) {jac : Mem V}
    (hlen : jac.length = els.length) :
    ∃ a, runSingle jacArgs (firstOrderAtomics (byKey forward J) (keyed forward els)) (keyed forward els) (x :: rest) jac =
      .ok a ∧ Holds (J x) els a := by
  have hn' := keyed_nodup (forward := forward) hn
  obtain ⟨a, h1, h2⟩ := runSingle_ok (mkArgs := jacArgs) hn' (inp := x :: rest) rfl (firstOrderAtomics_good (byKey forward J) _ x)
    (jac := jac) (hlen.trans (keyed_length _ _).symm)
  exact ⟨a, h1, holds_keyed h2⟩

/-- Several threads: no two threads store to the same place, and for every interleaving of their stores the result is
the same as with one thread. -/
theorem sparse_jacobian_threads_partial {V : Type} [Zero V] [MulOneClass V] (forward : Bool) (J : List V → Nat → Nat → V)
    {els : List (Nat × Nat)} (hn : els.Nodup) (x : List V) (rest : Args V) {jac : Mem V}
    (hlen : jac.length = els.length) :
    ∃ ts, tasks jacArgs (firstOrder (byKey forward J) (keyed forward els)) (keyed forward els) (x :: rest) = .ok ts ∧
      (∀ (a b : Nat) (ta tb : List (Nat × V)), ts[a]? = some ta → ts[b]? = some tb →
        ∀ p ∈ ta, ∀ q ∈ tb, p.1 = q.1 → a = b) ∧
      ∀ l, Interleaves ts l → ∃ a, storeList jac l = .ok a ∧ Holds (J x) els a := by
  have hn' := keyed_nodup (forward := forward) hn
  have hg := firstOrder_good (byKey forward J) hn' x
  refine ⟨_, tasks_ok (inp := x :: rest) (args := [x, [1]]) (args' := [x, [1]]) rfl
    (fun g h _ => hg g.1 g.2 h) (fun g h _ => ⟨rfl, hg g.1 g.2 h⟩), ?_, fun l hl => ?_⟩
  · intro a b ta tb ha hb p hp q hq he
    exact wr_disjoint ha hb hp hq he
  · obtain ⟨a, h1, h2⟩ := holds_of_stores hn' (val := byKey forward J x) (ws := l)
      (hlen.trans (keyed_length _ _).symm) (fun w => by rw [interleaves_mem hl]; simp)
    exact ⟨a, h1, holds_keyed h2⟩

/-! ### the Hessian -/

/-- One thread: the Hessian of the weighted sum, when the elements to evaluate are not repeated. `sp` is any pattern. -/
theorem sparse_hessian_partial {V : Type} [Zero V] [MulOneClass V] (H : List V → List V → Nat → Nat → V) (sp : Nat → Nat → Bool)
    {els : List (Nat × Nat)} (hn : (evalElements sp els).Nodup) (x w : List V) (hsym : ∀ i j, H x w i j = H x w j i)
    (rest : Args V) {hess : Mem V} (hlen : hess.length = els.length) :
    ∃ a, runSingle hesArgs (secondOrder H w.length (evalElements sp els)) (evalElements sp els) (x :: w :: rest) hess =
      .ok a ∧ Holds (H x w) els a := by
  obtain ⟨a, h1, h2⟩ := runSingle_ok (mkArgs := hesArgs) hn (inp := x :: w :: rest) rfl (secondOrder_good H w.length hn x w rfl) (jac := hess)
    (by rw [hlen, evalElements, List.length_map])
  refine ⟨a, h1, by rw [h2.1, evalElements, List.length_map], fun e i j hij => ?_⟩
  have hev : (evalElements sp els)[e]? = some (if !sp i j && sp j i then (j, i) else (i, j)) := by
    rw [evalElements, List.getElem?_map, hij]; rfl
  by_cases hc : (!sp i j && sp j i) = true
  · rw [if_pos hc] at hev
    rw [h2.2 e j i hev, hsym]
  · rw [if_neg hc] at hev
    exact h2.2 e i j hev

/-- Several threads: what remains true, when the elements of every row are consecutive in the request. -/
theorem sparse_hessian_threads_partial {V : Type} [Zero V] [MulOneClass V] (H : List V → List V → Nat → Nat → V)
    {els : List (Nat × Nat)} (hn : els.Nodup) {is : List Info} (his : infos els = .ok is)
    (hord : ∀ i ∈ is, i.ordered = true) (x w : List V) (rest : Args V) {hess : Mem V} (hlen : hess.length = els.length) :
    ∃ ts, tasks hesArgs (secondOrder H w.length els) els (x :: w :: rest) = .ok ts ∧
      ∀ l, Interleaves ts l → ∃ a, storeList hess l = .ok a ∧ Holds (H x w) els a := by
  have hg := secondOrder_good H w.length hn x w rfl
  rw [infos_ok, Except.ok.injEq] at his
  refine ⟨_, tasks_ok (inp := x :: w :: rest) (args := [x, [1], w]) (args' := [x, [1], w]) rfl
    (fun g h _ => hg g.1 g.2 h) (fun g h ho => ?_), fun l hl => ?_⟩
  · have := hord (info els g) (by rw [← his]; exact List.mem_map_of_mem h)
    rw [this] at ho; cases ho
  · exact holds_of_stores hn (val := H x w) (ws := l) hlen (fun p => by rw [interleaves_mem hl]; simp)

/-! ### what is wrong -/

/-- the Jacobian [[1, 2], [3, 4]] -/
def jac22 : List Int → Nat → Nat → Int := fun _ i j => 2 * i + j + 1

/-- An element requested twice: the second place is never written, although the first one is. -/
theorem repeated_element_counterexample :
    runSingle jacArgs (firstOrderAtomics (byKey false jac22) [(0, 1), (1, 0), (0, 1)]) [(0, 1), (1, 0), (0, 1)] [[7, 7]]
      [none, none, none] = .ok [some 2, some 3, none] := by decide +kernel

/-- Without atomic functions the function of the row stores zero for the first of two equal elements, whose value is
put to the position of the last one. -/
theorem repeated_element_zero_counterexample :
    firstOrder (byKey false jac22) [(0, 1), (0, 1)] 0 [[7, 7], [1]] = some [0, 2] ∧
    runSingle jacArgs (firstOrder (byKey false jac22) [(0, 1), (0, 1)]) [(0, 1), (0, 1)] [[7, 7]]
      [none, none] = .ok [some 2, none] := by decide +kernel

/-- the Hessian of w0 * x0 * x1 + w1 * x0² -/
def hes2 : List Int → List Int → Nat → Nat → Int := fun _ w i j =>
  if i = 0 ∧ j = 0 then 2 * w.getD 1 0 else if i + j = 1 then w.getD 0 0 else 0

/-- The generated function for several threads gives the weights of the caller only to the functions of rows whose
elements are consecutive: the others read `in[1]` of the local array, which is the constant one. With one equation of
weight 5 the element is 1 instead of 5. -/
theorem hessian_threads_weights_counterexample :
    tasks hesArgs (secondOrder hes2 1 [(0, 1), (1, 0), (0, 0)]) [(0, 1), (1, 0), (0, 0)] [[7, 7], [5]] =
      .ok [[(0, 1), (2, 0)], [(1, 5)]] ∧
    runSingle hesArgs (secondOrder hes2 1 [(0, 1), (1, 0), (0, 0)]) [(0, 1), (1, 0), (0, 0)] [[7, 7], [5]]
      [none, none, none] = .ok [some 5, some 5, some 0] := by decide +kernel

/-- With two equations the second weight is read after the end of the constant. -/
theorem hessian_threads_bounds_counterexample :
    tasks hesArgs (secondOrder hes2 2 [(0, 1), (1, 0), (0, 0)]) [(0, 1), (1, 0), (0, 0)] [[7, 7], [5, 6]] =
      .error .ub := by decide +kernel

/-- Both elements of a symmetric pair requested while the pattern has only one of them (an atomic function which only
provides half of its Hessian): the same element is evaluated twice and one place is never written. -/
theorem hessian_symmetric_pair_counterexample :
    evalElements (fun i j => i == 1 && j == 0) [(0, 1), (1, 0)] = [(1, 0), (1, 0)] ∧
    runSingle hesArgs (secondOrder hes2 1 [(1, 0), (1, 0)]) [(1, 0), (1, 0)] [[7, 7], [5]] [none, none] =
      .ok [some 5, none] := by decide +kernel

/-! ### non-vacuity -/

example : ∃ a, runSingle jacArgs (firstOrder (byKey true jac22) (keyed true [(1, 1), (0, 0), (1, 0)]))
    (keyed true [(1, 1), (0, 0), (1, 0)]) [[7, 7]] [none, none, none] = .ok a ∧
    Holds (jac22 [7, 7]) [(1, 1), (0, 0), (1, 0)] a :=
  sparse_jacobian_partial true jac22 (by decide) [7, 7] [] rfl

example : runSingle jacArgs (firstOrder (byKey true jac22) (keyed true [(1, 1), (0, 0), (0, 1)]))
    (keyed true [(1, 1), (0, 0), (0, 1)]) [[7, 7]] [none, none, none] = .ok [some 4, some 1, some 2] := by decide +kernel

example : infos [(0, 0), (0, 1), (1, 0)] = .ok [⟨0, [0, 1], [some 0, some 1], true⟩, ⟨1, [0], [some 2], true⟩] := by
  decide +kernel

example : ∃ ts, tasks hesArgs (secondOrder hes2 2 [(0, 0), (0, 1), (1, 0)]) [(0, 0), (0, 1), (1, 0)] [[7, 7], [5, 6]] =
    .ok ts ∧ ∀ l, Interleaves ts l → ∃ a, storeList [none, none, none] l = .ok a ∧
      Holds (hes2 [7, 7] [5, 6]) [(0, 0), (0, 1), (1, 0)] a :=
  sparse_hessian_threads_partial hes2 (by decide)
    (is := [⟨0, [0, 1], [some 0, some 1], true⟩, ⟨1, [0], [some 2], true⟩]) (by decide +kernel) (by decide)
    [7, 7] [5, 6] [] rfl

end Verif.Deriv
