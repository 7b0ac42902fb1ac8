import Verif.Atomic.PropsRun
import Mathlib.Tactic.Ring
/-
C50: what is wrong in the recording and running of calls of atomic functions, and a case which meets the hypotheses of the
theorems.
-/
namespace Verif.Atomic
open Verif.Deriv (sumTo sumTo_congr sumTo_zero Err Mem load store storeList)

/-! ### what is wrong -/

section
variable {R : Type} [CommRing R] [DecidableEq R]

/-- Whatever the atomic function and its sparsity pattern, the partial derivatives with respect to the direction recorded in
a second order reverse sweep are zero if the weights of order zero are, because the pattern is asked for with the weights
of order zero and not with those of order one. -/
theorem reverse_one_direction_zero (ext : RevExt R) (eval : Nat → (Nat → R) → (Nat → R) → (Nat → R) → Nat → R)
    {revJac : (Nat → Bool) → Nat → Bool} (revHes : (Nat → Bool) → (Nat → Bool) → Nat → Bool) (standAlone : Bool)
    {n m : Nat} (tx ty py : Nat → Cg R) (hpy : ∀ i, (py (i * 2)).isZero = true)
    (hnone : ∀ j < n, revJac (fun _ => false) j = false)
    (hvar : (isParameters tx (n * 2) && isParameters ty (m * 2) && isParameters py (m * 2)) = false)
    (env : Nat → R) {j : Nat} (hj : j < n) :
    evalReverse ext env (reverse eval revJac revHes standAlone n m 1 tx ty py) (j * 2 + 1) = .ok 0 := by
  have hflag : (vxFlags revJac revHes n 1 tx py).getD (j * 2 + 1) false = false := by
    rw [List.getD_eq_getElem?_getD, vxFlags, if_pos (by omega)]
    rw [((setEach_get (by omega) _ _ _ n).2 (by intro i _; omega))]
    rw [((setEach_get (by omega) _ _ _ n).1 j hj rfl (by simp; omega))]
    have : (fun i => !(py (i * (1 + 1))).isZero) = fun _ => false := by
      funext i
      have := hpy i
      simp [this]
    rw [this]
    exact hnone j hj
  unfold reverse
  simp only [Nat.reduceAdd]
  rw [if_neg (by simp [hvar])]
  split
  · rfl
  · simp only [evalReverse, hflag, Bool.false_eq_true, if_false, Elem.ev]

/-- With all orders asked for at once (`q = 0`, `p = 1`) the values of the atomic function are recorded as zero: only the
array of the highest order is given to the call. -/
theorem forward_both_zero (ext : ForExt R) (eval : Nat → Nat → (Nat → R) → Nat → R) (forJac : (Nat → Bool) → Nat → Bool)
    (zeroDep : (Nat → Bool) → Nat → Bool) {n m : Nat} (tx : Nat → Cg R) (hvar : isParameters tx (n * 2) = false)
    (env : Nat → R) {y : Mem R} (hext : ext 0 1 [(makeArray tx n 1 0).ev env, (makeSparseArray tx n 1 1).ev env]
      (List.replicate m (some 0)) = .ok y) {i : Nat} (hi : i < m) :
    evalForward ext env (forward eval forJac zeroDep n m 0 1 none tx) (i * 2) = .ok 0 := by
  have hflag : (vyFlags forJac 1 m tx).getD (i * 2) false = true := by
    rw [List.getD_eq_getElem?_getD, vyFlags, ((setEach_get (by omega) _ _ _ m).2 (by intro i _; omega)),
      List.getElem?_replicate, if_pos (by omega)]
    rfl
  unfold forward
  simp only [Nat.reduceAdd, Nat.one_ne_zero, if_false]
  rw [if_neg (by simp [hvar]), if_neg]
  · have h1 : (List.map (fun k => if k = 0 then makeArray tx n 1 k else makeSparseArray tx n 1 k) (List.range 2)) =
        [makeArray tx n 1 0, makeSparseArray tx n 1 1] := rfl
    have e2 : ((makeZeroArray (R := R) m).ev env).mem = List.replicate m (some 0) := by
      simp [makeZeroArray, Arr.ev, RArr.mem, Cg.ev]
    have hrun : runForward ext env ⟨0, 1, [makeArray tx n 1 0, makeSparseArray tx n 1 1],
        [makeZeroArray m, makeZeroArray m]⟩ = .ok [List.replicate m (some 0), y] := by
      simp only [runForward, List.map_cons, List.map_nil, List.getElem?_cons_succ, List.getElem?_cons_zero, e2, hext,
        List.set_cons_succ, List.set_cons_zero]
    rw [h1, show List.map (fun _ => makeZeroArray m) (List.range 2) = [makeZeroArray (R := R) m, makeZeroArray m] from rfl]
    have hm : (i * 2) % 2 = 0 := by omega
    have hd : (i * 2) / 2 = i := by omega
    simp only [evalForward, hflag, if_true, hm, hd, Elem.ev, hrun, List.getElem?_cons_zero, load]
    rw [List.getElem?_replicate, if_pos hi]
  · rintro ⟨_, h⟩
    have := List.all_eq_true.1 h (i * 2) (List.mem_range.2 (by omega))
    rw [hflag] at this
    cases this

end

/-- `f(a) = 3 a` -/
def triple : Fn Int where
  n := 1
  m := 1
  val x _ := 3 * x.getD 0 0
  jac _ _ _ := 3
  hes _ _ _ _ := 0

/-- `g(u) = u²` -/
def square : Fn Int where
  n := 1
  m := 1
  val x _ := x.getD 0 0 * x.getD 0 0
  jac x _ _ := 2 * x.getD 0 0
  hes _ _ _ _ := 2

/-- `f(g(u)) = 3 u²` -/
def composed : Fn Int where
  n := 1
  m := 1
  val x _ := 3 * (x.getD 0 0 * x.getD 0 0)
  jac x _ _ := 6 * x.getD 0 0
  hes _ _ _ _ := 6

/-- what the user's reverse function of `triple` gives -/
def tripleReverse : Nat → (Nat → Int) → (Nat → Int) → (Nat → Int) → Nat → Int
  | 0, _, _, w, j => 3 * w j
  | _, _, _, w, l => 3 * w l

def tripleRevRec (py : Nat → Cg Int) : Rec (RevCall Int) Int :=
  reverse tripleReverse (fun r j => if j = 0 then r 0 else false) (fun _ _ _ => false) true 1 1 1 (fun l => .var l)
    (fun l => .var (10 + l)) py

/-- The second derivative of a nonlinear function followed by an atomic function: with `a = u²` at `u = 1` in direction
`1`, and `f(a) = 3 a` as atomic function, the second order reverse sweep has to give 6. The partial derivative with respect
to the direction, 3, is recorded as 0, with which the sweep gives 0. -/
theorem reverse_one_direction_counterexample (ext : RevExt Int) :
    let py : Nat → Cg Int := fun l => if l = 1 then .par 1 else .par 0
    let env : Nat → Int := fun l => if l = 0 then 1 else 2
    evalReverse ext env (tripleRevRec py) 0 = .ok 0 ∧ evalReverse ext env (tripleRevRec py) 1 = .ok 0 ∧
    partialX triple [1] (fun _ => 2) (fun _ => 0) (fun _ => 1) 0 = 0 ∧ partialT triple [1] (fun _ => 1) 0 = 3 ∧
    partialX square [1] (fun _ => 1) (fun _ => 0) (fun _ => 0) 0 = 0 ∧
    partialX square [1] (fun _ => 1) (fun _ => 0) (fun _ => 3) 0 = 6 ∧
    partialX composed [1] (fun _ => 1) (fun _ => 0) (fun _ => 1) 0 = 6 :=
  ⟨rfl, rfl, rfl, rfl, rfl, rfl, rfl⟩

/-- With a weight of order zero the partial derivative with respect to the argument is recorded as zero instead of 3 times
the weight, and the one with respect to the direction is read from an array without elements. -/
theorem reverse_one_weights_counterexample :
    let py : Nat → Cg Int := fun l => if l = 0 then .var 2 else .par 0
    let env : Nat → Int := fun l => if l = 2 then 7 else 1
    evalReverse (userReverse tripleReverse) env (tripleRevRec py) 0 = .ok 0 ∧
    evalReverse (userReverse tripleReverse) env (tripleRevRec py) 1 = .error .ub ∧
    partialX triple [1] (fun _ => 1) (fun _ => 7) (fun _ => 0) 0 = 21 ∧ partialT triple [1] (fun _ => 0) 0 = 0 :=
  ⟨rfl, rfl, rfl, rfl⟩

/-- `f(x) = (x0, x1)` -/
def identity2 : Fn Int where
  n := 2
  m := 2
  val x i := x.getD i 0
  jac _ i j := if i = j then 1 else 0
  hes _ _ _ _ := 0

/-- While a function is recorded, results which depend only on parameters are recorded as the constant zero: the second
result of `f(x) = (x0, x1)` where the second argument is a parameter of the recorded function with value 5. -/
theorem forward_zero_parameters_counterexample (ext : ForExt Int) :
    let tx : Nat → Cg Int := fun l => if l = 0 then .var 0 else .par 5
    let env : Nat → Int := fun _ => 1
    evalForward ext env (forward (fun _ _ v i => v i) (fun r i => r i) (zeroOrderDependency (fun i j => i == j) 2) 2 2 0 0
      (some fun j => j == 0) tx) 1 = .ok 0 ∧ identity2.val [1, 5] 1 = 5 :=
  ⟨rfl, rfl⟩

/-- `f(x) = (x², x⁴)` -/
def powers : Fn Int where
  n := 1
  m := 2
  val x i := if i = 0 then x.getD 0 0 ^ 2 else x.getD 0 0 ^ 4
  jac x i _ := if i = 0 then 2 * x.getD 0 0 else 4 * x.getD 0 0 ^ 3
  hes x i _ _ := if i = 0 then 2 else 12 * x.getD 0 0 ^ 2

/-- An implementation of `powers` which computes `y1' = 2 y0 y0'` with the value of the result of order zero -/
def powersForward : Nat → Nat → (Nat → Int) → (Nat → Int) → Nat → Int
  | _, 0, v, _, i => if i = 0 then v 0 ^ 2 else v 0 ^ 4
  | _, _, v, u, l => if l = 1 then 2 * v 0 * v 1 else 2 * u 0 * (2 * v 0 * v 1)

/-- CppAD allows an atomic function to use the lower orders of its results, which are given to it. Such a function gives
wrong derivatives in the generated library, where they are always zero: `powersForward` is right if it is given the
values, and the derivative of `x⁴` at 1 is recorded as an element with value 0 instead of 4. -/
theorem user_results_counterexample :
    (∀ v u, (∀ i < 2, u (i * 2) = powers.val [v 0] i) → ∀ i < 2, powersForward 1 1 v u (i * 2 + 1) =
      tangent powers [v 0] (fun j => v (j * 2 + 1)) i) ∧
    evalForward (userForward powersForward) (fun _ => 1)
      (forward (fun q p v => powersForward q p v fun _ => 0) (fun r _ => r 0) (fun _ _ => true) 1 2 1 1 none
        fun l => .var l) 3 = .ok 0 ∧
    tangent powers [1] (fun _ => 1) 1 = 4 := by
  refine ⟨fun v u hu i hi => ?_, rfl, rfl⟩
  have h0 := hu 0 (by omega)
  have : i = 0 ∨ i = 1 := by omega
  rcases this with rfl | rfl
  · simp [powersForward, powers, tangent, sumTo]
  · simp only [powers, if_pos] at h0
    simp [powersForward, powers, tangent, sumTo] at h0 ⊢
    rw [h0]
    ring

/-- A compiled model called with a direction along an argument without elements in the Jacobian pattern: the call raises an
exception although the derivative is defined (C46). The function is `f(x) = x0` of two arguments. -/
theorem model_forward_one_counterexample :
    let F : Fn Int := ⟨2, 1, fun x _ => x.getD 0 0, fun _ _ j => if j = 0 then 1 else 0, fun _ _ _ _ => 0⟩
    let ext := modelForward (fun x => x.take 1) (Verif.Deriv.firstFn false (Verif.Deriv.byKey true F.jac)
      (Verif.Deriv.keyed true [(0, 0)])) (Verif.Deriv.groups (Verif.Deriv.keyed true [(0, 0)])) 1
    evalForward ext (fun _ => 1) (forward (fun _ _ _ _ => 0) (fun r _ => r 0) (fun _ _ => true) 2 1 1 1 none
      fun l => .var l) 1 = .error .exception ∧ tangent F [1, 1] (fun _ => 1) 0 = 1 :=
  ⟨rfl, rfl⟩

/-! ### a case which meets the hypotheses -/

/-- `f(x) = (x0 x1, 3 x1)` -/
def sample : Fn Int where
  n := 2
  m := 2
  val x i := if i = 0 then x.getD 0 0 * x.getD 1 0 else 3 * x.getD 1 0
  jac x i j := if i = 0 then (if j = 0 then x.getD 1 0 else x.getD 0 0) else (if j = 0 then 0 else 3)
  hes _ i k j := if i = 0 ∧ k ≠ j then 1 else 0

def sampleDep (i j : Nat) : Bool := i == 0 || j != 0
def sampleHdep (i k j : Nat) : Bool := i == 0 && k != j

theorem sample_jacIn : JacIn sample fun i j => sampleDep i j = true := by
  intro x i hi j hj h
  simp only [sampleDep, Bool.or_eq_true, not_or, beq_iff_eq, bne_iff_ne, ne_eq, not_not] at h
  simp only [sample, h.1, h.2, if_false, if_true]

theorem sample_hesIn : HesIn sample fun i k j => sampleHdep i k j = true := by
  intro x i hi k hk j hj h
  simp only [sampleHdep, Bool.and_eq_true, beq_iff_eq, bne_iff_ne] at h
  exact if_neg h

/-- the user's functions: Taylor coefficients and partial derivatives as defined -/
def sampleForward (_q p : Nat) (v _u : Nat → Int) (l : Nat) : Int :=
  if p = 0 then sample.val ((List.range 2).map v) l
  else tangent sample ((List.range 2).map fun j => v (j * 2)) (fun j => v (j * 2 + 1)) (l / 2)

def sampleReverse (p : Nat) (v _u w : Nat → Int) (l : Nat) : Int :=
  if p = 0 then partialT sample ((List.range 2).map v) w l
  else partialX sample ((List.range 2).map fun j => v (j * 2)) (fun j => v (j * 2 + 1)) (fun i => w (i * 2))
    (fun i => w (i * 2 + 1)) (l / 2)

theorem sample_userForward : UserForward sample sampleForward := by
  refine ⟨fun q v u i _ => rfl, fun v u i _ => ?_⟩
  simp only [sampleForward]
  rw [if_neg (by omega), show (i * 2 + 1) / 2 = i by omega]
  rfl

theorem sample_userReverse : UserReverse sample sampleReverse := by
  refine ⟨fun v u w j _ => rfl, fun v u w j _ => ?_⟩
  simp only [sampleReverse]
  rw [if_neg (by omega), show (j * 2) / 2 = j by omega]
  rfl

def sampleForJac (r : Nat → Bool) (i : Nat) : Bool := (List.range 2).any fun j => sampleDep i j && r j
def sampleRevJac (r : Nat → Bool) (j : Nat) : Bool := (List.range 2).any fun i => sampleDep i j && r i
def sampleRevHes (s r : Nat → Bool) (j : Nat) : Bool :=
  (List.range 2).any fun i => (List.range 2).any fun k => s i && r k && sampleHdep i k j

/-- the direction (t, 0) with variable `t` at (x0, 4), the hypotheses of `forward_one` hold -/
example (env : Nat → Int) (i : Nat) (hi : i < 2) :
    evalForward (userForward sampleForward) env
      (forward (fun q p v => sampleForward q p v fun _ => 0) sampleForJac (fun _ _ => true) 2 2 1 1 none
        fun l => if l = 0 then .var 0 else if l = 1 then .var 1 else if l = 2 then .par 4 else .par 0) (i * 2 + 1) =
    .ok (if i = 0 then 4 * env 1 else 0) := by
  have := forward_one (F := sample) (P := fun _ => True) (user_forward_one sample_userForward)
    (fun q p v => sampleForward q p v fun _ => 0) (fun v i hi => sample_userForward.2 v _ i hi) sample_jacIn
    (forJac := sampleForJac) (fun r i hi h j hj hd => by
      have := List.any_eq_false.1 h j (List.mem_range.2 hj)
      simpa [hd] using this) (fun _ _ => true)
    (fun l => if l = 0 then .var 0 else if l = 1 then .var 1 else if l = 2 then .par 4 else .par 0)
    (fun _ _ _ => trivial) env hi
  refine this.trans ?_
  have : i = 0 ∨ i = 1 := by omega
  rcases this with rfl | rfl <;> simp [tangent, sample, sumTo, Cg.ev]

/-- the hypotheses of `reverse_zero` hold -/
example (env : Nat → Int) (j : Nat) (hj : j < 2) :
    evalReverse (userReverse sampleReverse) env
      (reverse sampleReverse sampleRevJac sampleRevHes true 2 2 0 (fun l => .var l) (fun _ => .par 0)
        fun i => if i = 0 then .par 0 else .var 5) j =
    .ok (if j = 0 then 0 else 3 * env 5) := by
  have := reverse_zero (F := sample) (P := fun _ => True) (user_reverse_zero sample_userReverse) sampleReverse
    sample_userReverse.1 sample_jacIn (revJac := sampleRevJac) (fun r j hj h i hi hd => by
      have := List.any_eq_false.1 h i (List.mem_range.2 hi)
      simpa [hd] using this) sampleRevHes true (fun l => .var l) (fun _ => .par 0)
    (fun i => if i = 0 then .par 0 else .var 5) (fun _ _ _ => trivial) env hj
  refine this.trans ?_
  have : j = 0 ∨ j = 1 := by omega
  rcases this with rfl | rfl <;> simp [partialT, sample, sumTo, Cg.ev]

/-- the hypotheses of `reverse_one_partial` hold: direction (t, 0), weight `w` of the first result -/
example (env : Nat → Int) (j : Nat) (hj : j < 2) :
    evalReverse (userReverse sampleReverse) env
      (reverse sampleReverse sampleRevJac sampleRevHes true 2 2 1 (fun l => if l = 3 then .par 0 else .var l)
        (fun _ => .par 0) fun i => if i = 1 then .var 5 else .par 0) (j * 2) =
    .ok (if j = 0 then 0 else env 5 * env 1) := by
  have := reverse_one_partial (F := sample) (P := fun _ => True) (user_reverse_one_partial sample_userReverse) sampleReverse
    sample_userReverse.2 sample_hesIn sampleRevJac (revHes := sampleRevHes) (fun s r j hj h i hi k hk hs hr hd => by
      have := List.any_eq_false.1 h i (List.mem_range.2 hi)
      rw [Bool.not_eq_true] at this
      have := List.any_eq_false.1 this k (List.mem_range.2 hk)
      simp [hs, hr, hd] at this) true (fun l => if l = 3 then .par 0 else .var l) (fun _ => .par 0)
    (fun i => if i = 1 then .var 5 else .par 0)
    (fun i hi => by rw [if_neg (by omega)]; rfl) (fun _ _ _ => trivial) env hj
  refine this.trans ?_
  have : j = 0 ∨ j = 1 := by omega
  rcases this with rfl | rfl <;> simp [partialX, sample, sumTo, Cg.ev]

/-- the hypotheses of `forward_zero` hold -/
example (env : Nat → Int) : evalForward (userForward sampleForward) env
      (forward (fun q p v => sampleForward q p v fun _ => 0) sampleForJac (fun _ _ => true) 2 2 0 0 none
        fun l => .var l) 0 = .ok (env 0 * env 1) :=
  forward_zero (F := sample) (user_forward_zero sample_userForward) (fun q p v => sampleForward q p v fun _ => 0)
    (fun q v i hi => sample_userForward.1 q v _ i hi) sampleForJac (fun _ _ => true) 0 (fun l => .var l) env (i := 0) (by decide)

/-- the hypotheses on the patterns of compiled models hold -/
example : ForOneOk sample (fun j => ∃ i, (i, j) ∈ [(0, 0), (0, 1), (1, 1)])
      (modelForward (fun _ => []) (Verif.Deriv.firstFn false (Verif.Deriv.byKey true sample.jac)
        (Verif.Deriv.keyed true [(0, 0), (0, 1), (1, 1)]))
        (Verif.Deriv.groups (Verif.Deriv.keyed true [(0, 0), (0, 1), (1, 1)])) 2) :=
  model_forward_one (F := sample) _ false (by decide) (by decide) fun x i hi j hj h => sample_jacIn x i hi j hj (by
    have hi : i < 2 := hi
    have hj : j < 2 := hj
    have : (i = 0 ∨ i = 1) ∧ (j = 0 ∨ j = 1) := by omega
    rcases this with ⟨rfl | rfl, rfl | rfl⟩ <;> simp_all [sampleDep])

end Verif.Atomic
