import Verif.Atomic.Lemmas
/-
C50: the Taylor coefficients and partial derivatives recorded for a call of an atomic function have, when the generated
function runs, the values of those of the atomic function.

The called function is a parameter here; `ForZeroOk`, `ForOneOk`, `RevZeroOk` and `RevOneOk` say what is expected of it.
`Verif/Atomic/PropsRun.lean` shows them for atomic functions of the user and for compiled models.
-/
namespace Verif.Atomic
open Verif.Deriv (sumTo sumTo_congr sumTo_zero Err Mem load store storeList)

variable {R : Type} [CommRing R] [DecidableEq R]

/-! ### what is expected of the called function -/

/-- it stores the values of the function -/
def ForZeroOk (F : Fn R) (ext : ForExt R) : Prop :=
  ∀ x : List R, x.length = F.n → ∀ q, ∃ y, ext q 0 [.dense x] (List.replicate F.m (some 0)) = .ok y ∧
    ∀ i < F.m, y[i]? = some (some (F.val x i))

/-- it stores the product of the Jacobian and a sparse direction with indexes for which `P` holds -/
def ForOneOk (F : Fn R) (P : Nat → Prop) (ext : ForExt R) : Prop :=
  ∀ (x : List R) (idx : List Nat) (t : List R), x.length = F.n → idx.length = t.length → idx.Nodup →
    (∀ j ∈ idx, j < F.n ∧ P j) →
    ∃ y, ext 1 1 [.dense x, .sparse F.n idx t] (List.replicate F.m (some 0)) = .ok y ∧
      ∀ i < F.m, y[i]? = some (some (sumTo idx.length fun e => F.jac x i (idx.getD e 0) * t.getD e 0))

/-- it stores the product of sparse weights with the Jacobian -/
def RevZeroOk (F : Fn R) (P : Nat → Prop) (ext : RevExt R) : Prop :=
  ∀ (x : List R) (idx : List Nat) (w : List R), x.length = F.n → idx.length = w.length → idx.Nodup →
    (∀ i ∈ idx, i < F.m ∧ P i) →
    ∃ y, ext 0 [.dense x] (List.replicate F.n (some 0)) [.sparse F.m idx w] = .ok y ∧
      ∀ j < F.n, y[j]? = some (some (sumTo idx.length fun e => F.jac x (idx.getD e 0) j * w.getD e 0))

/-- it stores the product of a sparse direction with the weighted sum of the Hessians, given no weights of order zero -/
def RevOneOk (F : Fn R) (P : Nat → Prop) (ext : RevExt R) : Prop :=
  ∀ (x : List R) (idx : List Nat) (t w : List R), x.length = F.n → w.length = F.m → idx.length = t.length → idx.Nodup →
    (∀ j ∈ idx, j < F.n ∧ P j) →
    ∃ y, ext 1 [.dense x, .sparse F.n idx t] (List.replicate F.n (some 0)) [.sparse F.m [] [], .dense w] = .ok y ∧
      ∀ j < F.n, y[j]? = some (some (sumTo idx.length fun e =>
        (sumTo F.m fun i => F.hes x i (idx.getD e 0) j * w.getD i 0) * t.getD e 0))

/-! ### the flags -/

theorem vyFlags_one (forJac : (Nat → Bool) → Nat → Bool) {m : Nat} (tx : Nat → Cg R) {i : Nat} (hi : i < m) :
    (vyFlags forJac 1 m tx).getD (i * 2 + 1) false = forJac (fun j => !(tx (j * 2 + 1)).isZero) i := by
  rw [List.getD_eq_getElem?_getD, vyFlags, ((setEach_get (by omega) _ _ _ m).1 i hi rfl (by simp; omega))]
  rfl

theorem vxFlags_length (revJac : (Nat → Bool) → Nat → Bool) (revHes : (Nat → Bool) → (Nat → Bool) → Nat → Bool) (n p : Nat)
    (tx py : Nat → Cg R) : (vxFlags revJac revHes n p tx py).length = n * (p + 1) := by
  rw [vxFlags]
  split
  · rw [setEach_length, setEach_length, List.length_replicate]
  · rw [setEach_length, List.length_replicate]

theorem vxFlags_zero (revJac : (Nat → Bool) → Nat → Bool) (revHes : (Nat → Bool) → (Nat → Bool) → Nat → Bool) {n : Nat}
    (tx py : Nat → Cg R) {j : Nat} (hj : j < n) :
    (vxFlags revJac revHes n 0 tx py).getD j false = revJac (fun i => !(py i).isZero) j := by
  rw [List.getD_eq_getElem?_getD, vxFlags]
  rw [if_neg (by omega), ((setEach_get (by omega) _ _ _ n).1 j hj (by omega) (by simp; omega))]
  simp

theorem vxFlags_one (revJac : (Nat → Bool) → Nat → Bool) (revHes : (Nat → Bool) → (Nat → Bool) → Nat → Bool) {n : Nat}
    (tx py : Nat → Cg R) {j : Nat} (hj : j < n) :
    (vxFlags revJac revHes n 1 tx py).getD (j * 2) false =
      revHes (fun i => !(py (i * 2 + 1)).isZero) (fun k => !(tx (k * 2 + 1)).isZero) j := by
  rw [List.getD_eq_getElem?_getD, vxFlags]
  rw [if_pos (by omega), ((setEach_get (by omega) _ _ _ n).1 j hj (by omega) (by rw [setEach_length]; simp; omega))]
  rfl

theorem all_false {v : List Bool} (h : v.all (! ·) = true) (l : Nat) : v.getD l false = false := by
  rw [List.getD_eq_getElem?_getD]
  cases hv : v[l]? with
  | none => rfl
  | some b =>
    have := List.all_eq_true.1 h b (List.mem_of_getElem? hv)
    simpa using this

/-! ### forward mode -/

/-- C50. The values of an atomic function, recorded in a sweep over a function, are its values. -/
theorem forward_zero {F : Fn R} {ext : ForExt R} (hext : ForZeroOk F ext) (eval : Nat → Nat → (Nat → R) → Nat → R)
    (heval : ∀ q v, ∀ i < F.m, eval q 0 v i = F.val ((List.range F.n).map v) i) (forJac : (Nat → Bool) → Nat → Bool)
    (zeroDep : (Nat → Bool) → Nat → Bool) (q : Nat) (tx : Nat → Cg R) (env : Nat → R) {i : Nat} (hi : i < F.m) :
    evalForward ext env (forward eval forJac zeroDep F.n F.m q 0 none tx) i =
      .ok (F.val ((List.range F.n).map fun j => (tx j).ev env) i) := by
  unfold forward
  simp only [Nat.zero_add, Nat.mul_one]
  by_cases hp : isParameters tx F.n = true
  · rw [if_pos hp]
    show Except.ok _ = _
    rw [heval _ _ _ hi]
    congr 2
    apply List.map_congr_left
    intro j hj
    exact isParameters_ev hp env (List.mem_range.1 hj)
  · rw [if_neg hp, if_neg (by omega)]
    obtain ⟨y, hy, hval⟩ := hext ((List.range F.n).map fun j => (tx j).ev env) (by simp) q
    have hrun : runForward ext env ⟨q, 0, [makeArray tx F.n 0 0], [makeZeroArray F.m]⟩ = .ok [y] := by
      have e1 : (makeArray tx F.n 0 0).ev env = .dense ((List.range F.n).map fun j => (tx j).ev env) := by
        simp [makeArray, Arr.ev, Function.comp_def]
      have e2 : ((makeZeroArray (R := R) F.m).ev env).mem = List.replicate F.m (some 0) := by
        simp [makeZeroArray, Arr.ev, RArr.mem, Cg.ev]
      simp only [runForward, List.map_cons, List.map_nil, List.getElem?_cons_zero, e1, e2, hy, List.set_cons_zero]
    have : (List.map (fun k => if k = 0 then makeArray tx F.n 0 k else makeSparseArray tx F.n 0 k) (List.range 1)) =
        [makeArray tx F.n 0 0] := rfl
    rw [this, show List.map (fun _ => makeZeroArray F.m) (List.range 1) = [makeZeroArray (R := R) F.m] from rfl]
    simp only [evalForward, Option.map_none, if_true, Nat.mod_one, Nat.div_one, Elem.ev, hrun, List.getElem?_cons_zero, load,
      hval i hi]

/-- C50. The first order Taylor coefficients of an atomic function, recorded in a first order sweep (`q = 1`) over a
function, are the product of the Jacobian and the direction. `dep` is the pattern of the Jacobian. -/
theorem forward_one {F : Fn R} {P : Nat → Prop} {ext : ForExt R} (hext : ForOneOk F P ext)
    (eval : Nat → Nat → (Nat → R) → Nat → R)
    (heval : ∀ v, ∀ i < F.m, eval 1 1 v (i * 2 + 1) =
      tangent F ((List.range F.n).map fun j => v (j * 2)) (fun j => v (j * 2 + 1)) i)
    {dep : Nat → Nat → Prop} (hdep : JacIn F dep) {forJac : (Nat → Bool) → Nat → Bool}
    (hfor : ∀ r, ∀ i < F.m, forJac r i = false → ∀ j < F.n, dep i j → r j = false)
    (zeroDep : (Nat → Bool) → Nat → Bool) (tx : Nat → Cg R)
    (hP : ∀ j < F.n, (tx (j * 2 + 1)).isZero = false → P j) (env : Nat → R) {i : Nat} (hi : i < F.m) :
    evalForward ext env (forward eval forJac zeroDep F.n F.m 1 1 none tx) (i * 2 + 1) =
      .ok (tangent F ((List.range F.n).map fun j => (tx (j * 2)).ev env) (fun j => (tx (j * 2 + 1)).ev env) i) := by
  have hflag := vyFlags_one forJac tx hi
  have hzero : forJac (fun j => !(tx (j * 2 + 1)).isZero) i = false →
      tangent F ((List.range F.n).map fun j => (tx (j * 2)).ev env) (fun j => (tx (j * 2 + 1)).ev env) i = 0 := by
    intro h
    apply sumTo_zero
    intro j hj
    by_cases hd : dep i j
    · have := hfor _ i hi h j hj hd
      simp only
      rw [isZero_ev (by simpa using this) env, mul_zero]
    · rw [hdep _ i hi j hj hd, zero_mul]
  unfold forward
  simp only [Nat.reduceAdd, Nat.one_ne_zero, if_false]
  by_cases hp : isParameters tx (F.n * 2) = true
  · rw [if_pos hp]
    show Except.ok _ = _
    rw [heval _ _ hi]
    congr 1
    have e1 : (List.map (fun j => getValue (tx (j * 2))) (List.range F.n)) =
        List.map (fun j => (tx (j * 2)).ev env) (List.range F.n) := List.map_congr_left fun j hj =>
      isParameters_ev hp env (by have := List.mem_range.1 hj; omega)
    rw [e1]
    apply sumTo_congr
    intro j hj
    simp only
    rw [isParameters_ev hp env (by omega)]
  · rw [if_neg hp]
    by_cases ha : ((List.range (F.m * 2)).all fun pos => !(vyFlags forJac 1 F.m tx).getD pos false) = true
    · rw [if_pos ⟨trivial, ha⟩]
      have := List.all_eq_true.1 ha (i * 2 + 1) (List.mem_range.2 (by omega))
      rw [hflag] at this
      show Except.ok 0 = _
      rw [hzero (by simpa using this)]
    · rw [if_neg (fun h => ha h.2)]
      cases hf : forJac (fun j => !(tx (j * 2 + 1)).isZero) i with
      | false =>
        simp only [evalForward, hflag, hf, Bool.false_eq_true, if_false, Elem.ev]
        rw [hzero hf]
      | true =>
        obtain ⟨y, hy, hval⟩ := hext ((List.range F.n).map fun j => (tx (j * 2)).ev env)
          ((List.range F.n).filter fun j => !(tx (j * 2 + 1)).isZero)
          (((List.range F.n).filter fun j => !(tx (j * 2 + 1)).isZero).map fun j => (tx (j * 2 + 1)).ev env)
          (by simp) (by simp) (List.nodup_range.filter _) (fun j hj => by
            have := List.mem_filter.1 hj
            have hj := List.mem_range.1 this.1
            exact ⟨hj, hP j hj (by simpa using this.2)⟩)
        have hrun : runForward ext env ⟨1, 1, [makeArray tx F.n 1 0, makeSparseArray tx F.n 1 1],
            [makeZeroArray F.m, makeZeroArray F.m]⟩ = .ok [List.replicate F.m (some 0), y] := by
          have e1 : (makeArray tx F.n 1 0).ev env = .dense ((List.range F.n).map fun j => (tx (j * 2)).ev env) := by
            simp [makeArray, Arr.ev, Function.comp_def]
          have e2 : ((makeZeroArray (R := R) F.m).ev env).mem = List.replicate F.m (some 0) := by
            simp [makeZeroArray, Arr.ev, RArr.mem, Cg.ev]
          have e3 : (makeSparseArray tx F.n 1 1).ev env = .sparse F.n
              ((List.range F.n).filter fun j => !(tx (j * 2 + 1)).isZero)
              (((List.range F.n).filter fun j => !(tx (j * 2 + 1)).isZero).map fun j => (tx (j * 2 + 1)).ev env) := by
            simp [makeSparseArray, Arr.ev, Function.comp_def]
          simp only [runForward, List.map_cons, List.map_nil, List.getElem?_cons_succ, List.getElem?_cons_zero, e1, e2, e3,
            hy, List.set_cons_succ, List.set_cons_zero]
        have h1 : (List.map (fun k => if k = 0 then makeArray tx F.n 1 k else makeSparseArray tx F.n 1 k) (List.range 2)) =
            [makeArray tx F.n 1 0, makeSparseArray tx F.n 1 1] := rfl
        rw [h1, show List.map (fun _ => makeZeroArray F.m) (List.range 2) =
          [makeZeroArray (R := R) F.m, makeZeroArray F.m] from rfl]
        have hm : (i * 2 + 1) % 2 = 1 := by omega
        have hd : (i * 2 + 1) / 2 = i := by omega
        simp only [evalForward, hflag, hf, if_true, hm, hd, Elem.ev, hrun, List.getElem?_cons_succ,
          List.getElem?_cons_zero, load, hval i hi]
        rw [sparse_sum (fun j => !(tx (j * 2 + 1)).isZero) (fun j => (tx (j * 2 + 1)).ev env)
          (fun j => F.jac ((List.range F.n).map fun j => (tx (j * 2)).ev env) i j)
          (fun j _ h => isZero_ev (by simpa using h) env)]
        rfl

/-! ### reverse mode -/

/-- C50. The partial derivatives recorded in a first order reverse sweep are the product of the weights with the
Jacobian. -/
theorem reverse_zero {F : Fn R} {P : Nat → Prop} {ext : RevExt R} (hext : RevZeroOk F P ext)
    (eval : Nat → (Nat → R) → (Nat → R) → (Nat → R) → Nat → R)
    (heval : ∀ v u w, ∀ j < F.n, eval 0 v u w j = partialT F ((List.range F.n).map v) w j)
    {dep : Nat → Nat → Prop} (hdep : JacIn F dep) {revJac : (Nat → Bool) → Nat → Bool}
    (hrev : ∀ r, ∀ j < F.n, revJac r j = false → ∀ i < F.m, dep i j → r i = false)
    (revHes : (Nat → Bool) → (Nat → Bool) → Nat → Bool) (standAlone : Bool) (tx ty py : Nat → Cg R)
    (hP : ∀ i < F.m, (py i).isZero = false → P i) (env : Nat → R) {j : Nat} (hj : j < F.n) :
    evalReverse ext env (reverse eval revJac revHes standAlone F.n F.m 0 tx ty py) j =
      .ok (partialT F ((List.range F.n).map fun k => (tx k).ev env) (fun i => (py i).ev env) j) := by
  have hflag := vxFlags_zero revJac revHes tx py hj
  have hzero : revJac (fun i => !(py i).isZero) j = false →
      partialT F ((List.range F.n).map fun k => (tx k).ev env) (fun i => (py i).ev env) j = 0 := by
    intro h
    apply sumTo_zero
    intro i hi
    by_cases hd : dep i j
    · have := hrev _ j hj h i hi hd
      simp only
      rw [isZero_ev (by simpa using this) env, mul_zero]
    · rw [hdep _ i hi j hj hd, zero_mul]
  unfold reverse
  simp only [Nat.zero_add, Nat.mul_one]
  by_cases hp : (isParameters tx F.n && isParameters ty F.m && isParameters py F.m) = true
  · rw [if_pos hp]
    simp only [Bool.and_eq_true] at hp
    show Except.ok _ = _
    rw [heval _ _ _ _ hj]
    congr 1
    have e1 : (List.map (fun k => getValue (tx k)) (List.range F.n)) =
        List.map (fun k => (tx k).ev env) (List.range F.n) := List.map_congr_left fun k hk =>
      isParameters_ev hp.1.1 env (List.mem_range.1 hk)
    rw [e1]
    apply sumTo_congr
    intro i hi
    simp only
    rw [isParameters_ev hp.2 env hi]
  · rw [if_neg hp]
    by_cases ha : (vxFlags revJac revHes F.n 0 tx py).all (! ·) = true
    · rw [if_pos ha]
      have := all_false ha j
      rw [hflag] at this
      show Except.ok 0 = _
      rw [hzero this]
    · rw [if_neg ha]
      cases hf : revJac (fun i => !(py i).isZero) j with
      | false =>
        simp only [evalReverse, hflag, hf, Bool.false_eq_true, if_false, Elem.ev]
        rw [hzero hf]
      | true =>
        obtain ⟨y, hy, hval⟩ := hext ((List.range F.n).map fun k => (tx k).ev env)
          ((List.range F.m).filter fun i => !(py i).isZero)
          (((List.range F.m).filter fun i => !(py i).isZero).map fun i => (py i).ev env)
          (by simp) (by simp) (List.nodup_range.filter _) (fun i hi => by
            have := List.mem_filter.1 hi
            have hi := List.mem_range.1 this.1
            exact ⟨hi, hP i hi (by simpa using this.2)⟩)
        have hrun : ∀ a, runReverse ext env ⟨0, [makeArray tx F.n 0 0], a, [makeZeroArray F.n],
            [makeSparseArray py F.m 0 0]⟩ = .ok [y] := by
          intro a
          have e1 : (makeArray tx F.n 0 0).ev env = .dense ((List.range F.n).map fun k => (tx k).ev env) := by
            simp [makeArray, Arr.ev, Function.comp_def]
          have e2 : ((makeZeroArray (R := R) F.n).ev env).mem = List.replicate F.n (some 0) := by
            simp [makeZeroArray, Arr.ev, RArr.mem, Cg.ev]
          have e3 : (makeSparseArray py F.m 0 0).ev env = .sparse F.m ((List.range F.m).filter fun i => !(py i).isZero)
              (((List.range F.m).filter fun i => !(py i).isZero).map fun i => (py i).ev env) := by
            simp [makeSparseArray, Arr.ev, Function.comp_def]
          simp only [runReverse, List.map_cons, List.map_nil, List.getElem?_cons_zero, e1, e2, e3, hy, List.set_cons_zero]
        rw [show (List.map (fun k => if k = 0 then makeArray tx F.n 0 k else makeSparseArray tx F.n 0 k) (List.range 1)) =
            [makeArray tx F.n 0 0] from rfl,
          show (List.map (fun k => if k = 0 then makeZeroArray F.n else makeEmptySparseArray F.n) (List.range 1)) =
            [makeZeroArray (R := R) F.n] from rfl,
          show (List.map (fun k => if k = 0 then makeSparseArray py F.m 0 k else makeArray py F.m 0 k) (List.range 1)) =
            [makeSparseArray py F.m 0 0] from rfl]
        simp only [evalReverse, hflag, hf, if_true, Nat.mod_one, Nat.div_one, Elem.ev, hrun, List.getElem?_cons_zero, load,
          hval j hj]
        rw [sparse_sum (fun i => !(py i).isZero) (fun i => (py i).ev env)
          (fun i => F.jac ((List.range F.n).map fun k => (tx k).ev env) i j)
          (fun i _ h => isZero_ev (by simpa using h) env)]
        rfl

/-- C50. The partial derivatives with respect to the arguments recorded in a second order reverse sweep, if the weights
of order zero are parameters with value zero. Missing: other weights of order zero, and the partial derivatives with
respect to the direction; both are false, see `reverse_one_direction_counterexample` and
`reverse_one_weights_counterexample`. -/
theorem reverse_one_partial {F : Fn R} {P : Nat → Prop} {ext : RevExt R} (hext : RevOneOk F P ext)
    (eval : Nat → (Nat → R) → (Nat → R) → (Nat → R) → Nat → R)
    (heval : ∀ v u w, ∀ j < F.n, eval 1 v u w (j * 2) = partialX F ((List.range F.n).map fun k => v (k * 2))
      (fun k => v (k * 2 + 1)) (fun i => w (i * 2)) (fun i => w (i * 2 + 1)) j)
    {hdep : Nat → Nat → Nat → Prop} (hhdep : HesIn F hdep) (revJac : (Nat → Bool) → Nat → Bool)
    {revHes : (Nat → Bool) → (Nat → Bool) → Nat → Bool}
    (hrev : ∀ s r, ∀ j < F.n, revHes s r j = false → ∀ i < F.m, ∀ k < F.n, s i = true → r k = true → ¬ hdep i k j)
    (standAlone : Bool) (tx ty py : Nat → Cg R) (hpy : ∀ i < F.m, (py (i * 2)).isZero = true)
    (hP : ∀ k < F.n, (tx (k * 2 + 1)).isZero = false → P k) (env : Nat → R) {j : Nat} (hj : j < F.n) :
    evalReverse ext env (reverse eval revJac revHes standAlone F.n F.m 1 tx ty py) (j * 2) =
      .ok (partialX F ((List.range F.n).map fun k => (tx (k * 2)).ev env) (fun k => (tx (k * 2 + 1)).ev env)
        (fun i => (py (i * 2)).ev env) (fun i => (py (i * 2 + 1)).ev env) j) := by
  have hflag := vxFlags_one revJac revHes tx py hj
  have hfirst : (sumTo F.m fun i => F.jac ((List.range F.n).map fun k => (tx (k * 2)).ev env) i j * (py (i * 2)).ev env) = 0 :=
    sumTo_zero fun i hi => by rw [isZero_ev (hpy i hi) env, mul_zero]
  have hzero : revHes (fun i => !(py (i * 2 + 1)).isZero) (fun k => !(tx (k * 2 + 1)).isZero) j = false →
      partialX F ((List.range F.n).map fun k => (tx (k * 2)).ev env) (fun k => (tx (k * 2 + 1)).ev env)
        (fun i => (py (i * 2)).ev env) (fun i => (py (i * 2 + 1)).ev env) j = 0 := by
    intro h
    rw [partialX, hfirst, zero_add]
    apply sumTo_zero
    intro k hk
    cases ht : (tx (k * 2 + 1)).isZero with
    | true => rw [isZero_ev ht env, mul_zero]
    | false =>
      rw [sumTo_zero, zero_mul]
      intro i hi
      cases hw : (py (i * 2 + 1)).isZero with
      | true => rw [isZero_ev hw env, mul_zero]
      | false => rw [hhdep _ i hi k hk j hj (hrev _ _ j hj h i hi k hk (by simp [hw]) (by simp [ht])), zero_mul]
  unfold reverse
  simp only [Nat.reduceAdd]
  by_cases hp : (isParameters tx (F.n * 2) && isParameters ty (F.m * 2) && isParameters py (F.m * 2)) = true
  · rw [if_pos hp]
    simp only [Bool.and_eq_true] at hp
    show Except.ok _ = _
    rw [heval _ _ _ _ hj]
    congr 1
    have e1 : (List.map (fun k => getValue (tx (k * 2))) (List.range F.n)) =
        List.map (fun k => (tx (k * 2)).ev env) (List.range F.n) := List.map_congr_left fun k hk =>
      isParameters_ev hp.1.1 env (by have := List.mem_range.1 hk; omega)
    rw [e1, partialX, partialX]
    congr 1
    · apply sumTo_congr
      intro i hi
      rw [isParameters_ev hp.2 env (by omega)]
    · apply sumTo_congr
      intro k hk
      rw [isParameters_ev hp.1.1 env (by omega)]
      congr 1
      apply sumTo_congr
      intro i hi
      rw [isParameters_ev hp.2 env (by omega)]
  · rw [if_neg hp]
    by_cases ha : (vxFlags revJac revHes F.n 1 tx py).all (! ·) = true
    · rw [if_pos ha]
      have := all_false ha (j * 2)
      rw [hflag] at this
      show Except.ok 0 = _
      rw [hzero this]
    · rw [if_neg ha]
      cases hf : revHes (fun i => !(py (i * 2 + 1)).isZero) (fun k => !(tx (k * 2 + 1)).isZero) j with
      | false =>
        simp only [evalReverse, hflag, hf, Bool.false_eq_true, if_false, Elem.ev]
        rw [hzero hf]
      | true =>
        obtain ⟨y, hy, hval⟩ := hext ((List.range F.n).map fun k => (tx (k * 2)).ev env)
          ((List.range F.n).filter fun k => !(tx (k * 2 + 1)).isZero)
          (((List.range F.n).filter fun k => !(tx (k * 2 + 1)).isZero).map fun k => (tx (k * 2 + 1)).ev env)
          ((List.range F.m).map fun i => (py (i * 2 + 1)).ev env)
          (by simp) (by simp) (by simp) (List.nodup_range.filter _) (fun k hk => by
            have := List.mem_filter.1 hk
            have hk := List.mem_range.1 this.1
            exact ⟨hk, hP k hk (by simpa using this.2)⟩)
        have hrun : ∀ a, runReverse ext env ⟨1, [makeArray tx F.n 1 0, makeSparseArray tx F.n 1 1], a,
            [makeZeroArray F.n, makeEmptySparseArray F.n], [makeSparseArray py F.m 1 0, makeArray py F.m 1 1]⟩ =
            .ok [y, []] := by
          intro a
          have e1 : (makeArray tx F.n 1 0).ev env = .dense ((List.range F.n).map fun k => (tx (k * 2)).ev env) := by
            simp [makeArray, Arr.ev, Function.comp_def]
          have e2 : ((makeZeroArray (R := R) F.n).ev env).mem = List.replicate F.n (some 0) := by
            simp [makeZeroArray, Arr.ev, RArr.mem, Cg.ev]
          have e3 : (makeSparseArray tx F.n 1 1).ev env = .sparse F.n
              ((List.range F.n).filter fun k => !(tx (k * 2 + 1)).isZero)
              (((List.range F.n).filter fun k => !(tx (k * 2 + 1)).isZero).map fun k => (tx (k * 2 + 1)).ev env) := by
            simp [makeSparseArray, Arr.ev, Function.comp_def]
          have e4 : (makeSparseArray py F.m 1 0).ev env = .sparse F.m [] [] := by
            have : ((List.range F.m).filter fun i => !(py (i * (1 + 1) + 0)).isZero) = [] := by
              rw [List.filter_eq_nil_iff]
              intro i hi
              have := hpy i (List.mem_range.1 hi)
              simp [this]
            rw [makeSparseArray, this]; rfl
          have e5 : (makeArray py F.m 1 1).ev env = .dense ((List.range F.m).map fun i => (py (i * 2 + 1)).ev env) := by
            simp [makeArray, Arr.ev, Function.comp_def]
          have e6 : ((makeEmptySparseArray (R := R) F.n).ev env).mem = [] := rfl
          simp only [runReverse, List.map_cons, List.map_nil, List.getElem?_cons_zero, e1, e2, e3, e4, e5, e6, hy,
            List.set_cons_zero]
        rw [show (List.map (fun k => if k = 0 then makeArray tx F.n 1 k else makeSparseArray tx F.n 1 k) (List.range 2)) =
            [makeArray tx F.n 1 0, makeSparseArray tx F.n 1 1] from rfl,
          show (List.map (fun k => if k = 0 then makeZeroArray F.n else makeEmptySparseArray F.n) (List.range 2)) =
            [makeZeroArray (R := R) F.n, makeEmptySparseArray F.n] from rfl,
          show (List.map (fun k => if k = 0 then makeSparseArray py F.m 1 k else makeArray py F.m 1 k) (List.range 2)) =
            [makeSparseArray py F.m 1 0, makeArray py F.m 1 1] from rfl]
        have hm : (j * 2) % 2 = 0 := by omega
        have hd : (j * 2) / 2 = j := by omega
        simp only [evalReverse, hflag, hf, if_true, hm, hd, Elem.ev, hrun, List.getElem?_cons_zero, load, hval j hj]
        rw [sparse_sum (fun k => !(tx (k * 2 + 1)).isZero) (fun k => (tx (k * 2 + 1)).ev env)
          (fun k => sumTo F.m fun i => F.hes ((List.range F.n).map fun k => (tx (k * 2)).ev env) i k j *
            ((List.range F.m).map fun i => (py (i * 2 + 1)).ev env).getD i 0)
          (fun k _ h => isZero_ev (by simpa using h) env), partialX, hfirst, zero_add]
        congr 1
        apply sumTo_congr
        intro k hk
        congr 1
        apply sumTo_congr
        intro i hi
        rw [List.getD_eq_getElem?_getD, List.getElem?_map, List.getElem?_range hi]
        rfl

end Verif.Atomic
