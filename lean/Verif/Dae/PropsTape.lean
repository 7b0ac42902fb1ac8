import Verif.Dae.LemmasTape3
import Verif.Dae.PropsRemove
import Mathlib.Analysis.Calculus.IteratedDeriv.Defs
import Mathlib.Analysis.SpecialFunctions.Trigonometric.Deriv
/-
Property theorems C78: the equations of a reduced system are the given ones and their derivatives with respect to time.
-/
namespace Verif.Dae.Tape
open Verif.Dae.Remove

variable {U : Type} {F : Fns U} {info : List VarInfo} {m : Nat} {inc : Nat → Nat → Bool} {vs : List VarOut} {es : List EqOut}
  {dep0 : List (Ex U)}

/-- C78: for right information a new tape is made without undefined behaviour if there is a new equation. It has the variables of the
information, the given equations are unchanged, and wherever the variables follow their derivatives, every new equation is the
derivative of the equation it says it is the derivative of. -/
theorem new_equations_right_partial (h : Right info m inc vs es) (hT : OneTime info) (hG : Given info m inc dep0) :
    (es.length = m ∧ newTape F.d info vs es dep0 = .ok none) ∨
    (m < es.length ∧ ∃ out, newTape F.d info vs es dep0 = .ok (some (vs.length, out)) ∧ out.length = es.length ∧
      (∀ f ∈ out, f.Plain ∧ ∀ j ∈ f.occ, j < vs.length) ∧ (∀ i < m, out[i]? = dep0[i]?) ∧
      ∀ X t, Follows info vs X t → (∀ f ∈ dep0, Defined F (X t) f) →
        ∀ (k q : Nat) e f f', es[k]? = some e → e.anti = some q → out[q]? = some f → out[k]? = some f' →
          HasDerivAt (fun s => eval F (X s) f) (eval F (X t) f') t ∧ Defined F (X t) f') := by
  rcases newTape_ok h F.d hG with r | ⟨hm, out, r1, r2, r3, r4⟩
  · exact .inl r
  · refine .inr ⟨hm, out, r1, r2, r3, fun i hi => ?_, fun X t hX hD k q e f f' hk hq hf hf' => ?_⟩
    · have hi' : i < dep0.length := hG.len ▸ hi
      rw [List.getElem?_eq_getElem hi']
      exact r4 i 0 i _ (.zero (List.getElem?_eq_getElem hi'))
    · have hE : Eqs dep0.length es := hG.len ▸ eqs_of h
      obtain ⟨i, n, g, hv⟩ := hE.val (d := F.d) (vs := vs) (T := timePos info vs) q (r2 ▸ (List.getElem?_eq_some_iff.mp hf).1)
      have h1 := r4 _ _ _ _ hv
      rw [hf] at h1
      cases h1
      have h2 := r4 _ _ _ _ (.succ hv hk hq)
      rw [hf'] at h2
      cases h2
      exact dt_right (val_occ h hG hv).1 (val_defined h hT hG hX hD hv) (known h hT hG hv hk hq hX)

/-- C78: along a trajectory, the equation which is the `n`-th derivative of a given equation has the value of its `n`-th derivative -/
theorem new_equations_iterated_partial (h : Right info m inc vs es) (hT : OneTime info) (hG : Given info m inc dep0)
    {N : Nat} {out : List (Ex U)} (ho : newTape F.d info vs es dep0 = .ok (some (N, out))) {X : ℝ → Nat → ℝ}
    (hX : ∀ t, Follows info vs X t) (hD : ∀ t, ∀ f ∈ dep0, Defined F (X t) f) {n i k : Nat} (hk : EqDer es n i k) (hi : i < m) :
    ∃ f f', dep0[i]? = some f ∧ out[k]? = some f' ∧ iteratedDeriv n (fun s => eval F (X s) f) = fun s => eval F (X s) f' := by
  rcases new_equations_right_partial (F := F) h hT hG with ⟨_, r⟩ | ⟨_, out', r1, r2, _, r4, r5⟩
  · rw [r] at ho; cases ho
  · rw [r1] at ho
    cases ho
    have hi' : i < dep0.length := hG.len ▸ hi
    induction hk with
    | zero _ =>
      refine ⟨_, _, List.getElem?_eq_getElem hi', ?_, iteratedDeriv_zero⟩
      rw [r4 _ hi, List.getElem?_eq_getElem hi']
    | @succ n i q k e h1 h2 h3 ih =>
      obtain ⟨f, g, hf, hg, e1⟩ := ih hi hi'
      have hk : k < out.length := r2 ▸ (List.getElem?_eq_some_iff.mp h2).1
      refine ⟨f, _, hf, List.getElem?_eq_getElem hk, ?_⟩
      rw [iteratedDeriv_succ, e1]
      funext t
      exact (r5 X t (hX t) (hD t) k q e g _ h2 h3 hg (List.getElem?_eq_getElem hk)).1.deriv

/-- C78: the solutions of the given system are those of the reduced one -/
theorem solutions_same_partial (h : Right info m inc vs es) (hT : OneTime info) (hG : Given info m inc dep0)
    {N : Nat} {out : List (Ex U)} (ho : newTape F.d info vs es dep0 = .ok (some (N, out))) {X : ℝ → Nat → ℝ}
    (hX : ∀ t, Follows info vs X t) (hD : ∀ t, ∀ f ∈ dep0, Defined F (X t) f) :
    (∀ t, ∀ f ∈ dep0, eval F (X t) f = 0) ↔ ∀ t, ∀ f ∈ out, eval F (X t) f = 0 := by
  rcases new_equations_right_partial (F := F) h hT hG with ⟨_, r⟩ | ⟨_, out', r1, r2, _, r4, r5⟩
  · rw [r] at ho; cases ho
  rw [r1] at ho
  cases ho
  constructor
  · intro h0
    have key : ∀ (k : Nat) (f : Ex U), out[k]? = some f → ∀ t, eval F (X t) f = 0 := by
      intro k
      induction k using Nat.strong_induction_on with
      | _ k ih =>
        intro f hf t
        by_cases hk : k < m
        · rw [r4 k hk] at hf
          exact h0 t f (List.mem_of_getElem? hf)
        · have hk' : k < es.length := r2 ▸ (List.getElem?_eq_some_iff.mp hf).1
          obtain ⟨_, q, hq, ha⟩ := h.eqs.2.2.1 k _ (List.getElem?_eq_getElem hk') (by omega)
          have hq' : q < out.length := by omega
          have h1 := (r5 X t (hX t) (hD t) k q _ _ f (List.getElem?_eq_getElem hk') ha (List.getElem?_eq_getElem hq') hf).1
          have h2 : (fun s => eval F (X s) out[q]) = fun _ => 0 := funext fun s => ih q hq _ (List.getElem?_eq_getElem hq') s
          rw [h2] at h1
          exact h1.unique (hasDerivAt_const t 0)
    intro t f hf
    obtain ⟨k, hk⟩ := List.mem_iff_getElem?.mp hf
    exact key k f hk t
  · intro h0 t f hf
    obtain ⟨i, hi⟩ := List.mem_iff_getElem?.mp hf
    have : i < m := hG.len ▸ (List.getElem?_eq_some_iff.mp hi).1
    rw [← r4 i this] at hi
    exact h0 t f (List.mem_of_getElem? hi)

/-- C78: the whole method of Soares and Secchi with the new tape (C77) -/
theorem reduced_system_right_partial {g : BG} (hc : construct info m inc = .ok g) (h1 : OneDerivative info) (hk : ConstantsPlain info)
    (hg : Occurs info m inc) (hT : OneTime info) (hG : Given info m inc dep0) {order order' : List Nat → List Nat}
    (ho : ∀ l, (order l).Perm l) (ho' : ∀ l, (order' l).Perm l) {fuel : Nat} (hf : info.length + 2 ≤ fuel)
    {vs : List VarOut} {es : List EqOut} (hr : reduceIndex order order' fuel info m inc = .ok (some (vs, es))) :
    (es.length = m ∧ newTape F.d info vs es dep0 = .ok none) ∨ ∃ out, newTape F.d info vs es dep0 = .ok (some (vs.length, out)) ∧
      ∀ X, (∀ t, Follows info vs X t) → (∀ t, ∀ f ∈ dep0, Defined F (X t) f) → ∀ n i k, EqDer es n i k → i < m →
        ∃ f f', dep0[i]? = some f ∧ out[k]? = some f' ∧ iteratedDeriv n (fun s => eval F (X s) f) = fun s => eval F (X s) f' := by
  rcases reduceIndex_right_partial hc h1 hk hg ho ho' hf with e | e | ⟨vs', es', e, hR⟩
  · rw [e] at hr; cases hr
  · rw [e] at hr; cases hr
  · rw [e] at hr
    cases hr
    rcases new_equations_right_partial (F := F) hR hT hG with r | ⟨_, out, r, _⟩
    · exact .inl r
    · exact .inr ⟨out, r, fun X hX hD n i k hk hi => new_equations_iterated_partial hR hT hG r hX hD hk hi⟩

/-- the calls of `time_var` satisfy `p` -/
def Calls (p : Nat → Nat → Nat → Prop) : Ex U → Prop
  | .add a b => Calls p a ∧ Calls p b
  | .mul a b => Calls p a ∧ Calls p b
  | .un _ a => Calls p a
  | .tv x dx t => p x dx t
  | _ => True

/-- C78: `forwardTimeDiff`, which is not called, computes the same values as `reverseTimeDiff` where the time is not a variable with
a derivative, and violates an assertion only there. -/
theorem forward_same_as_reverse {T : Nat} {e : Ex U} (h : Calls (fun x _ t => t = T → x ≠ T) e) :
    ∃ g, for1 F.d T e = some g ∧ ∀ X, eval F X g = eval F X (rev F.d T (.const 1) e) := by
  have key : ∀ {e : Ex U}, Calls (fun x _ t => t = T → x ≠ T) e → ∃ g, for1 F.d T e = some g ∧
      ∀ X p, eval F X (rev F.d T p e) = eval F X p * eval F X g := by
    have hw : ∀ (e : Ex U) X, eval F X (fwd e) = eval F X e := by
      intro e X
      induction e with
      | const c => rfl
      | var k => rfl
      | add a b iha ihb => simp only [fwd, eval, iha, ihb]
      | mul a b iha ihb => simp only [fwd, eval, iha, ihb]
      | un u a ih => simp only [fwd, eval, ih]
      | tv x dx t => rfl
    intro e
    induction e with
    | const c => exact fun _ => ⟨_, rfl, fun X p => by simp [rev, eval]⟩
    | var k => exact fun _ => ⟨_, rfl, fun X p => by unfold rev; split <;> simp [eval]⟩
    | add a b iha ihb =>
      rintro ⟨h1, h2⟩
      obtain ⟨ga, ea, va⟩ := iha h1
      obtain ⟨gb, eb, vb⟩ := ihb h2
      refine ⟨.add ga gb, by simp [for1, ea, eb], fun X p => ?_⟩
      simp only [rev, eval, va, vb]
      ring
    | mul a b iha ihb =>
      rintro ⟨h1, h2⟩
      obtain ⟨ga, ea, va⟩ := iha h1
      obtain ⟨gb, eb, vb⟩ := ihb h2
      refine ⟨_, by simp [for1, ea, eb]; rfl, fun X p => ?_⟩
      simp only [rev, eval, va, vb, hw]
      ring
    | un u a ih =>
      intro h1
      obtain ⟨ga, ea, va⟩ := ih h1
      refine ⟨_, by simp [for1, ea]; rfl, fun X p => ?_⟩
      simp only [rev, eval, va, hw]
      ring
    | tv x dx t =>
      intro h1
      by_cases ht : t = T
      · have hx : x ≠ T := h1 ht
        refine ⟨.mul (.const 1) (.var dx), by simp [for1, timeDiffForward, ht, hx], fun X p => ?_⟩
        by_cases hd : dx = T <;> simp [rev, timeDiffReverse, ht, hx, hd, eval]
      · refine ⟨.const (if x = T then 1 else 0), by simp [for1, timeDiffForward, ht], fun X p => ?_⟩
        by_cases hx : x = T <;> by_cases hd : dx = T <;> simp [rev, timeDiffReverse, ht, hx, hd, eval]
  obtain ⟨g, h1, h2⟩ := key h
  exact ⟨g, h1, fun X => by rw [h2]; simp [eval]⟩

/-- C78: the assertion of `time_diff_forward` is violated exactly where the time is also the variable of a call. -/
theorem forward_asserts (d : U → U) (T : Nat) (e : Ex U) :
    for1 d T e = none ↔ ¬ Calls (fun x _ t => t = T → x ≠ T) e := by
  induction e with
  | const c => simp [for1, Calls]
  | var k => simp [for1, Calls]
  | add a b iha ihb =>
    cases ha : for1 d T a <;> cases hb : for1 d T b <;> simp_all [for1, Calls]
  | mul a b iha ihb =>
    cases ha : for1 d T a <;> cases hb : for1 d T b <;> simp_all [for1, Calls]
  | un u a ih => cases ha : for1 d T a <;> simp_all [for1, Calls]
  | tv x dx t => by_cases ht : t = T <;> by_cases hx : x = T <;> simp [for1, timeDiffForward, Calls, ht, hx]

/-- the time as the variable of a call -/
example (d : Fin 4 → Fin 4) : for1 d 1 (.mul (.var 0) (.tv 1 2 1)) = none :=
  (forward_asserts d 1 _).2 (by simp [Calls])

/-- another variable -/
example (d : Fin 4 → Fin 4) : for1 d 1 (.mul (.var 0) (.tv 0 2 1)) ≠ none :=
  fun h => (forward_asserts d 1 _).1 h (by simp [Calls])

/-- sin, cos, -sin, -cos -/
noncomputable def trig : Fns (Fin 4) where
  f u := match u with
    | 0 => Real.sin
    | 1 => Real.cos
    | 2 => fun x => -Real.sin x
    | 3 => fun x => -Real.cos x
  d u := u + 1
  dom _ _ := True
  deriv u x _ := by
    match u with
    | 0 => exact Real.hasDerivAt_sin x
    | 1 => exact Real.hasDerivAt_cos x
    | 2 => exact (Real.hasDerivAt_sin x).neg
    | 3 => 
      have := (Real.hasDerivAt_cos x).neg
      rw [neg_neg] at this
      exact this
  next _ _ _ := trivial

/-- variables x, y, x', t; equations x - sin t = 0, y - x' t = 0 -/
def sineVars : List VarInfo := [{ anti := none }, { anti := none }, { anti := some 0 }, { anti := none, timeDep := false, integrated := true }]
def sineRows : List (List Nat) := [[0, 3], [1, 2, 3]]
def sine : List (Ex (Fin 4)) :=
  [.add (.var 0) (.mul (.const (-1)) (.un 0 (.var 3))), .add (.var 1) (.mul (.const (-1)) (.mul (.var 2) (.var 3)))]

theorem sine_given : Given sineVars 2 (rows sineRows) sine where
  len := rfl
  plain := by simp [sine, Ex.Plain]
  occ := by
    intro i f hf t ht
    match i with
    | 0 => cases hf; revert t; decide
    | 1 => cases hf; revert t; decide
    | i + 2 => cases hf

theorem sine_one : OneTime sineVars where
  one j k x y hx hy h1 h2 := by
    match j, k with
    | 0, _ => cases hx; cases h1
    | 1, _ => cases hx; cases h1
    | 2, _ => cases hx; cases h1
    | j + 4, _ => cases hx
    | 3, 0 => cases hy; cases h2
    | 3, 1 => cases hy; cases h2
    | 3, 2 => cases hy; cases h2
    | 3, 3 => rfl
    | 3, k + 4 => cases hy
  plain := by decide

/-- the information about the reduced system -/
def sineVarsOut : List VarOut := [⟨0, none, some 2, true, false, some 0, 0, none⟩, ⟨1, none, none, true, false, some 1, 0, none⟩,
  ⟨2, some 0, none, true, false, some 2, 1, some 0⟩, ⟨3, none, none, false, true, some 3, -1, none⟩]
def sineEqsOut : List EqOut := [⟨0, some 0, none, some 0⟩, ⟨1, some 1, none, some 1⟩, ⟨2, none, some 0, some 2⟩]

theorem sine_reduced : reduceIndex id id 20 sineVars 2 (rows sineRows) = .ok (some (sineVarsOut, sineEqsOut)) := by decide +kernel

theorem sine_one_derivative : OneDerivative sineVars := by
  intro t t' a x x' hx hx' _ _ ha ha'
  have : ∀ t x, sineVars[t]? = some x → x.anti = some a → t = 2 := by
    intro t x hx ha
    match t with
    | 0 => cases hx; cases ha
    | 1 => cases hx; cases ha
    | 2 => rfl
    | 3 => cases hx; cases ha
    | t + 4 => cases hx
  rw [this t x hx ha, this t' x' hx' ha']

theorem sine_right : Right sineVars 2 (rows sineRows) sineVarsOut sineEqsOut := by
  cases hc : construct sineVars 2 (rows sineRows) with
  | error e =>
    have : (construct sineVars 2 (rows sineRows)).isOk = true := by decide +kernel
    rw [hc] at this
    cases this
  | ok g =>
    rcases reduceIndex_right_partial hc sine_one_derivative (constantsPlain_of (by decide +kernel))
      (occurs_of (by decide +kernel)) (order := id) (order' := id) (fun _ => .refl _) (fun _ => .refl _) (fuel := 20) (by decide +kernel)
      with e | e | ⟨vs, es, e, hR⟩ <;> rw [sine_reduced] at e <;> cases e
    exact hR

/-- what is added: x' - cos t -/
def sineNew : Ex (Fin 4) := .add (.add (.const 0) (.add (.const 0) (.mul (.const 1) (.var 2))))
  (.add (.const 0) (.mul (.mul (.const 1) (.const (-1))) (.un 1 (.var 3))))

theorem sine_tape : newTape trig.d sineVars sineVarsOut sineEqsOut sine = .ok (some (4, sine ++ [sineNew])) := by decide +kernel

/-- the theorems apply: x' - cos t is the derivative of x - sin t wherever x' is that of x, and t is the time -/
example : ∀ X t, Follows sineVars sineVarsOut X t → HasDerivAt (fun s => X s 0 - Real.sin (X s 3)) (X t 2 - Real.cos (X t 3)) t := by
  intro X t hX
  rcases new_equations_right_partial (F := trig) sine_right sine_one sine_given with ⟨r, _⟩ | ⟨_, out, r1, _, _, _, r5⟩
  · cases r
  · rw [sine_tape] at r1
    cases r1
    have h1 := (r5 X t hX (by simp [sine, Defined, trig]) 2 0 _ _ _ rfl rfl rfl rfl).1
    have hv : eval trig (X t) sineNew = X t 2 - Real.cos (X t 3) := by
      simp [sineNew, eval, trig]
      ring
    rw [hv] at h1
    refine h1.congr_of_eventuallyEq (Filter.Eventually.of_forall fun s => ?_)
    simp [eval, trig]
    ring

/-- variables which follow their derivatives: the solution of that system -/
example : ∀ t : ℝ, Follows sineVars sineVarsOut (fun s j => match j with | 0 => Real.sin s | 1 => s * Real.cos s | 2 => Real.cos s | _ => s) t := by
  refine fun t => ⟨fun j x u hx hu => ?_, fun j x hx hd => ?_⟩
  · match j with
    | 0 => cases hx; cases hu; exact Real.hasDerivAt_sin t
    | 1 => cases hx; cases hu
    | 2 => cases hx; cases hu
    | 3 => cases hx; cases hu
    | j + 4 => cases hx
  · match j with
    | 0 => cases hx; cases hd
    | 1 => cases hx; cases hd
    | 2 => cases hx; cases hd
    | 3 => cases hx; exact hasDerivAt_id t
    | j + 4 => cases hx

/-- the pendulum: x' - u, y' - v, u' - x λ, v' - y λ + 1, x x + y y - 1; the time is added, there are two rounds -/
def pendulumEqs : List (Ex (Fin 4)) :=
  [.add (.var 5) (.mul (.const (-1)) (.var 2)), .add (.var 6) (.mul (.const (-1)) (.var 3)),
   .add (.var 7) (.mul (.const (-1)) (.mul (.var 0) (.var 4))), .add (.var 8) (.add (.mul (.const (-1)) (.mul (.var 1) (.var 4))) (.const 1)),
   .add (.mul (.var 0) (.var 0)) (.add (.mul (.var 1) (.var 1)) (.const (-1)))]

def pendulumOut : List VarOut × List EqOut :=
  ([⟨0, none, some 5, true, false, some 0, 0, none⟩, ⟨1, none, some 6, true, false, some 1, 0, none⟩,
    ⟨2, none, some 7, true, false, some 2, 0, none⟩, ⟨3, none, some 8, true, false, some 3, 0, none⟩,
    ⟨4, none, none, true, false, some 4, 0, none⟩, ⟨5, some 0, some 9, true, false, some 5, 1, some 0⟩,
    ⟨6, some 1, some 10, true, false, some 6, 1, some 1⟩, ⟨7, some 2, none, true, false, some 7, 1, some 2⟩,
    ⟨8, some 3, none, true, false, some 8, 1, some 3⟩, ⟨9, some 5, none, true, false, none, 2, some 0⟩,
    ⟨10, some 6, none, true, false, none, 2, some 1⟩],
   [⟨0, some 0, none, some 2⟩, ⟨1, some 1, none, some 6⟩, ⟨2, some 2, none, some 4⟩, ⟨3, some 3, none, some 8⟩, ⟨4, some 4, none, some 0⟩,
    ⟨5, none, some 4, some 5⟩, ⟨6, none, some 0, some 7⟩, ⟨7, none, some 1, some 10⟩, ⟨8, none, some 5, some 9⟩])

/-- the derivative of x dx -/
def half (x d e : Nat) : Ex (Fin 4) :=
  .add (.const 0) (.add (.const 0) (.add
    (.add (.const 0) (.add (.const 0) (.add (.const 0) (.mul (.mul (.mul (.const 1) (.var d)) (.const 1)) (.var d)))))
    (.add (.const 0) (.add (.const 0) (.mul (.mul (.const 1) (.mul (.const 1) (.var x))) (.var e))))))

/-- the last equation is the second derivative of x x + y y - 1 -/
example : reduceIndex id id 20 (vars pendulum) 5 (rows pendulumRows) = .ok (some pendulumOut) ∧
    EqDer pendulumOut.2 2 4 8 ∧ (∃ out, newTape trig.d (vars pendulum) pendulumOut.1 pendulumOut.2 pendulumEqs = .ok (some (11, out)) ∧
    out[8]? = some (.add (.add (half 0 5 9) (half 0 5 9)) (.add (.add (half 1 6 10) (half 1 6 10)) (.const 0)))) ∧
    ∀ X, eval trig X (.add (.add (half 0 5 9) (half 0 5 9)) (.add (.add (half 1 6 10) (half 1 6 10)) (.const 0))) =
      2 * (X 5 * X 5 + X 0 * X 9 + X 6 * X 6 + X 1 * X 10) := by
  refine ⟨by decide +kernel, .succ (q := 5) (.succ (q := 4) (.zero (by decide +kernel)) rfl rfl) rfl rfl, ⟨_, rfl, rfl⟩, fun X => ?_⟩
  simp [half, eval]
  ring

/-- C78 fails if the information is wrong (C77): the derivative of the equation v + z = 0 has no z', there is no variable for it on
the new tape. -/
theorem missing_derivative_counterexample : ∃ vs es out f f',
    reduceIndex id id 20 (vars [none, some 0, none, some 2, none]) 3 (rows [[0], [1, 2], [0, 4]]) = .ok (some (vs, es)) ∧
    newTape trig.d (vars [none, some 0, none, some 2, none]) vs es [.var 0, .add (.var 1) (.var 2), .add (.var 0) (.var 4)] =
      .ok (some (5, out)) ∧
    (es[4]?).bind EqOut.anti = some 2 ∧ out[2]? = some f ∧ out[4]? = some f' ∧
    ∃ X : ℝ → Nat → ℝ, (∀ t, Follows (vars [none, some 0, none, some 2, none]) vs X t) ∧
      ¬ HasDerivAt (fun s => eval trig (X s) f) (eval trig (X 0) f') 0 := by
  let vs : List VarOut := [⟨0, none, some 1, true, false, some 0, 0, none⟩, ⟨1, some 0, none, true, false, some 1, 1, some 0⟩,
    ⟨2, none, some 3, true, false, some 2, 0, none⟩, ⟨3, some 2, none, true, false, some 3, 1, some 2⟩,
    ⟨4, none, none, true, false, some 4, 0, none⟩]
  let es : List EqOut := [⟨0, some 0, none, some 0⟩, ⟨1, some 1, none, some 2⟩, ⟨2, some 2, none, some 4⟩, ⟨3, none, some 0, some 1⟩,
    ⟨4, none, some 2, some 4⟩]
  let f' : Ex (Fin 4) := .add (.add (.const 0) (.add (.const 0) (.mul (.const 1) (.var 1)))) (.const 0)
  refine ⟨vs, es, [.var 0, .add (.var 1) (.var 2), .add (.var 0) (.var 4), .add (.const 0) (.add (.const 0) (.mul (.const 1) (.var 1))), f'],
    .add (.var 0) (.var 4), f', by decide +kernel, by decide +kernel, rfl, rfl, rfl, fun s j => if j = 4 then s else 0,
    fun t => ⟨fun j x u hx hu => ?_, fun j x hx hd => ?_⟩, fun h => ?_⟩
  · match j with
    | 0 => cases hx; cases hu; exact hasDerivAt_const t 0
    | 1 => cases hx; cases hu
    | 2 => cases hx; cases hu; exact hasDerivAt_const t 0
    | 3 => cases hx; cases hu
    | 4 => cases hx; cases hu
    | j + 5 => cases hx
  · match j with
    | 0 => cases hx; cases hd
    | 1 => cases hx; cases hd
    | 2 => cases hx; cases hd
    | 3 => cases hx; cases hd
    | 4 => cases hx; cases hd
    | j + 5 => cases hx
  · simp [f', eval] at h
    have h1 := h.unique (hasDerivAt_id (0 : ℝ))
    simp at h1

end Verif.Dae.Tape
