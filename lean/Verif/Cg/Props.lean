import Verif.Cg.LemmasTop
import Mathlib.Algebra.Order.Field.Basic
/-
Properties C01-C04: recording with CG objects means what the same program computes on plain numbers,
known values are right, variables of two handlers are not mixed, conditional expressions select the
right branch. The last theorem joins the recording with code generation: the generated function
computes the recorded program.

Programs are lists of `Instr` (Spec.lean), `runDirect` runs one on plain values. `record` (Model.lean)
runs it on CG objects. `World.Val I w x val` says that `val` evaluates the recorded operations at
the input `x`; it exists for every recorded program (`recorded_has_valuation`).
-/
namespace Verif.Cg
open Verif.Codegen
variable {α : Type}

/-- the CG object stands for the value `p`: its node has the value `p`, or it is the constant `p` -/
def Cg.Denotes (val : Nat → α) (c : Cg α) (p : α) : Prop :=
  match c.node with
  | some n => val n = p
  | none => c.value = some p

/-! ### arithmetic used in examples -/

/-- the integers, functions and powers being arbitrary -/
def intI : Interp Int where
  un _ a := a + 1
  add a b := a + b
  sub a b := a - b
  mul a b := a * b
  div a b := a / b
  pow a b := if b = 0 then 1 else a
  neg a := -a
  cmp c a b := match c with
    | .lt => decide (a < b) | .le => decide (a ≤ b) | .eq => decide (a = b)
    | .ge => decide (a ≥ b) | .gt => decide (a > b) | .ne => decide (a ≠ b)
  zero := 0
  one := 1
  negOne := -1

theorem intLaws : Laws intI where
  zero_add := Int.zero_add
  add_zero := Int.add_zero
  sub_zero := Int.sub_zero
  zero_mul := Int.zero_mul
  mul_zero := Int.mul_zero
  one_mul := Int.one_mul
  mul_one := Int.mul_one
  zero_div a _ := Int.zero_ediv a
  div_one := Int.ediv_one
  div_self a h := Int.ediv_self h
  pow_zero a := by simp [intI]
  pow_one a := by simp [intI]
  eq_iff a b := by simp [intI]
  trichotomy a h h' := by simp [intI] at *; omega
  zero_not_lt := by simp [intI]
  zero_not_gt := by simp [intI]

/-- the laws hold in every linearly ordered field, whatever the functions -/
def fieldI (K : Type) [Field K] [LinearOrder K] (un : Fn → K → K) (pow : K → K → K) : Interp K where
  un := un
  add a b := a + b
  sub a b := a - b
  mul a b := a * b
  div a b := a / b
  pow := pow
  neg a := -a
  cmp c a b := match c with
    | .lt => decide (a < b) | .le => decide (a ≤ b) | .eq => decide (a = b)
    | .ge => decide (b ≤ a) | .gt => decide (b < a) | .ne => decide (a ≠ b)
  zero := 0
  one := 1
  negOne := -1

theorem fieldLaws (K : Type) [Field K] [LinearOrder K] (un : Fn → K → K) (pow : K → K → K)
    (h0 : ∀ a, pow a 0 = 1) (h1 : ∀ a, pow a 1 = a) : Laws (fieldI K un pow) where
  zero_add := zero_add
  add_zero := add_zero
  sub_zero := sub_zero
  zero_mul := zero_mul
  mul_zero := mul_zero
  one_mul := one_mul
  mul_one := mul_one
  zero_div a _ := zero_div a
  div_one := div_one
  div_self a h := div_self h
  pow_zero := h0
  pow_one := h1
  eq_iff a b := by simp [fieldI]
  trichotomy a h h' := by
    simp only [fieldI, decide_eq_false_iff_not, not_lt, decide_eq_true_eq] at *
    exact lt_of_le_of_ne h h'
  zero_not_lt := by simp [fieldI]
  zero_not_gt := by simp [fieldI]

/-- an example program with both operators and compound assignments, shortcuts and a condition:
r0 = x0, r1 = x1 (set to 3), r2 = 0, r3 = 1, r4 = r2 + r0, r5 = r4 * r1, r5 -= r3, r6 = r5 / r5,
r7 = sin r5, r8 = (r0 < r1 ? r7 : r2), r9 = sign r8, r10 = -r9, r11 = pow r7 r3,
r11 = r0, r12 = r1 * r3, r12 /= r1 -/
def exProg : List (Instr Int) :=
  [.indep 0 none, .indep 0 (some 3), .const 0, .const 1, .bin .add 2 0, .bin .mul 4 1, .upd .sub 5 3,
   .bin .div 5 5, .un .sin 5, .cond .lt 0 1 7 2, .sign 8, .neg 9, .bin .pow 7 3, .copy 11 0,
   .bin .mul 1 3, .upd .div 12 1]

def exX : Nat → Int := fun n => if n = 0 then 2 else 3

/-! ### C01: recorded arithmetic means direct arithmetic -/

/-- C01. Each operator returns an object which denotes the operation applied to what its operands
denote, whichever shortcut fired. Division by zero has no direct value (`Bin.direct`). -/
theorem binary_denotes [DecidableEq α] {I : Interp α} (L : Laws I) (o : Bin) {w w' : World α}
    {x val : Nat → α} {a b r : Cg α} {p q v : α} (ha : a.Denotes val p) (hb : b.Denotes val q)
    (e : binary I o w a b = .ok (r, w')) (hv : w'.Val I x val) (hd : o.direct I p q = some v) :
    r.Denotes val v :=
  (binary_good (K := False) L ⟨ha, False.elim⟩ ⟨hb, False.elim⟩ e hv hd).den

/-- C01. Compound assignments denote the same results. -/
theorem compound_denotes [DecidableEq α] {I : Interp α} (L : Laws I) (o : Bin) {w w' : World α}
    {x val : Nat → α} {a b r : Cg α} {p q v : α} (ha : a.Denotes val p) (hb : b.Denotes val q)
    (e : compound I o w a b = .ok (r, w')) (hv : w'.Val I x val) (hd : o.direct I p q = some v) :
    r.Denotes val v :=
  (compound_good (K := False) L ⟨ha, False.elim⟩ ⟨hb, False.elim⟩ e hv hd).den

/-- C01. Unary minus. -/
theorem neg_denotes {I : Interp α} {w w' : World α} {x val : Nat → α} {a r : Cg α} {p : α}
    (ha : a.Denotes val p) (e : unary .neg I.neg w a = .ok (r, w')) (hv : w'.Val I x val) :
    r.Denotes val (I.neg p) :=
  (unary_good (K := False) (I := I) (op := .neg) (by simp) (fun _ => rfl) ⟨ha, False.elim⟩ e hv).den

/-- C01. Whole programs: when a program has been recorded and can be run directly on the input `x`,
every register denotes the value computed directly. -/
theorem record_denotes [DecidableEq α] {I : Interp α} (L : Laws I) {is : List (Instr α)}
    {s : RState α} (e : record I RState.init is = .ok s) {x val : Nat → α} (hv : s.world.Val I x val)
    {d : DState α} (hd : runDirect I x ⟨[], 0⟩ is = some d) :
    s.regs.length = d.regs.length ∧ s.world.indeps.length = d.nIndep ∧
      ∀ (i : Nat) (c : Cg α) (p : α), s.regs[i]? = some c → d.regs[i]? = some p → c.Denotes val p := by
  have h := record_sim (K := False) L stOk_init
    (⟨rfl, by simp [RState.init], rfl⟩ : Rel False val RState.init ⟨[], 0⟩) e hd hv False.elim
  exact ⟨h.len, h.indeps.symm, fun i c p h1 h2 => (h.good i c p h1 h2).den⟩

/-- C01. A program using one handler, for which a direct run exists, is always recorded: no
exception and no undefined behaviour. -/
theorem record_succeeds [DecidableEq α] {I : Interp α} {is : List (Instr α)} {x : Nat → α}
    {d : DState α} (hd : runDirect I x ⟨[], 0⟩ is = some d) {h0 : Nat} (h1 : OneHandler h0 is)
    (h2 : ∀ i ∈ is, ∀ j k, i ≠ .upd .pow j k) : ∃ s, record I RState.init is = .ok s := by
  obtain ⟨s, e, _⟩ := record_fine (h0 := h0) stOk_init
    (by intro n nd h hn; simp [RState.init] at hn) rfl hd h1 h2
  exact ⟨s, e⟩

/-- C01. Every recorded program has a valuation at every input. -/
theorem recorded_has_valuation {I : Interp α} {is : List (Instr α)} {s : RState α}
    (e : record I RState.init is = .ok s) (x : Nat → α) : ∃ val, s.world.Val I x val :=
  worldVal_exists (record_ok stOk_init e).1.world I x

example : (runDirect intI exX ⟨[], 0⟩ exProg).map (·.regs) =
    some [2, 3, 0, 1, 2, 5, 1, 6, 6, 1, -1, 2, 1] := by decide
example : ((record intI RState.init exProg).toOption.map fun s => s.regs.map (·.node)) =
    some [some 0, some 1, none, none, some 0, some 3, none, some 4, some 5, some 6, some 7, some 0,
      some 8] := by decide
example : OneHandler 0 exProg := by simp [OneHandler, exProg]

/-- C01 fails at the poles: `x / x` is recorded as the constant 1, also for `x = 0`, where the direct
division has no value; `x /= x` does record the division. -/
theorem div_self_counterexample :
    ∃ s, record intI RState.init [.indep 0 none, .bin .div 0 0] = .ok s ∧
      s.regs[1]? = some (.const 1) ∧ runDirect intI (fun _ => 0) ⟨[], 0⟩ [.indep 0 none, .bin .div 0 0] = none ∧
      ∃ s', record intI RState.init [.indep 0 none, .upd .div 0 0] = .ok s' ∧
        s'.regs[0]? = some ⟨some 1, none⟩ ∧ s'.world.nodes[1]?.map (·.1.op) = some .div := by
  refine ⟨_, rfl, by decide, by decide, _, rfl, by decide, by decide⟩

/-- numbers with a "not a number" (`none`), as IEEE arithmetic has -/
def nanI : Interp (Option Int) where
  un _ a := a
  add a b := do let u ← a; let v ← b; pure (u + v)
  sub a b := do let u ← a; let v ← b; pure (u - v)
  mul a b := do let u ← a; let v ← b; pure (u * v)
  div a b := do let u ← a; let v ← b; if v = 0 then none else pure (u / v)
  pow _ _ := none
  neg a := a.map (- ·)
  cmp c a b := match a, b with
    | some u, some v => intI.cmp c u v
    | _, _ => c == .ne
  zero := some 0
  one := some 1
  negOne := some (-1)

/-- C01 does not extend to values for which the laws fail: `0 * x` is recorded as 0 but the product
of 0 and a NaN is NaN. -/
theorem nan_product_counterexample :
    ∃ s d, record nanI RState.init [.indep 0 none, .const (some 0), .bin .mul 1 0] = .ok s ∧
      runDirect nanI (fun _ => none) ⟨[], 0⟩ [.indep 0 none, .const (some 0), .bin .mul 1 0] = some d ∧
      s.regs[2]? = some (.const (some 0)) ∧ d.regs[2]? = some none := by
  refine ⟨_, _, rfl, rfl, by decide, by decide⟩

/-- Likewise `sign`: the recorded constant is -1 for a NaN, while the generated code (`Interp.sign`)
gives 0 for it. -/
theorem nan_sign_counterexample :
    ∃ s d, record nanI RState.init [.const none, .sign 0] = .ok s ∧
      runDirect nanI (fun _ => none) ⟨[], 0⟩ [.const none, .sign 0] = some d ∧
      s.regs[1]? = some (.const (some (-1))) ∧ d.regs[1]? = some (some 0) := by
  refine ⟨_, _, rfl, rfl, by decide, by decide⟩

/-! ### C02: known values -/

/-- C02. A value reported by an object is the value computed directly when the independents have the
values given to them by `setValue`. -/
theorem known_value_correct [DecidableEq α] {I : Interp α} (L : Laws I) {is : List (Instr α)}
    {s : RState α} (e : record I RState.init is = .ok s) {x : Nat → α} (hx : Agrees x 0 is)
    {d : DState α} (hd : runDirect I x ⟨[], 0⟩ is = some d)
    {i : Nat} {c : Cg α} {v : α} (hc : s.regs[i]? = some c) (hv : c.value = some v) :
    d.regs[i]? = some v := by
  obtain ⟨val, hval⟩ := recorded_has_valuation e x
  have h := record_sim (K := True) L stOk_init
    (⟨rfl, by simp [RState.init], rfl⟩ : Rel True val RState.init ⟨[], 0⟩) e hd hval (fun _ => hx)
  have hi : i < d.regs.length := by
    have := (List.getElem?_eq_some_iff.1 hc).1
    rw [h.len] at this
    exact this
  have hp := List.getElem?_eq_getElem hi
  rw [hp, (h.good i c _ hc hp).known trivial v hv]

/-- C02. The result of a binary operator has a known value exactly when both operands have one, or it
is a constant. -/
theorem binary_known_iff {I : Interp α} (o : Bin) {w w' : World α} {a b r : Cg α} (ha : OkReg w a)
    (hb : OkReg w b) (e : binary I o w a b = .ok (r, w')) :
    r.value.isSome = true ↔ (a.value.isSome = true ∧ b.value.isSome = true) ∨ r.node = none := by
  have hpar : ∀ c : Cg α, OkReg w c → c.isPar = true → c.value.isSome = true := by
    intro c hc hp
    unfold Cg.isPar at hp
    unfold OkReg at hc
    rw [Option.isNone_iff_eq_none] at hp
    rw [hp] at hc
    exact hc
  have hnpar : ∀ c : Cg α, ¬ c.isPar = true → c.node ≠ none := by
    intro c hc hn
    exact hc (by unfold Cg.isPar; rw [hn]; rfl)
  have hbin : ∀ h, binNode I o w h a b = .ok (r, w') →
      (r.value.isSome = true ↔ (a.value.isSome = true ∧ b.value.isSome = true) ∨ r.node = none) := by
    intro h e
    unfold binNode at e
    obtain ⟨u, _, e⟩ := bind_ok e
    obtain ⟨v, _, e⟩ := bind_ok e
    cases e
    unfold bothKnown
    cases a.value <;> cases b.value <;> simp
  unfold binary at e
  split at e
  · unfold fold at e
    obtain ⟨u, _, e⟩ := bind_ok e
    obtain ⟨v, _, e⟩ := bind_ok e
    cases e
    simp [Cg.const]
  · rename_i hp
    rw [Bool.and_eq_true] at hp
    have hA : ∀ (z : Cg α → Bool), (a.isPar && z a) = true →
        (b.value.isSome = true ↔ (a.value.isSome = true ∧ b.value.isSome = true) ∨ b.node = none) := by
      intro z hz
      rw [Bool.and_eq_true] at hz
      have := hpar a ha hz.1
      have := hnpar b (fun hb' => hp ⟨hz.1, hb'⟩)
      simp_all
    have hB : ∀ (z : Cg α → Bool), (b.isPar && z b) = true →
        (a.value.isSome = true ↔ (a.value.isSome = true ∧ b.value.isSome = true) ∨ a.node = none) := by
      intro z hz
      rw [Bool.and_eq_true] at hz
      have := hpar b hb hz.1
      have := hnpar a (fun ha' => hp ⟨ha', hz.1⟩)
      simp_all
    have hB' : ∀ (z : Cg α → Bool), (!a.isPar && b.isPar && z b) = true →
        (a.value.isSome = true ↔ (a.value.isSome = true ∧ b.value.isSome = true) ∨ a.node = none) := by
      intro z hz
      rw [Bool.and_eq_true, Bool.and_eq_true] at hz
      exact hB z (by rw [Bool.and_eq_true]; exact ⟨hz.1.2, hz.2⟩)
    cases o <;> simp only at e
    all_goals
      repeat' split at e
    all_goals first
      | (cases e; exact hA _ (by assumption))
      | (cases e; exact hB _ (by assumption))
      | (cases e; exact hB' _ (by assumption))
      | (cases e; simp [Cg.const]; done)
      | (obtain ⟨h, _, e⟩ := bind_ok e; exact hbin h e)
      | exact hbin _ e
      | (cases e; done)

/-- C02. The same for compound assignments: the left operand then has a known value exactly when both operands have one, or it
is a constant. -/
theorem compound_known_iff {I : Interp α} (o : Bin) {w w' : World α} {a b r : Cg α} (ha : OkReg w a)
    (hb : OkReg w b) (e : compound I o w a b = .ok (r, w')) :
    r.value.isSome = true ↔ (a.value.isSome = true ∧ b.value.isSome = true) ∨ r.node = none := by
  have hpar : ∀ c : Cg α, OkReg w c → c.isPar = true → c.value.isSome = true := by
    intro c hc hp
    unfold Cg.isPar at hp
    unfold OkReg at hc
    rw [Option.isNone_iff_eq_none] at hp
    rw [hp] at hc
    exact hc
  have hnpar : ∀ c : Cg α, ¬ c.isPar = true → c.node ≠ none := by
    intro c hc hn
    exact hc (by unfold Cg.isPar; rw [hn]; rfl)
  have hbin : ∀ h, binNode I o w h a b = .ok (r, w') →
      (r.value.isSome = true ↔ (a.value.isSome = true ∧ b.value.isSome = true) ∨ r.node = none) := by
    intro h e
    unfold binNode at e
    obtain ⟨u, _, e⟩ := bind_ok e
    obtain ⟨v, _, e⟩ := bind_ok e
    cases e
    unfold bothKnown
    cases a.value <;> cases b.value <;> simp
  unfold compound at e
  split at e
  · cases e
  split at e
  · unfold fold at e
    obtain ⟨u, _, e⟩ := bind_ok e
    obtain ⟨v, _, e⟩ := bind_ok e
    cases e
    simp [Cg.const]
  · rename_i hp
    rw [Bool.and_eq_true] at hp
    have hA : ∀ (z : Cg α → Bool), (a.isPar && z a) = true →
        (b.value.isSome = true ↔ (a.value.isSome = true ∧ b.value.isSome = true) ∨ b.node = none) := by
      intro z hz
      rw [Bool.and_eq_true] at hz
      have := hpar a ha hz.1
      have := hnpar b (fun hb' => hp ⟨hz.1, hb'⟩)
      simp_all
    have hC : ∀ (z : Cg α → Bool), (a.isPar && z a) = true →
        (a.value.isSome = true ↔ (a.value.isSome = true ∧ b.value.isSome = true) ∨ a.node = none) := by
      intro z hz
      rw [Bool.and_eq_true] at hz
      have h1 := hpar a ha hz.1
      have h2 := hz.1
      unfold Cg.isPar at h2
      rw [Option.isNone_iff_eq_none] at h2
      simp [h1, h2]
    have hB : ∀ (z : Cg α → Bool), (b.isPar && z b) = true →
        (a.value.isSome = true ↔ (a.value.isSome = true ∧ b.value.isSome = true) ∨ a.node = none) := by
      intro z hz
      rw [Bool.and_eq_true] at hz
      have := hpar b hb hz.1
      have := hnpar a (fun ha' => hp ⟨ha', hz.1⟩)
      simp_all
    have hB' : ∀ (z : Cg α → Bool), (!a.isPar && b.isPar && z b) = true →
        (a.value.isSome = true ↔ (a.value.isSome = true ∧ b.value.isSome = true) ∨ a.node = none) := by
      intro z hz
      rw [Bool.and_eq_true, Bool.and_eq_true] at hz
      exact hB z (by rw [Bool.and_eq_true]; exact ⟨hz.1.2, hz.2⟩)
    cases o <;> simp only at e
    all_goals
      repeat' split at e
    all_goals first
      | (cases e; exact hA _ (by assumption))
      | (cases e; exact hC _ (by assumption))
      | (cases e; exact hB _ (by assumption))
      | (cases e; exact hB' _ (by assumption))
      | (cases e; simp [Cg.const]; done)
      | (obtain ⟨h, _, e⟩ := bind_ok e; exact hbin h e)
      | exact hbin _ e
      | (cases e; done)

/-- C02. The result of a unary function has a known value exactly when its operand has one. -/
theorem unary_known_iff {op : Op} {g : α → α} {w w' : World α} {a r : Cg α} (ha : OkReg w a)
    (e : unary op g w a = .ok (r, w')) : r.value.isSome = true ↔ a.value.isSome = true := by
  unfold unary at e
  split at e
  · rename_i hp
    obtain ⟨u, hu, e⟩ := bind_ok e
    cases e
    unfold Cg.getValue at hu
    split at hu
    · rename_i hv; rw [hv]; simp [Cg.const]
    · cases hu
  · split at e
    · cases e
    · obtain ⟨u, _, e⟩ := bind_ok e
      cases e
      simp

example : Agrees exX 0 exProg := by simp [Agrees, exProg, exX]
/-- without `setValue` on both operands nothing is known -/
example : ((record intI RState.init exProg).toOption.map fun s => s.regs.map (·.value)) =
    some [none, some 3, some 0, some 1, none, none, some 1, none, none, none, none, none, some 1] := by decide
example : ((record intI RState.init [.indep 0 (some 4), .indep 0 (some 5), .bin .mul 0 1, .un .sin 2]).toOption.map
    fun s => s.regs.map (·.value)) = some [some 4, some 5, some 20, some 21] := by decide

/-! ### C03: two handlers -/

/-- C03. `+ - * /` on variables of different handlers raise `CGException`. -/
theorem binary_rejects_mixed {I : Interp α} {o : Bin} (hop : o ≠ .pow) {w : World α} {a b : Cg α} {h h' : Nat}
    (ha : a.handler w = some h) (hb : b.handler w = some h') (hne : h ≠ h') :
    binary I o w a b = .error .exception := by
  have hpar : ∀ {c : Cg α} {h : Nat}, c.handler w = some h → c.isPar = false := by
    intro c h hc
    unfold Cg.handler at hc
    unfold Cg.isPar
    cases hn : c.node with
    | none => rw [hn] at hc; cases hc
    | some n => rfl
  have h1 := hpar ha
  have h2 := hpar hb
  have hnode : (a.node == b.node) = false := by
    rw [beq_eq_false_iff_ne]
    intro e
    unfold Cg.handler at ha hb
    rw [e] at ha
    rw [ha] at hb
    exact hne (by cases hb; rfl)
  have hg : getHandler (a.handler w) (b.handler w) = .error .exception := by
    rw [ha, hb]; simp [getHandler, hne]
  unfold binary
  rw [h1, h2]
  cases o <;> simp only [hg, hnode, Bool.false_and, Bool.and_false, Bool.not_false, Bool.true_and] <;>
    first | rfl | exact absurd rfl hop

/-- C03. A conditional expression which is not decided at recording time raises when two of its
operands belong to different handlers. -/
theorem condExp_rejects_mixed {I : Interp α} {c : Cmp} {w : World α} {l r t f a b : Cg α} {h h' : Nat}
    (hvar : l.isPar = false ∨ r.isPar = false) (hsame : sameExpression I t f = false)
    (ha : a ∈ [l, r, t, f]) (hb : b ∈ [l, r, t, f])
    (h1 : a.handler w = some h) (h2 : b.handler w = some h') (hne : h ≠ h') :
    condExp I c w l r t f = .error .exception := by
  unfold condExp
  rw [if_neg (by rcases hvar with e | e <;> simp [e]), hsame]
  cases e : findHandler w l r t f with
  | ok k =>
    obtain ⟨k1, k2, k3, k4⟩ := findHandler_ok e
    have key : ∀ c ∈ [l, r, t, f], ∀ h, c.handler w = some h → h = k := by
      intro c hc
      simp only [List.mem_cons, List.not_mem_nil, or_false] at hc
      rcases hc with rfl | rfl | rfl | rfl
      exacts [k1, k2, k3, k4]
    exact absurd ((key a ha h h1).trans (key b hb h' h2).symm) hne
  | error z =>
    have : z = .exception := by
      unfold findHandler at e
      simp only at e
      split at e
      · cases e; rfl
      · split at e <;> cases e; rfl
    rw [this]
    rfl

/-- C03, for programs without compound assignments and `pow`: whatever is recorded, no operation has
arguments of another handler. The full claim (all operators) is false, see the next two theorems. -/
theorem no_mixed_graph_partial {I : Interp α} {is : List (Instr α)} {s : RState α}
    (h1 : ∀ i ∈ is, ∀ o j k, i ≠ .upd o j k) (h2 : ∀ i ∈ is, ∀ j k, i ≠ .bin .pow j k)
    (e : record I RState.init is = .ok s) : s.world.Unmixed :=
  record_unmixed stOk_init (by intro n nd h hn; simp [RState.init] at hn) h1 h2 e

/-- two handlers used, without mixing them -/
example : ∃ s, record intI RState.init
    [.indep 0 none, .indep 1 none, .bin .mul 0 0, .bin .add 1 1, .const 2, .bin .add 2 4] = .ok s ∧
      s.world.nodes.map (·.2) = [0, 1, 0, 1, 0] := ⟨_, rfl, by decide⟩
/-- and rejected when mixed -/
example : record intI RState.init [.indep 0 none, .indep 1 none, .bin .mul 0 1] matches .error .exception := by
  decide

theorem mixed_witness (n : Nat) {w : World Int} {nd : Node Int} {h m : Nat}
    (h1 : w.nodes[n]? = some (nd, h)) (h2 : m ∈ argNodes nd.args) (h3 : (w.nodes[m]?).map (·.2) ≠ some h) :
    ¬ w.Unmixed := by
  intro hu
  obtain ⟨nd', e⟩ := hu n nd h h1 m h2
  rw [e] at h3
  exact h3 rfl

/-- C03 is violated by every compound assignment: `x += y` with variables of two handlers is accepted
and yields a node of the first handler with an argument of the second. -/
theorem compound_mixes_counterexample (o : Bin) (ho : o ≠ .pow) :
    ∃ s, record intI RState.init [.indep 0 none, .indep 1 none, .upd o 0 1] = .ok s ∧
      ¬ s.world.Unmixed := by
  cases o
  case pow => exact absurd rfl ho
  all_goals exact ⟨_, rfl, mixed_witness 2 (m := 1) rfl (by decide) (by decide)⟩

/-- C03 is violated by `pow`. -/
theorem pow_mixes_counterexample :
    ∃ s, record intI RState.init [.indep 0 none, .indep 1 none, .bin .pow 0 1] = .ok s ∧
      ¬ s.world.Unmixed :=
  ⟨_, rfl, mixed_witness 2 (m := 0) rfl (by decide) (by decide)⟩

/-! ### C04: conditional expressions and comparisons -/

/-- C04. A conditional expression denotes the operand selected by the comparison of what the first
two denote, folded or recorded. -/
theorem condExp_denotes {I : Interp α} (heq : ∀ a b, I.cmp .eq a b = true → a = b) (c : Cmp)
    {w w' : World α} {x val : Nat → α} {l r t f q : Cg α} {pl pr pt pf : α} (hl : l.Denotes val pl)
    (hr : r.Denotes val pr) (ht : t.Denotes val pt) (hf : f.Denotes val pf)
    (e : condExp I c w l r t f = .ok (q, w')) (hv : w'.Val I x val) :
    (I.cmp c pl pr = true → q.Denotes val pt) ∧ (I.cmp c pl pr = false → q.Denotes val pf) := by
  have h := (condExp_good (K := False) heq ⟨hl, False.elim⟩ ⟨hr, False.elim⟩ ⟨ht, False.elim⟩
    ⟨hf, False.elim⟩ e hv).den
  refine ⟨fun hc => ?_, fun hc => ?_⟩
  · rw [hc] at h; exact h
  · rw [hc] at h; exact h

/-- C04. Comparing constants compares their values. -/
theorem compare_constants (I : Interp α) (c : Cmp) (u v : α) :
    compare I c (.const u) (.const v) = .ok (I.cmp c u v) := rfl

/-- C04. Ordering comparisons involving a variable raise. -/
theorem compare_variable_raises (I : Interp α) {c : Cmp} (hc : c ≠ .eq ∧ c ≠ .ne) {a b : Cg α}
    (h : a.node ≠ none ∨ b.node ≠ none) : compare I c a b = .error .exception := by
  have : ¬ (a.isPar && b.isPar) = true := by
    rw [Bool.and_eq_true]
    unfold Cg.isPar
    rw [Option.isNone_iff_eq_none, Option.isNone_iff_eq_none]
    intro ⟨h1, h2⟩
    rcases h with h | h
    · exact h h1
    · exact h h2
  unfold compare
  rw [if_neg this]
  cases c <;> first | rfl | exact absurd rfl hc.1 | exact absurd rfl hc.2

/-- C04. `==` and `!=` involving a variable never raise, are opposite of each other, and `==` implies
that both denote the same value. -/
theorem compare_variable_eq (I : Interp α) {a b : Cg α} (h : a.node ≠ none ∨ b.node ≠ none) :
    ∃ t, compare I .eq a b = .ok t ∧ compare I .ne a b = .ok (!t) ∧
      (t = true → ∀ (val : Nat → α) p, a.Denotes val p ↔ b.Denotes val p) := by
  have : ¬ (a.isPar && b.isPar) = true := by
    rw [Bool.and_eq_true]
    unfold Cg.isPar
    rw [Option.isNone_iff_eq_none, Option.isNone_iff_eq_none]
    intro ⟨h1, h2⟩
    rcases h with h | h
    · exact h h1
    · exact h h2
  unfold compare
  rw [if_neg this, if_neg this]
  refine ⟨_, rfl, ?_, ?_⟩
  · cases a.isPar <;> cases b.isPar <;> simp [bne]
  · intro ht val p
    split at ht
    · cases ht
    · rename_i hp
      unfold Cg.isPar at hp
      unfold Cg.Denotes
      rw [beq_iff_eq] at ht
      rw [ht]
      cases hb : b.node with
      | none => rw [hb] at hp; simp at hp
      | some n => rfl

example : compare intI .lt (.const 2) (.const 3) = .ok true ∧ compare intI .ge (.const 2) (.const 3) = .ok false ∧
    compare intI .lt ⟨some 0, some 2⟩ (.const 3) = .error .exception := by decide

/-! ### recording followed by code generation -/

/-- C01 with C05. A program over one handler is recorded, and the function generated for any of its
registers, in any order, computes on every input the values of the direct run. -/
theorem generated_code_computes_program [DecidableEq α] [Inhabited α] {I : Interp α} (L : Laws I)
    {is : List (Instr α)} {h0 : Nat} (h1 : OneHandler h0 is) (h2 : ∀ i ∈ is, ∀ j k, i ≠ .upd .pow j k)
    {x0 : Nat → α} {d0 : DState α} (hd0 : runDirect I x0 ⟨[], 0⟩ is = some d0)
    (outs : List Nat) (ho : ∀ i ∈ outs, i < d0.regs.length) (cfg : Cfg) (hcfg : cfg.ignoreZero = false) :
    ∃ s deps g h', record I RState.init is = .ok s ∧
      (outs.mapM fun i => do let c ← reg s i; c.argument) = .ok deps ∧
      generateCode s.world.graph s.world.nodes.length cfg I.zero s.world.indeps deps HState.fresh = .ok (g, h') ∧
      ∀ (x : Nat → α) (d : DState α), runDirect I x ⟨[], 0⟩ is = some d →
        ∃ env, execAll I (entryEnv d.nIndep x) g.prog = some env ∧
          ∀ (k i : Nat) (p : α), outs[k]? = some i → d.regs[i]? = some p → env (.y k) = some p := by
  obtain ⟨s, e, _, hlen⟩ := record_fine (h0 := h0) stOk_init
    (by intro n nd h hn; simp [RState.init] at hn) rfl hd0 h1 h2
  have hs := (record_ok stOk_init e).1
  -- the dependents
  have hdeps : ∃ deps, (outs.mapM fun i => do let c ← reg s i; c.argument) = .ok deps ∧
      deps.length = outs.length ∧
      ∀ (k i : Nat), outs[k]? = some i → ∃ c a, s.regs[i]? = some c ∧ c.argument = .ok a ∧ deps[k]? = some a := by
    have ho' : ∀ i ∈ outs, i < s.regs.length := by
      intro i hi
      have := ho i hi
      omega
    clear ho hd0 hlen
    induction outs with
    | nil => exact ⟨[], rfl, rfl, by simp⟩
    | cons i outs ih =>
      obtain ⟨deps, e1, hl, h⟩ := ih (fun j hj => ho' j (List.mem_cons_of_mem _ hj))
      have hi := ho' i (by simp)
      have hc : s.regs[i]? = some s.regs[i] := List.getElem?_eq_getElem hi
      obtain ⟨a, ha, _⟩ := (hs.regs _ (List.getElem_mem hi)).arg
      refine ⟨a :: deps, ?_, by simp [hl], ?_⟩
      · rw [List.mapM_cons]
        simp only [reg_some hc]
        simp only [bind, Except.bind, ha]
        simp only [bind, Except.bind] at e1
        rw [e1]
        rfl
      · intro k j hk
        cases k with
        | zero =>
          simp only [List.getElem?_cons_zero, Option.some.injEq] at hk
          subst hk
          exact ⟨_, a, hc, ha, by simp⟩
        | succ k =>
          simp only [List.getElem?_cons_succ] at hk
          exact h k j hk
  obtain ⟨deps, e1, hl, hdep⟩ := hdeps
  have hlt : ∀ n ∈ argNodes deps, n < s.world.nodes.length := by
    intro n hn
    simp only [argNodes, List.mem_filterMap] at hn
    obtain ⟨a, ha, hn⟩ := hn
    obtain ⟨k, hk⟩ := List.getElem?_of_mem ha
    have hk' : k < outs.length := by
      rw [← hl]; exact (List.getElem?_eq_some_iff.1 hk).1
    obtain ⟨c, a', hc, hca, hka⟩ := hdep k _ (List.getElem?_eq_getElem hk')
    rw [hk] at hka
    cases hka
    obtain ⟨a'', ha'', hm, _⟩ := (hs.regs c (List.mem_of_getElem? hc)).arg
    rw [hca] at ha''
    cases ha''
    refine hm n ?_
    cases a with
    | param v => cases hn
    | node m => cases hn; simp [argNodes]
  obtain ⟨g, h', eg, hrun⟩ := generateCode_correct (world_wf hs.world hlt) cfg I.zero HState.fresh
    (ready_fresh (G := s.world.graph) (indeps := s.world.indeps) (deps := deps)).1 ready_fresh.2
  refine ⟨s, deps, g, h', e, e1, eg, ?_⟩
  intro x d hd
  obtain ⟨val, hval⟩ := worldVal_exists hs.world I x
  obtain ⟨_, hni, hden⟩ := record_denotes L e hval hd
  obtain ⟨env, h3, h4, _⟩ := hrun I x val (world_valuation hs.world hval hlt)
  refine ⟨env, by rw [← hni]; exact h3, ?_⟩
  intro k i p hk hp
  obtain ⟨c, a, hc, ha, hka⟩ := hdep k i hk
  have hd' := hden i c p hc hp
  rw [h4 k a hka (Or.inl hcfg)]
  unfold Cg.argument at ha
  unfold Cg.Denotes at hd'
  cases hn : c.node with
  | some n =>
    rw [hn] at ha hd'
    cases ha
    simp only at hd'
    rw [← hd']; rfl
  | none =>
    rw [hn] at ha hd'
    simp only at hd'
    rw [hd'] at ha
    cases ha
    rfl

example : ∃ d, runDirect intI exX ⟨[], 0⟩ exProg = some d ∧ ∀ i ∈ [5, 12, 0, 8, 8, 2], i < d.regs.length :=
  ⟨_, rfl, by decide⟩

/-- numbers with a sign of zero which comparisons do not see, as IEEE arithmetic has: value and sign bit -/
def signedI : Interp (Int × Bool) where
  un _ a := a
  add a b := (a.1 + b.1, a.2 && b.2)
  sub a b := (a.1 - b.1, a.2 && !b.2)
  mul a b := (a.1 * b.1, a.2 != b.2)
  div a b := (a.1 / b.1, a.2 != b.2)
  pow a _ := a
  neg a := (-a.1, !a.2)
  cmp c a b := intI.cmp c a.1 b.1
  zero := (0, false)
  one := (1, false)
  negOne := (-1, true)

/-- C04 does not extend to values which compare equal but differ: `CondExpLt(x, 1, 0.0, -0.0)` is recorded as
`0.0`, although for `x = 2` the result is `-0.0`. -/
theorem condExp_signed_zero_counterexample :
    ∃ s d, record signedI RState.init
        [.indep 0 none, .const (1, false), .const (0, false), .const (0, true), .cond .lt 0 1 2 3] = .ok s ∧
      runDirect signedI (fun _ => (2, false)) ⟨[], 0⟩
        [.indep 0 none, .const (1, false), .const (0, false), .const (0, true), .cond .lt 0 1 2 3] = some d ∧
      s.regs[4]? = some (.const (0, false)) ∧ d.regs[4]? = some (0, true) := by
  refine ⟨_, _, rfl, rfl, by decide, by decide⟩

end Verif.Cg
