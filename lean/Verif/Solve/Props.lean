import Verif.Solve.LemmasVal
/-
C21: solving an expression for a variable. C22: `isSolvable` predicts it.

Parameters of all statements: `half` is `Base(0.5)`, `ltr` and `ord` the orders in which C++ evaluates
operands, `depth` a bound of the recursion depth which exceeds the number of operations, `maxB` the
largest `size_t`, `fuel + 1` a bound of the number of iterations.
-/
namespace Verif.Solve
open Verif.Codegen Verif.Cg Verif.Paths Verif.Eval

variable {α : Type}

/-- operations recorded by one handler: arguments exist, every operation has its number of arguments,
there are no cycles and independent variables are declared -/
structure Recorded (w : World α) : Prop where
  one : ∃ h0, ∀ (n : Nat) nd h, w.nodes[n]? = some (nd, h) → h = h0
  args : ∀ (n : Nat) nd h, w.nodes[n]? = some (nd, h) → ∀ m, .node m ∈ nd.args → m < w.nodes.length
  arity : ∀ (n : Nat) nd h, w.nodes[n]? = some (nd, h) → nd.args.length = Eval.arity nd.op
  acyclic : ∃ rank : Nat → Nat, ∀ (n : Nat) nd h, w.nodes[n]? = some (nd, h) →
    ∀ m, .node m ∈ nd.args → rank m < rank n
  declared : ∀ (n : Nat) nd h, w.nodes[n]? = some (nd, h) → nd.op = .inv → n ∈ w.indeps

theorem mem_argNodes {args : List (Arg α)} {m : Nat} : m ∈ argNodes args ↔ .node m ∈ args := by
  unfold argNodes
  rw [List.mem_filterMap]
  constructor
  · rintro ⟨a, ha, hm⟩
    cases a with
    | param v => cases hm
    | node k => cases hm; exact ha
  · intro h; exact ⟨_, h, rfl⟩

theorem Recorded.closed {w : World α} (h : Recorded w) : Closed w :=
  fun n nd h' e m hm => h.args n nd h' e m (mem_argNodes.mp hm)

theorem Recorded.shaped {w : World α} (h : Recorded w) : ShapedG w.graph := by
  intro n
  by_cases hn : n < w.nodes.length
  · obtain ⟨⟨nd, h'⟩, e⟩ : ∃ q, w.nodes[n]? = some q := ⟨_, List.getElem?_eq_getElem hn⟩
    rw [graph_of e]; exact h.arity n nd h' e
  · rw [graph_none (by omega)]; rfl

theorem Recorded.ranked {w : World α} (h : Recorded w) : ∃ rank, Ranked w.graph rank := by
  obtain ⟨rank, hr⟩ := h.acyclic
  refine ⟨rank, ?_⟩
  intro n m hm
  unfold kids at hm
  by_cases hn : n < w.nodes.length
  · obtain ⟨⟨nd, h'⟩, e⟩ : ∃ q, w.nodes[n]? = some q := ⟨_, List.getElem?_eq_getElem hn⟩
    rw [graph_of e] at hm
    exact hr n nd h' e m (mem_argNodes.mp hm)
  · rw [graph_none (by omega)] at hm; cases hm

theorem Recorded.ok {w : World α} (h : Recorded w) (av : Option Nat) (hav : ∀ v, av = some v → v < w.nodes.length) :
    ∃ h0, OkW h0 av w := by
  obtain ⟨h0, ho⟩ := h.one
  exact ⟨h0, ho, h.closed, hav⟩

/-- every input has an evaluation -/
theorem Recorded.val_exists {w : World α} (hw : Recorded w) (I : Interp α) (hn : w.indeps.Nodup)
    (hi : ∀ n ∈ w.indeps, (w.graph n).op = .inv) (x : Nat → α) : ∃ val, w.Val I x val :=
  Solve.val_exists hw.shaped hw.ranked I hn hi x

theorem solveFor_grow [DecidableEq α] {I : Interp α} (L : Laws I) {half : α} {ltr : Bool} {ord : Op → List Nat}
    {depth : Nat → Nat} {maxB fuel : Nat} {w : World α} (hw : Recorded w) (hd : ∀ n, n < depth n) {root var : Nat}
    {is : List Nat} (his : ∀ is', Route w.graph root is' var ↔ is' = is) (hne : root ≠ var) {r : Cg α} {w' : World α}
    (e : solveFor I half ltr ord depth maxB (fuel + 1) w root var = .ok (r, w')) : Grow w w' := by
  obtain ⟨h0, hok⟩ := hw.ok none (fun v h => by cases h)
  unfold solveFor at e
  rw [if_neg hne, solveLoop_single hw.closed hw.ranked hd his] at e
  rcases solvePath_spec L (half := half) (ltr := ltr) hok hw.shaped is root w (.const I.zero)
      (fun _ => some I.zero) ((his is).mpr rfl) (fun u hu => by cases hu) (Grow.refl _) hok
      (vaC_const _ _ _) (den_const _ _ _) with ⟨_, h2⟩ | ⟨_, h2⟩
  · obtain ⟨r', w'', e', hg, _⟩ := h2.ex
    rw [e] at e'; cases e'; exact hg
  · rw [h2] at e; cases e

/-! ### C21 -/

/-- Missing for the full claim: `root = var`, where it is false (`solveFor_self_counterexample`).

When the variable occurs on a single route and `solveFor` returns an object, operations were only
added, the object does not depend on the variable, and in every evaluation of the operations
* it has the value which the variable needs for the expression to become zero,
* it has the value of the variable, if the expression is zero (and the operations on the route are
  regular there): a root in the domain of the inverses is the returned one,
* the expression is zero, if the variable has the value of the object. -/
theorem solveFor_correct_partial {I : Interp ℝ} (R : RealI I) {ltr : Bool} {ord : Op → List Nat} {depth : Nat → Nat}
    {maxB fuel : Nat} {w : World ℝ} (hw : Recorded w) (hd : ∀ n, n < depth n) {root var : Nat}
    (hroot : root < w.nodes.length) (hne : root ≠ var)
    {is : List Nat} (his : ∀ is', Route w.graph root is' var ↔ is' = is) {r : Cg ℝ} {w' : World ℝ}
    (e : solveFor I (1 / 2) ltr ord depth maxB (fuel + 1) w root var = .ok (r, w')) :
    ((∃ s, w'.nodes = w.nodes ++ s) ∧ w'.indeps = w.indeps) ∧
    (∀ n, r.node = some n → n < w'.nodes.length ∧ ¬ Reaches w'.graph n var) ∧
    (∀ x val, w'.Val I x val → ∀ q, Need I w.graph val root is 0 q → Denotes val r.node r.value q) ∧
    (∀ x val, w'.Val I x val → val root = 0 → RegularAlong w.graph val root is →
      Denotes val r.node r.value (val var)) ∧
    (∀ x val, w'.Val I x val → (∃ q, Need I w.graph val root is 0 q) → Denotes val r.node r.value (val var) →
      val root = 0) := by
  have dec : DecidableEq ℝ := Classical.decEq ℝ
  have hroute := (his is).mpr rfl
  have hvar : var < w.nodes.length := by
    have : ∀ (is : List Nat) (n : Nat), n < w.nodes.length → Route w.graph n is var → var < w.nodes.length := by
      intro is
      induction is with
      | nil => intro n hn h; rw [route_nil] at h; subst h; exact hn
      | cons i is ih =>
        intro n _ h
        obtain ⟨m, hi, h'⟩ := route_cons.mp h
        exact ih m (closed_kid hw.closed hi) h'
    exact this is root hroot hroute
  obtain ⟨h0, hok⟩ := hw.ok (some var) (fun v h => by cases h; exact hvar)
  unfold solveFor at e
  rw [if_neg hne, solveLoop_single hw.closed hw.ranked hd his] at e
  rcases solvePath_spec (real_laws R) (half := 1 / 2) (ltr := ltr) hok hw.shaped is root w (.const I.zero)
      (fun _ => some I.zero) hroute (fun u hu => ⟨by cases hu; rfl, fun is' h => (his is').mp h⟩) (Grow.refl _) hok
      (vaC_const _ _ _) (den_const _ _ _) with ⟨h1, h2⟩ | ⟨h1, h2⟩
  · obtain ⟨r', w'', e', hg, hw', hva, hden⟩ := h2.ex
    rw [e] at e'
    cases e'
    have key : ∀ x val, w'.Val I x val → ∀ q, Need I w.graph val root is 0 q → Denotes val r.node r.value q := by
      intro x val hv q hn
      have hu := need_undo R dec rfl hw.shaped hn h1
      have := (hden x val hv q (by
        show (some I.zero).bind _ = some q
        rw [Option.bind_some, R.zero]; exact hu)).den
      unfold Denotes
      cases hn : r.node with
      | none => rw [hn] at this; exact this
      | some n => rw [hn] at this; exact this
    refine ⟨⟨hg.ext.1, hg.indeps⟩, ?_, key, ?_, ?_⟩
    · intro n hn
      have h3 := hva.reg
      unfold OkReg at h3
      rw [hn] at h3
      exact ⟨h3, hva.avoid var rfl n hn⟩
    · intro x val hv h4 h5
      have := need_val (hg.ext.val hv) hw.shaped is root hroute h5
      rw [h4] at this
      exact key x val hv _ this
    · rintro x val hv ⟨q, hq⟩ h4
      have h5 := key x val hv q hq
      refine need_gives (hg.ext.val hv) hw.shaped hq hroute ?_
      unfold Denotes at h4 h5
      cases hn : r.node with
      | none => rw [hn] at h4 h5; simp only at h4 h5; rw [h4] at h5; exact Option.some.inj h5
      | some n => rw [hn] at h4 h5; simp only at h4 h5; rw [← h4, h5]
  · rw [h2] at e; cases e

/-- Assigning the value of the result to the variable makes the expression zero: for every evaluation
(`val`), if the variable (and nothing else) is given the value `q` which the result has in it, the
expression is zero in the new evaluation (`val'`), provided zero can be attained. -/
theorem solveFor_assign_partial {I : Interp ℝ} (R : RealI I) {ltr : Bool} {ord : Op → List Nat} {depth : Nat → Nat}
    {maxB fuel : Nat} {w : World ℝ} (hw : Recorded w) (hd : ∀ n, n < depth n) {root var : Nat}
    (hroot : root < w.nodes.length) (hne : root ≠ var)
    {is : List Nat} (his : ∀ is', Route w.graph root is' var ↔ is' = is) {r : Cg ℝ} {w' : World ℝ}
    (e : solveFor I (1 / 2) ltr ord depth maxB (fuel + 1) w root var = .ok (r, w'))
    {x x' val val' : Nat → ℝ} (hv : w'.Val I x val) (hv' : w.Val I x' val')
    (hx : ∀ (j n : Nat), w.indeps[j]? = some n → n ≠ var → x' j = x j)
    (hatt : ∃ q, Need I w.graph val root is 0 q) {q : ℝ} (hq : Denotes val r.node r.value q)
    (hvar : val' var = q) : val' root = 0 := by
  obtain ⟨⟨h1, h1'⟩, h2, h3, _, _⟩ := solveFor_correct_partial R hw hd hroot hne his e
  have hext : Ext w w' := ⟨h1, [], by rw [h1', List.append_nil]⟩
  obtain ⟨q', hq'⟩ := hatt
  have h4 := h3 x val hv q' hq'
  have hqq : q' = q := by
    unfold Denotes at h4 hq
    cases hn : r.node with
    | none => rw [hn] at h4 hq; simp only at h4 hq; rw [h4] at hq; exact Option.some.inj hq
    | some n => rw [hn] at h4 hq; simp only at h4 hq; rw [← h4, hq]
  subst hqq
  have := need_transfer hw.closed hw.ranked hw.declared (hext.val hv) hv' hx hq' his
  exact need_gives hv' hw.shaped this ((his is).mpr rfl) hvar

/-- A step of the route can take the value `p` exactly when `p` is in the range of the operation
(`Attains`, given explicitly): the conditions under which needed values exist. -/
theorem attained_iff {I : Interp ℝ} (R : RealI I) {w : World ℝ} (hw : Recorded w) {val : Nat → ℝ} {n i m : Nat}
    (hi : (w.graph n).args[i]? = some (.node m)) (hs : solvableStep I (w.graph n) (i == 0) = .ok true) {p : ℝ} :
    Attains (w.graph n).op i ((w.graph n).args.map (argVal val)) p ↔
      ∃ v, opSem I (w.graph n).op (((w.graph n).args.map (argVal val)).set i v) = some p ∧
        Regular (w.graph n).op i ((w.graph n).args.map (argVal val)) v :=
  attains_iff R (by rw [List.length_map]; exact hw.shaped n)
    (by rw [List.length_map]; exact (List.getElem?_eq_some_iff.mp hi).1)
    (invertible_of_step R (hw.shaped n) val hs)

/-! ### C22 -/

/-- the same for one route -/
theorem isSolvablePath_iff [DecidableEq α] {I : Interp α} (L : Laws I) {half : α} {ltr : Bool} {w : World α}
    (hw : Recorded w) {root var : Nat} {is : List Nat} (his : Route w.graph root is var) :
    (isSolvablePath I w.graph (stepsUp w.graph root is) = .ok true ↔
      ∃ r, solvePath I half ltr w.graph (stepsUp w.graph root is) w (.const I.zero) = .ok r) ∧
    (isSolvablePath I w.graph (stepsUp w.graph root is) = .ok false ↔
      solvePath I half ltr w.graph (stepsUp w.graph root is) w (.const I.zero) = .error .exception) := by
  obtain ⟨h0, hok⟩ := hw.ok none (fun v h => by cases h)
  rcases solvePath_spec L (half := half) (ltr := ltr) hok hw.shaped is root w (.const I.zero)
      (fun _ => some I.zero) his (fun u hu => by cases hu) (Grow.refl _) hok
      (vaC_const _ _ _) (den_const _ _ _) with ⟨h1, h2⟩ | ⟨h1, h2⟩
  · obtain ⟨r, w', e, _⟩ := h2.ex
    rw [h1, e]; simp
  · rw [h1, h2]; simp

/-- `isSolvable` answers `true` exactly when `solveFor` returns an expression, and `false` exactly when
it raises an exception. -/
theorem isSolvable_iff [DecidableEq α] {I : Interp α} (L : Laws I) {half : α} {ltr : Bool} {ord : Op → List Nat}
    {depth : Nat → Nat} {maxB fuel : Nat} (hmax : 0 < maxB) {w : World α} (hw : Recorded w) (hd : ∀ n, n < depth n)
    {root var : Nat} :
    (isSolvable I half ltr ord depth maxB (fuel + 1) w root var = .ok true ↔
      ∃ r, solveFor I half ltr ord depth maxB (fuel + 1) w root var = .ok r) ∧
    (isSolvable I half ltr ord depth maxB (fuel + 1) w root var = .ok false ↔
      solveFor I half ltr ord depth maxB (fuel + 1) w root var = .error .exception) := by
  obtain ⟨h0, hok⟩ := hw.ok none (fun v h => by cases h)
  rw [isSolvable_spec L hmax hok hw.shaped hw.ranked hd]
  cases h : solveFor I half ltr ord depth maxB (fuel + 1) w root var with
  | ok r => simp
  | error e => cases e <;> simp

/-! ### an instance: `exp(x * y) - 2` -/

open Classical in
/-- the real numbers -/
noncomputable def realI : Interp ℝ where
  un f a := match f with
    | .exp => Real.exp a
    | .log => Real.log a
    | .sqrt => Real.sqrt a
    | .cosh => Real.cosh a
    | .sinh => Real.sinh a
    | .tanh => Real.tanh a
    | _ => a
  neg a := -a
  add a b := a + b
  sub a b := a - b
  mul a b := a * b
  div a b := a / b
  pow a b := a ^ b
  cmp c a b := match c with
    | .lt => decide (a < b) | .le => decide (a ≤ b) | .eq => decide (a = b)
    | .ge => decide (a ≥ b) | .gt => decide (a > b) | .ne => decide (a ≠ b)
  zero := 0
  one := 1
  negOne := -1

theorem realI_real : RealI realI where
  zero := rfl
  one := rfl
  negOne := rfl
  add _ _ := rfl
  sub _ _ := rfl
  mul _ _ := rfl
  div _ _ := rfl
  neg _ := rfl
  pow _ _ := rfl
  exp _ := rfl
  log _ := rfl
  sqrt _ := rfl
  cosh _ := rfl
  sinh _ := rfl
  tanh _ := rfl
  eq _ _ := by simp [realI]
  lt _ _ := by simp [realI]
  gt _ _ := by simp [realI]

/-- x, y, `x * y`, `exp(x * y)`, `exp(x * y) - 2` -/
noncomputable def exW : World ℝ :=
  ⟨[(⟨.inv, []⟩, 0), (⟨.inv, []⟩, 0), (⟨.mul, [.node 0, .node 1]⟩, 0), (⟨.un .exp, [.node 2]⟩, 0),
    (⟨.sub, [.node 3, .param 2]⟩, 0)], [0, 1]⟩

theorem exW_recorded : Recorded exW := by
  have cases5 : ∀ {P : Nat → Node ℝ → Nat → Prop}, P 0 ⟨.inv, []⟩ 0 → P 1 ⟨.inv, []⟩ 0 →
      P 2 ⟨.mul, [.node 0, .node 1]⟩ 0 → P 3 ⟨.un .exp, [.node 2]⟩ 0 → P 4 ⟨.sub, [.node 3, .param 2]⟩ 0 →
      ∀ (n : Nat) nd h, exW.nodes[n]? = some (nd, h) → P n nd h := by
    intro P h0 h1 h2 h3 h4 n nd h e
    match n with
    | 0 => cases e; exact h0
    | 1 => cases e; exact h1
    | 2 => cases e; exact h2
    | 3 => cases e; exact h3
    | 4 => cases e; exact h4
    | n + 5 => cases e
  refine ⟨⟨0, cases5 rfl rfl rfl rfl rfl⟩, ?_, cases5 rfl rfl rfl rfl rfl, ⟨id, ?_⟩, ?_⟩
  · refine cases5 ?_ ?_ ?_ ?_ ?_ <;> intro m hm <;> simp [exW] at hm ⊢ <;> omega
  · refine cases5 ?_ ?_ ?_ ?_ ?_ <;> intro m hm <;> simp at hm ⊢ <;> omega
  · refine cases5 ?_ ?_ ?_ ?_ ?_ <;> simp [exW]

theorem exW_route : ∀ is, Route exW.graph 4 is 0 ↔ is = [0, 0, 0] := by
  intro is
  rcases is with _ | ⟨i, _ | ⟨j, _ | ⟨k, _ | ⟨l, is⟩⟩⟩⟩
  · simp [Route, follow]
  · rcases i with _ | _ | i <;> simp [Route, follow, exW, World.graph]
  · rcases i with _ | _ | i <;> rcases j with _ | j <;> simp [Route, follow, exW, World.graph]
  · rcases i with _ | _ | i <;> rcases j with _ | j <;> rcases k with _ | _ | k <;> simp [Route, follow, exW, World.graph]
  · rcases i with _ | _ | i <;> rcases j with _ | j <;> rcases k with _ | _ | k <;> simp [Route, follow, exW, World.graph]

/-- it is solved, and the result has the value `log 2 / y` -/
theorem exW_solved (ltr : Bool) (ord : Op → List Nat) (fuel : Nat) : ∃ r w',
    solveFor realI (1 / 2) ltr ord (· + 1) (2 ^ 64 - 1) (fuel + 1) exW 4 0 = .ok (r, w') ∧
    ∀ x val, w'.Val realI x val → x 1 ≠ 0 → Denotes val r.node r.value (Real.log 2 / x 1) := by
  have dec : DecidableEq ℝ := Classical.decEq ℝ
  have h1 : isSolvable realI (1 / 2) ltr ord (· + 1) (2 ^ 64 - 1) (fuel + 1) exW 4 0 = .ok true := by
    rfl
  obtain ⟨⟨r, w'⟩, e⟩ := ((isSolvable_iff (real_laws realI_real) (by norm_num) exW_recorded
    (fun n => Nat.lt_succ_self n)).1).mp h1
  refine ⟨r, w', e, ?_⟩
  obtain ⟨⟨⟨s, hs⟩, hi⟩, _, h2, _⟩ := solveFor_correct_partial realI_real exW_recorded (fun n => Nat.lt_succ_self n)
    (by simp [exW]) (by simp) exW_route e
  intro x val hv hx
  refine h2 x val hv _ ?_
  have hy : val 1 = x 1 := hv.1 1 1 (by rw [hi]; rfl)
  rw [← hy] at hx ⊢
  refine .step (v := 2) (m := 3) rfl ?_ trivial (.step (v := Real.log 2) (m := 2) rfl ?_ trivial
    (.step (v := Real.log 2 / val 1) (m := 0) rfl ?_ hx .here))
  · show some ((2 : ℝ) - 2) = some 0; norm_num
  · show some (Real.exp (Real.log 2)) = some 2
    rw [Real.exp_log (by norm_num)]
  · show some (Real.log 2 / val 1 * val 1) = some (Real.log 2)
    rw [div_mul_cancel₀ _ hx]

/-! ### what does not hold -/

/-- x, `cosh(x)`, `cosh(x) - 2` -/
noncomputable def coshW : World ℝ :=
  ⟨[(⟨.inv, []⟩, 0), (⟨.un .cosh, [.node 0]⟩, 0), (⟨.sub, [.node 1, .param 2]⟩, 0)], [0]⟩

/-- Not every root is returned: `cosh(x) - 2` has the roots `± arcosh 2`, the object returned by
`solveFor` has the value of one of them whatever `x` is. -/
theorem cosh_root_counterexample (ltr : Bool) (ord : Op → List Nat) (fuel : Nat) : ∃ r w',
    solveFor realI (1 / 2) ltr ord (· + 1) (2 ^ 64 - 1) (fuel + 1) coshW 2 0 = .ok (r, w') ∧
    ∃ x val, w'.Val realI x val ∧ val 2 = 0 ∧ ¬ Denotes val r.node r.value (val 0) := by
  have dec : DecidableEq ℝ := Classical.decEq ℝ
  have cases3 : ∀ {P : Nat → Node ℝ → Nat → Prop}, P 0 ⟨.inv, []⟩ 0 → P 1 ⟨.un .cosh, [.node 0]⟩ 0 →
      P 2 ⟨.sub, [.node 1, .param 2]⟩ 0 → ∀ (n : Nat) nd h, coshW.nodes[n]? = some (nd, h) → P n nd h := by
    intro P h0 h1 h2 n nd h e
    match n with
    | 0 => cases e; exact h0
    | 1 => cases e; exact h1
    | 2 => cases e; exact h2
    | n + 3 => cases e
  have hrec : Recorded coshW := by
    refine ⟨⟨0, cases3 rfl rfl rfl⟩, ?_, cases3 rfl rfl rfl, ⟨id, ?_⟩, ?_⟩
    · refine cases3 ?_ ?_ ?_ <;> intro m hm <;> simp [coshW] at hm ⊢ <;> omega
    · refine cases3 ?_ ?_ ?_ <;> intro m hm <;> simp at hm ⊢ <;> omega
    · refine cases3 ?_ ?_ ?_ <;> simp [coshW]
  have hroute : ∀ is, Route coshW.graph 2 is 0 ↔ is = [0, 0] := by
    intro is
    rcases is with _ | ⟨i, _ | ⟨j, _ | ⟨k, is⟩⟩⟩
    · simp [Route, follow]
    · rcases i with _ | _ | i <;> simp [Route, follow, coshW, World.graph]
    · rcases i with _ | _ | i <;> rcases j with _ | j <;> simp [Route, follow, coshW, World.graph]
    · rcases i with _ | _ | i <;> rcases j with _ | j <;> simp [Route, follow, coshW, World.graph]
  have h1 : isSolvable realI (1 / 2) ltr ord (· + 1) (2 ^ 64 - 1) (fuel + 1) coshW 2 0 = .ok true := rfl
  obtain ⟨⟨r, w'⟩, e⟩ := ((isSolvable_iff (real_laws realI_real) (by norm_num) hrec
    (fun n => Nat.lt_succ_self n)).1).mp h1
  refine ⟨r, w', e, ?_⟩
  obtain ⟨⟨⟨s, hs⟩, hi⟩, _, h2, _⟩ := solveFor_correct_partial realI_real hrec (fun n => Nat.lt_succ_self n)
    (by simp [coshW]) (by simp) hroute e
  have hgrow := solveFor_grow (real_laws realI_real) hrec (fun n => Nat.lt_succ_self n) hroute (by simp) e
  obtain ⟨val, hv⟩ := val_exists (hgrow.shaped hrec.shaped) (hgrow.acyclic hrec.ranked) realI
    (by rw [hi]; simp [coshW])
    (by rw [hi]; intro n hn; simp only [coshW, List.mem_singleton] at hn; subst hn
        rw [graph_ext hgrow.ext (by simp [coshW])]; rfl) (fun _ => -Real.arcosh 2)
  refine ⟨_, val, hv, ?_⟩
  have h0 : val 0 = -Real.arcosh 2 := hv.1 0 0 (by rw [hi]; rfl)
  have hv' := hgrow.ext.val hv
  have e1 : val 1 = Real.cosh (val 0) := by
    have := hv'.2 1 _ _ rfl (by simp)
    exact (Option.some.inj this).symm
  have e2 : val 2 = val 1 - 2 := by
    have := hv'.2 2 _ _ rfl (by simp)
    exact (Option.some.inj this).symm
  have hc : Real.cosh (Real.arcosh 2) = 2 := Real.cosh_arcosh (by norm_num)
  refine ⟨?_, ?_⟩
  · rw [e2, e1, h0, Real.cosh_neg, hc]; norm_num
  · intro hden
    have h3 := h2 _ val hv (Real.arcosh 2) (.step (v := 2) (m := 1) rfl (by
      show some ((2 : ℝ) - 2) = some 0; norm_num) trivial (.step (v := Real.arcosh 2) (m := 0) rfl (by
      show some (Real.cosh (Real.arcosh 2)) = some 2; rw [hc]) (Real.arcosh_nonneg (by norm_num)) .here))
    have : Real.arcosh 2 = val 0 := by
      unfold Denotes at hden h3
      cases hn : r.node with
      | none => rw [hn] at hden h3; simp only at hden h3; rw [h3] at hden; exact Option.some.inj hden
      | some n => rw [hn] at hden h3; simp only at hden h3; rw [← hden, h3]
    rw [h0] at this
    have h4 : Real.arcosh 2 = 0 := by linarith
    rw [h4, Real.cosh_zero] at hc
    norm_num at hc

/-- `solveFor(x, x)` returns `x` itself instead of zero -/
theorem solveFor_self_counterexample (I : Interp α) (half : α) (ltr : Bool) (ord : Op → List Nat) (depth : Nat → Nat)
    (maxB fuel : Nat) (w : World α) (var : Nat) :
    solveFor I half ltr ord depth maxB fuel w var var = .ok (⟨some var, none⟩, w) := by
  unfold solveFor; rw [if_pos rfl]

end Verif.Solve
