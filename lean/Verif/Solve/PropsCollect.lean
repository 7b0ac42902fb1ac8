import Verif.Solve.LemmasCollectVar
import Verif.Solve.Props
import Verif.Eval.Props
/-
C23: collecting the occurrences of a variable in sums and differences.

Parameters of all statements: `ord` is the order in which C++ evaluates operands, `depth` a bound of the
recursion depth which exceeds the number of operations, `maxB` the largest `size_t`.
-/
namespace Verif.Solve
open Verif.Codegen Verif.Cg Verif.Paths Verif.Eval

theorem linear_iff {α : Type} {G : Graph α} {v : Nat} : ∀ (is : List Nat) (n : Nat), Route G n is v →
    (collectablePath G (stepsUp G n is) = true ↔ Linear G n is) := by
  intro is
  induction is with
  | nil => intro n _; simp [stepsUp, collectablePath, Linear]
  | cons i is ih =>
    intro n h
    obtain ⟨m, hi, h'⟩ := route_cons.mp h
    rw [stepsUp_cons hi, collectablePath_cons (stepsUp_ne h'), Bool.and_eq_true, ih m h']
    simp only [Linear, hi]
    refine and_congr_left fun _ => ?_
    unfold collectable
    cases (G n).op <;> simp

/-- two routes to `l` lead through the two arguments of `n`, and no others -/
structure TwoRoutes {α : Type} (G : Graph α) (n l a b : Nat) (is js : List Nat) : Prop where
  args : (G n).args = [.node a, .node b]
  left : ∀ r, Route G a r l ↔ r = is
  right : ∀ r, Route G b r l ↔ r = js

theorem TwoRoutes.fork {α : Type} {G : Graph α} {n l a b : Nat} {is js : List Nat} (h : TwoRoutes G n l a b is js)
    (hop : (G n).op = .add ∨ (G n).op = .sub) : Fork G n l is js := by
  refine ⟨hop, fun r => ?_, fun r => ?_⟩
  · rw [← h.left, route_cons]
    constructor
    · rintro ⟨m, hi, h'⟩
      rw [h.args] at hi; cases hi; exact h'
    · intro h'; exact ⟨a, by rw [h.args]; rfl, h'⟩
  · rw [← h.right, route_cons]
    constructor
    · rintro ⟨m, hi, h'⟩
      rw [h.args] at hi; cases hi; exact h'
    · intro h'; exact ⟨b, by rw [h.args]; rfl, h'⟩

theorem denotes_of_good {α : Type} {val : Nat → α} {c : Cg α} {p : α} (h : Good False val c p) :
    Denotes val c.node c.value p := by
  have := h.den
  unfold Denotes
  cases hn : c.node <;> rw [hn] at this <;> exact this

theorem good_of_denotes {α : Type} {val : Nat → α} {c : Cg α} {p : α} (h : Denotes val c.node c.value p) :
    Good False val c p := by
  unfold Denotes at h
  refine ⟨?_, fun h => h.elim⟩
  cases hn : c.node <;> rw [hn] at h <;> exact h

section
variable {I : Interp ℝ} {ord : Op → List Nat} {w : World ℝ} {root n var a b : Nat} {r is js : List Nat}

/-- Exactly the sums and differences with linear routes are collected, everything else raises an
exception. -/
theorem collectAddSub_iff (R : RealI I) (hord : ∀ op, (ord op).Perm (List.range (arity op)))
    (hw : Recorded w) (hn : n < w.nodes.length) (h : TwoRoutes w.graph n var a b is js) {depth : Nat}
    (hd : w.nodes.length < depth) :
    let res := collectAddSub I ord depth w (stepsUp w.graph n (0 :: is)) (stepsUp w.graph n (1 :: js))
    ((∃ q, res = .ok q) ↔
      ((w.graph n).op = .add ∨ (w.graph n).op = .sub) ∧ Linear w.graph a is ∧ Linear w.graph b js) ∧
    ((¬ ∃ q, res = .ok q) → res = .error .exception) := by
  intro res
  have hra := (h.left is).mpr rfl
  have hrb := (h.right js).mpr rfl
  have hia : (w.graph n).args[0]? = some (.node a) := by rw [h.args]; rfl
  have hib : (w.graph n).args[1]? = some (.node b) := by rw [h.args]; rfl
  have hla : Route w.graph n (0 :: is) var := route_cons.mpr ⟨a, hia, hra⟩
  have hlb : Route w.graph n (1 :: js) var := route_cons.mpr ⟨b, hib, hrb⟩
  have hvar : var < w.nodes.length := reaches_lt hw.closed _ n var hn hla
  obtain ⟨h0, hok⟩ := hw.ok (some var) (fun v h => by cases h; exact hvar)
  rw [← linear_iff is a hra, ← linear_iff js b hrb]
  by_cases hgood : ((w.graph n).op = .add ∨ (w.graph n).op = .sub) ∧ collectablePath w.graph (stepsUp w.graph a is) = true ∧
      collectablePath w.graph (stepsUp w.graph b js) = true
  · obtain ⟨h1, h2, h3⟩ := hgood
    obtain ⟨s, e, q, w', e', _⟩ := collectAddSub_does R hord hok hw.shaped hw.ranked hn (h.fork h1) h.args h2 h3 hd
    have hres : res = .ok (q, w') := e'
    exact ⟨⟨fun _ => ⟨h1, h2, h3⟩, fun _ => ⟨_, hres⟩⟩, fun h4 => absurd ⟨_, hres⟩ h4⟩
  · have hres : res = .error .exception := by
      show collectAddSub I ord depth w _ _ = _
      unfold collectAddSub
      rw [stepsUp_last _ n hla, stepsUp_last _ n hlb, stepsUp_cons hia, stepsUp_cons hib]
      simp only
      rw [if_neg (by simp)]
      by_cases h1 : (w.graph n).op ≠ .add ∧ (w.graph n).op ≠ .sub
      · rw [if_pos h1]
      · rw [if_neg h1, if_neg (by simp)]
        rw [if_pos]
        have h2 : (w.graph n).op = .add ∨ (w.graph n).op = .sub := by
          by_cases h3 : (w.graph n).op = .add
          · exact .inl h3
          · exact .inr (Classical.byContradiction fun h4 => h1 ⟨h3, h4⟩)
        rw [Bool.not_eq_true', ← Bool.not_eq_true]
        intro h3
        rw [Bool.and_eq_true] at h3
        exact hgood ⟨h2, h3⟩
    exact ⟨⟨(fun ⟨q, h4⟩ => by rw [hres] at h4; cases h4), fun h4 => absurd h4 hgood⟩, fun _ => hres⟩

/-- Missing for the full claim: routes whose subtractions are not entered on the side of the operation
before them (`SameSides`), for which it is false (`collect_counterexample`).

A sum or difference in which the variable occurs on one linear route through each argument becomes
`s * variable + e`, where neither `s` nor `e` depends on the variable. In every evaluation without
division by zero on the routes, `s` is the sum of the coefficients of the routes, and the new expression
has the value of the old one. Operations are only added. -/
theorem collectAddSub_value_partial (R : RealI I) (hord : ∀ op, (ord op).Perm (List.range (arity op)))
    (hw : Recorded w) (hn : n < w.nodes.length) (h : TwoRoutes w.graph n var a b is js)
    (hop : (w.graph n).op = .add ∨ (w.graph n).op = .sub) (hl : Linear w.graph a is) (hr : Linear w.graph b js)
    (hs : SameSides w.graph 0 a is ∧ SameSides w.graph 1 b js) {depth : Nat} (hd : w.nodes.length < depth) :
    ∃ (s e c : Cg ℝ) (w' : World ℝ), collectAddSub I ord depth w (stepsUp w.graph n (0 :: is)) (stepsUp w.graph n (1 :: js)) = .ok (c, w') ∧
      ((∃ t, w'.nodes = w.nodes ++ t) ∧ w'.indeps = w.indeps) ∧
      (∀ k, s.node = some k ∨ e.node = some k → ¬ Reaches w'.graph k var) ∧
      ∀ x val, w'.Val I x val → Divisible w.graph val n (0 :: is) → Divisible w.graph val n (1 :: js) →
        ∃ q, Denotes val s.node s.value (coefficient w.graph val n (0 :: is) + coefficient w.graph val n (1 :: js)) ∧
          Denotes val e.node e.value q ∧
          (coefficient w.graph val n (0 :: is) + coefficient w.graph val n (1 :: js)) * val var + q = val n ∧
          Denotes val c.node c.value (val n) := by
  have hra := (h.left is).mpr rfl
  have hrb := (h.right js).mpr rfl
  have hia : (w.graph n).args[0]? = some (.node a) := by rw [h.args]; rfl
  have hvar : var < w.nodes.length := reaches_lt hw.closed _ n var hn (route_cons.mpr ⟨a, hia, hra⟩)
  obtain ⟨h0, hok⟩ := hw.ok (some var) (fun v h => by cases h; exact hvar)
  rw [← linear_iff is a hra] at hl
  rw [← linear_iff js b hrb] at hr
  obtain ⟨s, e, c, w', e', hg, _, _, vs, ve, ds, de, dc⟩ :=
    collectAddSub_does R hord hok hw.shaped hw.ranked hn (h.fork hop) h.args hl hr hd
  refine ⟨s, e, c, w', ?_, ⟨hg.ext.1, hg.indeps⟩, ?_, ?_⟩
  · exact e'
  · rintro k (hk | hk)
    · exact vs.avoid var rfl k hk
    · exact ve.avoid var rfl k hk
  · intro x val hv h1 h2
    have hD : DivOk w.graph n is js val := ⟨h1, h2⟩
    have g1 := ds x val hv _ (codeSum_slope R hw.shaped (h.fork hop) h.args hl hr hs.1 hs.2 hD)
    have g2 := de x val hv _ (if_pos hD)
    refine ⟨_, denotes_of_good g1, denotes_of_good g2, by ring, ?_⟩
    exact denotes_of_good ((dc x val hv _ _ g1 g2).congr (by ring))

/-- Missing for the full claim: as for `collectAddSub_value_partial`.

The whole expression, of which the sum or difference is a part, keeps its value: `collectVariable`
returns an object with the value of the expression in every evaluation without division by zero on the
routes and above. -/
theorem collectVariable_value_partial (R : RealI I) (hord : ∀ op, (ord op).Perm (List.range (arity op)))
    (hw : Recorded w) (hroot : root < w.nodes.length) (hrn : Route w.graph root r n)
    (h : TwoRoutes w.graph n var a b is js)
    (hop : (w.graph n).op = .add ∨ (w.graph n).op = .sub) (hl : Linear w.graph a is) (hr : Linear w.graph b js)
    (hs : SameSides w.graph 0 a is ∧ SameSides w.graph 1 b js)
    (hkn : ∀ m f, Reaches w.graph root m → Reaches w.graph m n → (w.graph m).op = .un f → f ∈ knownFns)
    {depth maxB : Nat} (hd : w.nodes.length < depth) (hmax : 4 * w.nodes.length < maxB) :
    ∃ c w', collectVariable I ord depth maxB w root (stepsUp w.graph root (r ++ 0 :: is))
        (stepsUp w.graph root (r ++ 1 :: js)) r.length = .ok (c, w') ∧
      ((∃ t, w'.nodes = w.nodes ++ t) ∧ w'.indeps = w.indeps) ∧
      ∀ x val, w'.Val I x val → Divisible w.graph val n (0 :: is) → Divisible w.graph val n (1 :: js) →
        DivisibleAbove w.graph val root n → Denotes val c.node c.value (val root) := by
  have hn := reaches_lt hw.closed r root n hroot hrn
  have hra := (h.left is).mpr rfl
  have hrb := (h.right js).mpr rfl
  have hia : (w.graph n).args[0]? = some (.node a) := by rw [h.args]; rfl
  have hvar : var < w.nodes.length := reaches_lt hw.closed _ n var hn (route_cons.mpr ⟨a, hia, hra⟩)
  obtain ⟨h0, hok⟩ := hw.ok (some var) (fun v h => by cases h; exact hvar)
  rw [← linear_iff is a hra] at hl
  rw [← linear_iff js b hrb] at hr
  obtain ⟨c, w', e, hg, _, _, hden⟩ := (collectVariable_does R hord hok hw.shaped hw.ranked hroot hrn (h.fork hop)
    h.args hl hr hs.1 hs.2 (fun m f h1 h2 _ h3 => known_supported (hkn m f h1 h2 h3)) hd (maxB := maxB) (by omega)).ex
  refine ⟨c, w', ?_, ⟨hg.ext.1, hg.indeps⟩, ?_⟩
  · exact e
  · intro x val hv h1 h2 h3
    exact denotes_of_good (hden x val hv _ (if_pos ⟨⟨h1, h2⟩, h3⟩))

end

/-! ### a concrete case -/

theorem range_perm (op : Op) : (List.range (arity op)).Perm (List.range (arity op)) := List.Perm.refl _

/-- x, y, `y * x`, `x / 2`, `x / 2 - y`, `(x / 2 - y) + y * x`, `exp((x / 2 - y) + y * x)` -/
noncomputable def colW : World ℝ :=
  ⟨[(⟨.inv, []⟩, 0), (⟨.inv, []⟩, 0), (⟨.mul, [.node 1, .node 0]⟩, 0), (⟨.div, [.node 0, .param 2]⟩, 0),
    (⟨.sub, [.node 3, .node 1]⟩, 0), (⟨.add, [.node 4, .node 2]⟩, 0), (⟨.un .exp, [.node 5]⟩, 0)], [0, 1]⟩

theorem colW_cases {P : Nat → Node ℝ → Nat → Prop} (h0 : P 0 ⟨.inv, []⟩ 0) (h1 : P 1 ⟨.inv, []⟩ 0)
    (h2 : P 2 ⟨.mul, [.node 1, .node 0]⟩ 0) (h3 : P 3 ⟨.div, [.node 0, .param 2]⟩ 0)
    (h4 : P 4 ⟨.sub, [.node 3, .node 1]⟩ 0) (h5 : P 5 ⟨.add, [.node 4, .node 2]⟩ 0) (h6 : P 6 ⟨.un .exp, [.node 5]⟩ 0) :
    ∀ (n : Nat) nd h, colW.nodes[n]? = some (nd, h) → P n nd h := by
  intro n nd h e
  match n with
  | 0 => cases e; exact h0
  | 1 => cases e; exact h1
  | 2 => cases e; exact h2
  | 3 => cases e; exact h3
  | 4 => cases e; exact h4
  | 5 => cases e; exact h5
  | 6 => cases e; exact h6
  | n + 7 => cases e

theorem colW_recorded : Recorded colW := by
  refine ⟨⟨0, colW_cases rfl rfl rfl rfl rfl rfl rfl⟩, ?_, colW_cases rfl rfl rfl rfl rfl rfl rfl, ⟨id, ?_⟩, ?_⟩
  · refine colW_cases ?_ ?_ ?_ ?_ ?_ ?_ ?_ <;> intro m hm <;> simp [colW] at hm ⊢ <;> omega
  · refine colW_cases ?_ ?_ ?_ ?_ ?_ ?_ ?_ <;> intro m hm <;> simp at hm ⊢ <;> omega
  · refine colW_cases ?_ ?_ ?_ ?_ ?_ ?_ ?_ <;> simp [colW]

theorem colW_two : TwoRoutes colW.graph 5 0 4 2 [0, 0] [1] := by
  refine ⟨rfl, ?_, ?_⟩
  · intro is
    rcases is with _ | ⟨i, _ | ⟨j, _ | ⟨k, is⟩⟩⟩
    · simp [Route, follow]
    · rcases i with _ | _ | i <;> simp [Route, follow, colW, World.graph]
    · rcases i with _ | _ | i <;> rcases j with _ | _ | j <;> simp [Route, follow, colW, World.graph]
    · rcases i with _ | _ | i <;> rcases j with _ | _ | j <;> simp [Route, follow, colW, World.graph]
  · intro is
    rcases is with _ | ⟨i, _ | ⟨j, is⟩⟩
    · simp [Route, follow]
    · rcases i with _ | _ | i <;> simp [Route, follow, colW, World.graph]
    · rcases i with _ | _ | i <;> rcases j with _ | _ | j <;> simp [Route, follow, colW, World.graph]

/-- the hypotheses are met -/
example : ∃ c w', collectVariable realI (fun op => List.range (arity op)) 8 (2 ^ 64 - 1) colW 6
      (stepsUp colW.graph 6 [0, 0, 0, 0]) (stepsUp colW.graph 6 [0, 1, 1]) 1 = .ok (c, w') ∧
    ∀ x val, w'.Val realI x val → Denotes val c.node c.value (val 6) := by
  obtain ⟨c, w', e, _, h⟩ := collectVariable_value_partial (root := 6) (r := [0]) realI_real range_perm colW_recorded
    (by simp [colW]) (by simp [Route, follow, colW, World.graph]) colW_two (.inl rfl)
    (by simp [Linear, colW, World.graph]) (by simp [Linear, colW, World.graph])
    ⟨by simp [SameSides, colW, World.graph], by simp [SameSides, colW, World.graph]⟩
    (by
      intro m f h1 _ h3
      by_cases hm : m < 7
      · have : m = 0 ∨ m = 1 ∨ m = 2 ∨ m = 3 ∨ m = 4 ∨ m = 5 ∨ m = 6 := by omega
        rcases this with rfl | rfl | rfl | rfl | rfl | rfl | rfl <;> simp [colW, World.graph] at h3
        subst h3; simp [knownFns]
      · rw [graph_none (by simpa [colW] using hm)] at h3; cases h3)
    (depth := 8) (maxB := 2 ^ 64 - 1) (by simp [colW]) (by simp [colW])
  refine ⟨c, w', e, fun x val hv => h x val hv ?_ ?_ ?_⟩
  · simp [Divisible, colW, World.graph, argVal]
  · simp [Divisible, colW, World.graph]
  · rintro m _ ⟨r, h2⟩ _ h4
    by_cases hm : m < 7
    · have : m = 0 ∨ m = 1 ∨ m = 2 ∨ m = 3 ∨ m = 4 ∨ m = 5 ∨ m = 6 := by omega
      rcases this with rfl | rfl | rfl | rfl | rfl | rfl | rfl <;> simp [colW, World.graph, argVal] at h4 ⊢
    · rw [graph_none (by simpa [colW] using hm)] at h4; cases h4

/-! ### what does not hold -/

/-- x, `x - 3`, `x + (x - 3)` -/
noncomputable def badW : World ℝ :=
  ⟨[(⟨.inv, []⟩, 0), (⟨.sub, [.node 0, .param 3]⟩, 0), (⟨.add, [.node 0, .node 1]⟩, 0)], [0]⟩

/-- The sign of a term is taken from the argument by which the subtraction is reached instead of the
argument of the subtraction: `x + (x - 3)` becomes `-3`. -/
theorem collect_counterexample : ∃ c w',
    collectAddSub realI (fun op => List.range (arity op)) 4 badW (stepsUp badW.graph 2 [0])
      (stepsUp badW.graph 2 [1, 0]) = .ok (c, w') ∧
    ∀ x val, w'.Val realI x val → Denotes val c.node c.value (-3) ∧ val 2 = 2 * val 0 - 3 := by
  have cases3 : ∀ {P : Nat → Node ℝ → Nat → Prop}, P 0 ⟨.inv, []⟩ 0 → P 1 ⟨.sub, [.node 0, .param 3]⟩ 0 →
      P 2 ⟨.add, [.node 0, .node 1]⟩ 0 → ∀ (n : Nat) nd h, badW.nodes[n]? = some (nd, h) → P n nd h := by
    intro P h0 h1 h2 n nd h e
    match n with
    | 0 => cases e; exact h0
    | 1 => cases e; exact h1
    | 2 => cases e; exact h2
    | n + 3 => cases e
  have hrec : Recorded badW := by
    refine ⟨⟨0, cases3 rfl rfl rfl⟩, ?_, cases3 rfl rfl rfl, ⟨id, ?_⟩, ?_⟩
    · refine cases3 ?_ ?_ ?_ <;> intro m hm <;> simp [badW] at hm ⊢ <;> omega
    · refine cases3 ?_ ?_ ?_ <;> intro m hm <;> simp at hm ⊢ <;> omega
    · refine cases3 ?_ ?_ ?_ <;> simp [badW]
  have htwo : TwoRoutes badW.graph 2 0 0 1 [] [0] := by
    refine ⟨rfl, ?_, ?_⟩
    · intro is
      rcases is with _ | ⟨i, is⟩
      · simp [Route, follow]
      · simp [Route, follow, badW, World.graph]
    · intro is
      rcases is with _ | ⟨i, _ | ⟨j, is⟩⟩
      · simp [Route, follow]
      · rcases i with _ | _ | i <;> simp [Route, follow, badW, World.graph]
      · rcases i with _ | _ | i <;> simp [Route, follow, badW, World.graph]
  obtain ⟨h0, hok⟩ := hrec.ok (some 0) (fun v h => by cases h; simp [badW])
  obtain ⟨s, e, c, w', e', hg, _, _, _, _, ds, de, dc⟩ :=
    collectAddSub_does realI_real range_perm hok hrec.shaped hrec.ranked (by simp [badW]) (htwo.fork (.inl rfl))
      htwo.args rfl rfl (depth := 4) (by simp [badW])
  refine ⟨c, w', e', ?_⟩
  intro x val hv
  have hv' := hg.ext.val hv
  have e1 : val 1 = val 0 - 3 := by
    have := hv'.2 1 _ _ rfl (by simp)
    exact (Option.some.inj this).symm
  have e2 : val 2 = val 0 + val 1 := by
    have := hv'.2 2 _ _ rfl (by simp)
    exact (Option.some.inj this).symm
  have hD : DivOk badW.graph 2 [] [0] val := by
    constructor <;> simp [Divisible, badW, World.graph]
  have g1 := ds x val hv 0 (by
    simp [codeSum, coefAlong, coefOp, badW, World.graph, realI])
  have g2 := de x val hv (-3) (by
    simp only [hD, if_true]
    rw [e2, e1]
    simp [coefficient, passes, badW, World.graph]
    ring)
  refine ⟨denotes_of_good ((dc x val hv _ _ g1 g2).congr (by ring)), ?_⟩
  rw [e2, e1]; ring

/-- operations of the rational numbers; functions are not used -/
def ratI : Interp Rat where
  un _ a := a
  neg a := -a
  add a b := a + b
  sub a b := a - b
  mul a b := a * b
  div a b := a / b
  pow a _ := a
  cmp c a b := match c with
    | .lt => decide (a < b) | .le => decide (a ≤ b) | .eq => decide (a = b)
    | .ge => decide (a ≥ b) | .gt => decide (a > b) | .ne => decide (a ≠ b)
  zero := 0
  one := 1
  negOne := -1

/-- x, `3 - x`, `3 * x`, `(3 - x) + 3 * x` -/
def badQ : World Rat :=
  ⟨[(⟨.inv, []⟩, 0), (⟨.sub, [.param 3, .node 0]⟩, 0), (⟨.mul, [.param 3, .node 0]⟩, 0),
    (⟨.add, [.node 1, .node 2]⟩, 0)], [0]⟩

/-- the value of the object in the results, if it is a parameter -/
def solution (r : Except Err (Cg Rat × World Rat)) : Option Rat :=
  match r with
  | .ok (c, _) => if c.node.isNone then c.value else none
  | .error _ => none

/-- `solveFor` inherits it: the solution of `(3 - x) + 3 * x = 0` is said to be `-3/4`. -/
theorem solveFor_collect_counterexample :
    solution (solveFor ratI (1 / 2) true (fun op => List.range (arity op)) (· + 1) (2 ^ 64 - 1) 9 badQ 3 0) = some (-3 / 4) ∧
    (3 - (-3 / 4)) + 3 * (-3 / 4) ≠ (0 : Rat) ∧ (3 - (-3 / 2)) + 3 * (-3 / 2) = (0 : Rat) := by
  refine ⟨?_, by norm_num, by norm_num⟩
  decide +kernel

end Verif.Solve
