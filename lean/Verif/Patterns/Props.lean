import Verif.Patterns.LemmasLoop
import Mathlib.Tactic.FinCases
/-
C53: the search for patterns groups the dependents by the shape of their expressions.
C54: an iteration of the loop of a pattern computes the dependent of the iteration.
-/
namespace Verif.Patterns

variable {V K : Type} [DecidableEq K]

/-- C53. For every graph and all sets of candidates: the search ends without dereferencing a null pointer, and the patterns
found for a set of candidates are the classes of candidates with the same shape, each class with at least two members once. -/
theorem patterns_are_shapes (key : V → K) (G : Graph V) (hG : Acyclic G) (hA : AliasOk G) (deps : Nat → Dep V)
    (groups : List (List Nat)) (hn : ∀ g ∈ groups, g.Nodup)
    (hd : ∀ g ∈ groups, ∀ d ∈ g, ∀ i, deps d = .node i → (G i).op ≠ .inv) :
    ∃ r, findRelated key G deps groups = some r ∧
      List.Forall₂ (fun g es => (∀ e ∈ es, e.deps.head? = some e.ref) ∧
        ShapeClasses (fun d => depShape key G (deps d)) g (es.map Eqn.deps)) groups r :=
  findAll_ok key hG hA deps groups ⟨fun _ => 0, 1⟩ (fun _ => Nat.one_pos) (fun g hg => ⟨hn g hg, hd g hg⟩)

/-- the dependents of a pattern are candidates -/
private theorem mem_candidate (key : V → K) {G : Graph V} (hG : Acyclic G) (hA : AliasOk G) {deps : Nat → Dep V}
    {groups : List (List Nat)} (hn : ∀ g ∈ groups, g.Nodup)
    (hd : ∀ g ∈ groups, ∀ d ∈ g, ∀ i, deps d = .node i → (G i).op ≠ .inv)
    {r : List (List Eqn)} (hr : findRelated key G deps groups = some r) {es : List Eqn} (hes : es ∈ r) {e : Eqn} (he : e ∈ es) :
    (∀ i, deps e.ref = .node i → (G i).op ≠ .inv) ∧ ∀ d ∈ e.deps, ∀ i, deps d = .node i → (G i).op ≠ .inv := by
  obtain ⟨r', h1, h2⟩ := patterns_are_shapes key G hG hA deps groups hn hd
  rw [hr] at h1
  cases h1
  obtain ⟨k, hk, rfl⟩ := List.mem_iff_getElem.1 hes
  have hkg : k < groups.length := by rw [h2.length_eq]; exact hk
  have hp := h2.get hkg hk
  simp only [List.get_eq_getElem] at hp
  have hsub := ((hp.2.isClass e.deps (List.mem_map.2 ⟨e, he, rfl⟩)).1).subset
  have hdeps := fun d hde => hd _ (List.getElem_mem hkg) d (hsub hde)
  exact ⟨hdeps e.ref (List.mem_of_mem_head? (hp.1 e he)), hdeps⟩

/-- C54, for the reference: the iteration of the reference computes the reference. -/
theorem iteration_of_reference (key : V → K) (G : Graph V) (hG : Acyclic G) (hA : AliasInv G) (deps : Nat → Dep V)
    (groups : List (List Nat)) (hn : ∀ g ∈ groups, g.Nodup)
    (hd : ∀ g ∈ groups, ∀ d ∈ g, ∀ i, deps d = .node i → (G i).op ≠ .inv)
    (r : List (List Eqn)) (hr : findRelated key G deps groups = some r) (es : List Eqn) (hes : es ∈ r) (e : Eqn) (he : e ∈ es)
    (I : Nat → List Nat → List V → V) (x : Nat → V) :
    iteration I G deps x e e.ref = some (depValue I G x (deps e.ref)) := by
  have hf := (mem_candidate key hG hA.ok hn hd hr hes he).1
  obtain ⟨e', h1, rfl⟩ := findAll_eqOk key hG hA deps groups ⟨fun _ => 0, 1⟩ (fun _ => Nat.one_pos)
    (fun g hg => ⟨hn g hg, hd g hg⟩) r hr es hes e he
  simp only [iteration]
  cases hdr : deps e'.detect.ref with
  | par c => rfl
  | node i => exact iterationAt_ref hG hA I x h1.tbl (i + 1) i (by omega) (hf i hdr)

/-- C54. For every graph: if equal constants are the same, and if an operation has the same counterpart wherever it is used in
the reference and no operation has different places in both expressions, then the iteration of a dependent computes the
dependent. Missing: the condition `Regular` is not checked by the code, and it is false without it (below). -/
theorem iteration_computes_dependent_partial (key : V → K) (hK : ∀ c c', key c = key c' → c = c') (G : Graph V)
    (hG : Acyclic G) (hA : AliasInv G) (deps : Nat → Dep V) (groups : List (List Nat)) (hn : ∀ g ∈ groups, g.Nodup)
    (hd : ∀ g ∈ groups, ∀ d ∈ g, ∀ i, deps d = .node i → (G i).op ≠ .inv)
    (r : List (List Eqn)) (hr : findRelated key G deps groups = some r) (es : List Eqn) (hes : es ∈ r) (e : Eqn) (he : e ∈ es)
    (d : Nat) (hde : d ∈ e.deps)
    (hR : ∀ r0 s0, deps e.ref = .node r0 → deps d = .node s0 → d ≠ e.ref → Regular G r0 s0)
    (I : Nat → List Nat → List V → V) (x : Nat → V) :
    iteration I G deps x e d = some (depValue I G x (deps d)) := by
  by_cases hdr : d = e.ref
  · rw [hdr]
    exact iteration_of_reference key G hG hA deps groups hn hd r hr es hes e he I x
  have hf := mem_candidate key hG hA.ok hn hd hr hes he
  obtain ⟨e', h1, rfl⟩ := findAll_eqOk key hG hA deps groups ⟨fun _ => 0, 1⟩ (fun _ => Nat.one_pos)
    (fun g hg => ⟨hn g hg, hd g hg⟩) r hr es hes e he
  simp only [(detect_deps e').1, (detect_deps e').2] at *
  rcases h1.dep d hde hdr with ⟨c, c', g1, g2, g3⟩ | ⟨r0, s0, g1, g2, g3⟩
  · simp only [iteration, (detect_deps e').2, g1, g2, depValue]
    rw [hK c c' g3]
  · simp only [iteration, (detect_deps e').2, g1, g2, depValue]
    exact iterationAt_ok hG hA hK I x h1.tbl (hf.1 r0 g1) (hf.2 d hde s0 g2) (g3 (hR r0 s0 g1 g2 hdr)) (r0 + 1) r0 s0
      (by omega) .root

/-! ### examples -/

/-- a graph by a list, the remaining nodes are independents -/
def graphOf (l : List (Node Int)) : Graph Int := fun i => l.getD i ⟨.inv, [], []⟩

def indep : Node Int := ⟨.inv, [], []⟩
def sq (i : Nat) : Node Int := ⟨.other 0, [], [.node i]⟩
def mul (a b : Arg Int) : Node Int := ⟨.other 1, [], [a, b]⟩
def sub (a b : Arg Int) : Node Int := ⟨.other 2, [], [a, b]⟩

/-- square, product, difference -/
def interp : Nat → List Nat → List Int → Int
  | 0, _, [a] => a * a
  | 1, _, [a, b] => a * b
  | 2, _, [a, b] => a - b
  | _, _, _ => 0

/-- tests of a list -/
def acyclicB (l : List (Node Int)) : Bool :=
  l.zipIdx.all fun p => p.1.args.all fun a => match a with
    | .par _ => true
    | .node j => decide (j < p.2)

def aliasB (l : List (Node Int)) : Bool :=
  l.all fun n => n.op != .alias_ || (match n.args with
    | [.node j] => (graphOf l j).op == .inv
    | _ => false)

theorem graphOf_mem (l : List (Node Int)) (i : Nat) : graphOf l i = ⟨.inv, [], []⟩ ∨ (graphOf l i, i) ∈ l.zipIdx := by
  by_cases hi : i < l.length
  · right
    rw [List.mem_zipIdx_iff_getElem?]
    simp [graphOf, hi]
  · left
    simp [graphOf, hi]

theorem acyclic_of {l : List (Node Int)} (h : acyclicB l = true) : Acyclic (graphOf l) := by
  intro i j hj
  rcases graphOf_mem l i with he | he
  · rw [he] at hj; simp at hj
  · simp only [acyclicB, List.all_eq_true] at h
    have := h _ he _ hj
    simpa using this

theorem alias_of {l : List (Node Int)} (h : aliasB l = true) : AliasInv (graphOf l) := by
  intro i hi
  rcases graphOf_mem l i with he | he
  · rw [he] at hi; cases hi
  · simp only [aliasB, List.all_eq_true] at h
    have hm := h _ (List.fst_mem_of_mem_zipIdx he)
    simp only [hi, bne_self_eq_false, Bool.false_or] at hm
    split at hm
    · rename_i j hj
      exact ⟨j, hj, by simpa using hm⟩
    · cases hm

/-- x0, x1, x2 are 0, 1, 2; y0 = x0² · 3 − x2, y1 = x1² · 3 − x2, y2 = x1 · x2, y3 = x0 and y4 = x2 with aliases -/
def exG : List (Node Int) :=
  [indep, indep, indep, sq 0, mul (.node 3) (.par 3), sub (.node 4) (.node 2),
   sq 1, mul (.node 6) (.par 3), sub (.node 7) (.node 2), mul (.node 1) (.node 2),
   ⟨.alias_, [], [.node 0]⟩, ⟨.alias_, [], [.node 2]⟩]

def exDeps : Nat → Dep Int := fun d => .node ([5, 8, 9, 10, 11].getD d 9)

/-- the hypotheses are met, and the patterns are {y0, y1} and {y3, y4} -/
example : Acyclic (graphOf exG) ∧ AliasInv (graphOf exG) ∧ [0, 1, 2, 3, 4].Nodup ∧
    (∀ d ∈ [0, 1, 2, 3, 4], ∀ i, exDeps d = .node i → (graphOf exG i).op ≠ .inv) ∧
    (findRelated id (graphOf exG) exDeps [[0, 1, 2, 3, 4]]).map (List.map (List.map Eqn.deps)) = some [[[0, 1], [3, 4]]] := by
  refine ⟨acyclic_of (by decide), alias_of (by decide), by decide, ?_, by decide +kernel⟩
  intro d hd i hi
  fin_cases hd <;> (cases hi; decide)

theorem exG_corr {r s : Nat} (h : Corr (graphOf exG) 5 8 r s) : (r = 5 ∧ s = 8) ∨ (r = 4 ∧ s = 7) ∨ (r = 3 ∧ s = 6) := by
  induction h with
  | root => exact .inl ⟨rfl, rfl⟩
  | @arg _ _ j j' k _ h2 h3 h4 h5 ih =>
    have e5 : (graphOf exG 5).args = [.node 4, .node 2] := rfl
    have e8 : (graphOf exG 8).args = [.node 7, .node 2] := rfl
    have e4 : (graphOf exG 4).args = [.node 3, .par 3] := rfl
    have e7 : (graphOf exG 7).args = [.node 6, .par 3] := rfl
    have e3 : (graphOf exG 3).args = [.node 0] := rfl
    rcases ih with ⟨rfl, rfl⟩ | ⟨rfl, rfl⟩ | ⟨rfl, rfl⟩
    · rw [e5] at h2
      rw [e8] at h3
      match k, h2, h3 with
      | 0, h2, h3 => cases h2; cases h3; exact .inr (.inl ⟨rfl, rfl⟩)
      | 1, h2, h3 => cases h2; exact absurd rfl h4
    · rw [e4] at h2
      rw [e7] at h3
      match k, h2, h3 with
      | 0, h2, h3 => cases h2; cases h3; exact .inr (.inr ⟨rfl, rfl⟩)
      | 1, h2, h3 => cases h2
    · rw [e3] at h2
      match k, h2 with
      | 0, h2 => cases h2; exact absurd rfl h4

/-- the condition of the theorem is met by y0 and y1 -/
theorem exG_regular : Regular (graphOf exG) 5 8 := by
  constructor
  · intro r s s' h h'
    have := exG_corr h
    have := exG_corr h'
    omega
  · intro r s t h h'
    have := exG_corr h
    have := exG_corr h'
    omega

/-- the iterations of {y0, y1} for x = (2, 5, 7) -/
example : (findRelated id (graphOf exG) exDeps [[0, 1, 2, 3, 4]]).map (List.map (List.map fun e =>
      e.deps.map (iteration interp (graphOf exG) exDeps (fun i => [2, 5, 7].getD i 0) e))) =
    some [[[some 5, some 68], [some 2, some 7]]] := by decide +kernel

/-! ### wrong loops -/

/-- The dependents of all patterns, with the result of the loop and the right value. -/
def loopResults (l : List (Node Int)) (deps : Nat → Dep Int) (cands : List Nat) (x : Nat → Int) :
    Option (List (Nat × Option Int × Int)) :=
  (findRelated id (graphOf l) deps [cands]).map fun r => r.flatten.flatMap fun e => e.deps.map fun d =>
    (d, iteration interp (graphOf l) deps x e d, depValue interp (graphOf l) x (deps d))

/-- y0 = v · v with v = x0², y1 = x1² · x2² -/
def squareG : List (Node Int) :=
  [indep, indep, indep, sq 0, mul (.node 3) (.node 3), sq 1, sq 2, mul (.node 5) (.node 6)]

/-- The claim without a condition is false: the pattern of y0 = v · v is found in y1 = x1² · x2², since v is compared twice, and
the second comparison replaces the independent of the first. The loop computes x2² · x2² for y1. -/
theorem shared_operation_counterexample :
    Acyclic (graphOf squareG) ∧ AliasInv (graphOf squareG) ∧
    loopResults squareG (fun d => .node (if d = 0 then 4 else 7)) [0, 1] (fun i => [1, 2, 3].getD i 0) =
      some [(0, some 1, 1), (1, some 81, 36)] :=
  ⟨acyclic_of (by decide), alias_of (by decide), by decide +kernel⟩

/-- y0 = v · v with v = x0², y1 = w · v with w = x1² -/
def mixedG : List (Node Int) :=
  [indep, indep, sq 0, mul (.node 2) (.node 2), sq 1, mul (.node 4) (.node 2)]

/-- An operation of the reference is used in the other expression too: the comparison of v with itself is not made, as v has the
color of its comparison with w. The loop computes w · w for y1 = w · v. -/
theorem common_operation_counterexample :
    Acyclic (graphOf mixedG) ∧ AliasInv (graphOf mixedG) ∧
    loopResults mixedG (fun d => .node (if d = 0 then 3 else 5)) [0, 1] (fun i => [2, 3].getD i 0) =
      some [(0, some 16, 16), (1, some 81, 36)] :=
  ⟨acyclic_of (by decide), alias_of (by decide), by decide +kernel⟩

/-- y0 = v − w with v = x0² and w = x1², y1 = w − v -/
def swapG : List (Node Int) :=
  [indep, indep, sq 0, sq 1, sub (.node 2) (.node 3), sub (.node 3) (.node 2)]

/-- Two operations change places: after the comparison of v with w both have the same color, so w is not compared with v and its
independent is not saved. The loop computes w − w for y1 = w − v. -/
theorem swapped_operations_counterexample :
    Acyclic (graphOf swapG) ∧ AliasInv (graphOf swapG) ∧
    loopResults swapG (fun d => .node (if d = 0 then 4 else 5)) [0, 1] (fun i => [2, 3].getD i 0) =
      some [(0, some (-5), -5), (1, some 0, 5)] :=
  ⟨acyclic_of (by decide), alias_of (by decide), by decide +kernel⟩

/-- The constants of y0 = 1 · x0 and y1 = 2 · x1, if they are equal for `==`, as 0.0 and −0.0 are: the loop uses the constant of
the reference. -/
theorem equal_constants_counterexample :
    ∃ r, findRelated (fun _ : Int => ()) (graphOf [indep, indep, mul (.par 1) (.node 0), mul (.par 2) (.node 1)])
        (fun d => .node (d + 2)) [[0, 1]] = some [[r]] ∧
      iteration interp (graphOf [indep, indep, mul (.par 1) (.node 0), mul (.par 2) (.node 1)]) (fun d => .node (d + 2))
        (fun _ => 1) r 1 = some 1 ∧
      depValue interp (graphOf [indep, indep, mul (.par 1) (.node 0), mul (.par 2) (.node 1)]) (fun _ => 1) (.node 3) = 2 :=
  ⟨_, rfl, by decide +kernel, by decide +kernel⟩

/-- after the search the arguments without index are those which have an independent, the same in all iterations;
arguments which have no independent are not among them -/
theorem constant_arguments (e : Eqn) (o a : Nat) (h : e.cst o a = false) :
    e.detect.cst o a = true ↔ ∃ v, e.tbl o a ≠ [] ∧ ∀ p ∈ e.tbl o a, p.2 = v := by
  simp only [Eqn.detect, h, Bool.false_or]
  cases hm : e.tbl o a with
  | nil => simp
  | cons p ps =>
    simp only [List.all_eq_true, beq_iff_eq, ne_eq, reduceCtorEq, not_false_eq_true, true_and]
    constructor
    · intro hall
      refine ⟨p.2, fun q hq => ?_⟩
      rcases List.mem_cons.mp hq with rfl | hq
      · rfl
      · exact (hall q hq).symm
    · rintro ⟨v, hv⟩ q hq
      rw [hv p (by simp), hv q (by simp [hq])]

example : (Eqn.detect { Eqn.new 0 with tbl := fun o a => if o = 3 ∧ a = 0 then [(0, 7), (1, 7)] else [] }).cst 3 0 = true := by
  decide

end Verif.Patterns
