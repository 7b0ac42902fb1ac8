import Verif.Loops.LemmasDeps

/-
C83: indexed dependent variables printed as loops over the elements of an array get the values they would get one by one.
-/
namespace Verif.Loops.Deps

open Verif.Index (Pat Plane Lin)

variable {R V : Type} [CommRing R] [DecidableEq R] [Add V]

/-- C83: the printed statements, loops included, do for every value of the index of the loop around them, every assignment operator, all values of the arrays and all earlier values of
the dependent variables what the assignments of the variables do one after the other. They stand for all indexed dependent variables up to the first other operation, so the
returned position is that of the last one. -/
theorem deps_right (asg : V → V → V) (arr : Nat → Nat → V) (j : Nat) (nodes : List (Node R V)) (ss : List (Stmt R V)) (n : Nat)
    (h : printDeps 0 nodes = some (ss, n)) :
    ∃ (ds : List (Dep R V)) (tail : List (Node R V)), nodes = ds.map Node.dep ++ tail ∧ (∀ d t, tail ≠ Node.dep d :: t) ∧ n = ds.length ∧
      ∀ m, runStmts asg arr j ss m =
        runAll asg (ds.map fun d => ⟨d.pat.eval j, d.mode, match d.src with | .const v => v | .elem a i => arr a i | .other v => v⟩) m := by
  obtain ⟨ds, h1, ⟨tail, h2, h3⟩, h4⟩ := printDeps_spec asg arr j nodes 0 [] nodes ss n rfl rfl h
  refine ⟨ds, tail, h2, h3, by omega, fun m => ?_⟩
  rw [h4 m]
  congr 1

omit [Add V] in
/-- C83: the variables are printed if no variable is assigned a parameter -/
theorem deps_defined_partial (nodes : List (Node R V)) (h : ∀ d v, Node.dep d ∈ nodes → d.src ≠ .const v) : ∃ r, printDeps 0 nodes = some r :=
  printDeps_defined nodes 0 h

/-! ### cases -/

/-- variable `y[2 j + 5 + k]` with element `k + 1` of array 7 -/
private def elem (k : Nat) (mode : Nat := 0) : Dep Int Int := ⟨.linear ⟨0, 2, 1, 5 + k⟩, mode, .elem 7 (k + 1)⟩

/-- the statements printed and the number of operations -/
private def shape (r : Option (List (Stmt Int Int) × Nat)) : Option (List (Nat × Nat × Nat) × Nat) :=
  r.map fun r => (r.1.map fun | .single _ => (1, 0, 0) | .loop n _ _ a s => (n, a, s), r.2)

-- three elements make a loop, then the kind of assignment changes, then another operation follows
example : shape (printDeps 0 [.dep (elem 0), .dep (elem 1), .dep (elem 2), .dep (elem 3 1), .other, .dep (elem 4)]) = some ([(3, 7, 1), (1, 0, 0)], 4) := by
  decide +kernel

-- two elements do not
example : shape (printDeps 0 [.dep (elem 0), .dep (elem 1), .dep (elem 3)]) = some ([(1, 0, 0), (1, 0, 0), (1, 0, 0)], 3) := by
  decide +kernel

-- at iteration 3 the loop assigns `y[11]`, `y[12]` and `y[13]`, and the last variable is added to `y[14]`
example : ((printDeps 0 [.dep (elem 0), .dep (elem 1), .dep (elem 2), .dep (elem 3 1), .other]).bind fun r =>
    (runStmts (fun _ v => v) (fun a i => ((10 * a + i : Nat) : Int)) 3 r.1 (fun _ => 1000)).map fun m => ([10, 11, 12, 13, 14, 15] : List Int).map m) =
    some [1000, 71, 72, 73, 1074, 1000] := by
  decide +kernel

-- sections: `y[j + k]` for `j < 4`, then `y[3 j + 50 + k]`
private def sec (k : Nat) : Dep Int Int := ⟨.sectioned [(0, ⟨0, 1, 1, k⟩), (4, ⟨0, 3, 1, 50 + k⟩)], 1, .elem 2 k⟩

example : ((printDeps 0 [.dep (sec 0), .dep (sec 1), .dep (sec 2)]).bind fun r =>
    (runStmts (fun _ v => v) (fun _ i => ((i + 1 : Nat) : Int)) 5 r.1 (fun _ => 10)).map fun m => (r.1.length, ([64, 65, 66, 67, 68] : List Int).map m)) =
    some (1, [10, 11, 12, 13, 10]) := by
  decide +kernel

-- no parameter is assigned
example : ∀ d v, Node.dep d ∈ [Node.dep (elem 0), .dep (elem 1), .other] → d.src ≠ .const v := by
  intro d v h
  simp only [List.mem_cons, Node.dep.injEq, List.not_mem_nil, or_false, reduceCtorEq] at h
  rcases h with rfl | rfl <;> simp [elem]

/-- C83, failure: an element of an array is assigned to a variable, and a parameter to the variable after it. The operation of the parameter is used though there is none. -/
theorem parameter_counterexample : ∃ d e : Dep Int Int, d.src = .elem 0 0 ∧ e.src = .const 3 ∧ printDeps 0 [.dep d, .dep e] = none ∧
    (printDeps 0 [.dep e, .dep d]).isSome = true :=
  ⟨⟨.linear ⟨0, 1, 1, 0⟩, 0, .elem 0 0⟩, ⟨.linear ⟨0, 1, 1, 1⟩, 0, .const 3⟩, rfl, rfl, by decide +kernel, by decide +kernel⟩

end Verif.Loops.Deps
