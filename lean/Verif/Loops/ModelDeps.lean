import Verif.Loops.SpecDeps
import Verif.Index.Print

/-
Model of `printLoopIndexDeps` and `printLoopIndexedDepsUsingLoop`, /repo/include/cppad/cg/lang/c/language_c_loops.hpp l.30-173: assignments of indexed dependent variables
are printed as loops over the elements of an array where that is possible. The statements are run for one value of the index of the loop around them,
which all variables share. `none` is undefined behaviour.
-/
namespace Verif.Loops.Deps

open Verif.Index (Pat Plane isOffsetBy encapsulate)

variable {R V : Type}

/-- the argument: a parameter (it has no operation), an element of an array, or another operation -/
inductive Src (V : Type)
  | const (v : V)
  | elem (array idx : Nat)
  | other (v : V)

/-- a `LoopIndexedDep`: its index pattern (`info[0]`), kind of assignment (`info[1]`) and argument -/
structure Dep (R V : Type) where
  pat : Pat R
  mode : Nat
  src : Src V

/-- the operations in `variableOrder`: indexed dependent variables and others -/
inductive Node (R V : Type)
  | dep (d : Dep R V)
  | other

/-- a printed assignment or loop: number of elements, index pattern, kind of assignment, array and its first element -/
inductive Stmt (R V : Type)
  | single (d : Dep R V)
  | loop (n : Nat) (index : Plane R) (mode array start : Nat)

section
variable [CommRing R] [DecidableEq R]

/-- how many variables more are compatible with the first one, l.100-127; `offset` is the distance from it -/
def extend (ref : Dep R V) (array start : Nat) : Nat → List (Node R V) → Option Nat
  | _, [] => some 0
  | _, .other :: _ => some 0
  | offset, .dep d :: rest =>
    match d.src with
    | .const _ => none
    | .other _ => some 0
    | .elem a p =>
      if a ≠ array then some 0
      else if p ≠ start + offset then some 0
      else if d.mode ≠ ref.mode then some 0
      else if !isOffsetBy d.pat ref.pat (offset : R) then some 0
      else (extend ref array start (offset + 1) rest).map (· + 1)

/-- `printLoopIndexedDepsUsingLoop` for the variable `ref` followed by `rest`: number of variables after the first one and the loop, or `some none` if no loop is used -/
def usingLoop (ref : Dep R V) (rest : List (Node R V)) : Option (Option (Nat × Stmt R V)) :=
  match ref.src with
  | .elem a s =>
    match ref.pat with
    | .random _ => some none
    | _ =>
      match extend ref a s 1 rest with
      | none => none
      | some k =>
        if k + 1 < 3 then some none
        else
          match encapsulate ref.pat 0 with
          | none => none
          | some f => some (some (k, .loop (k + 1) f ref.mode a s))
  | _ => some none

/-- `printLoopIndexDeps`: statements, and how many operations they stand for (it returns the position of the last one). The first argument is the number of variables which the last
loop stands for and which are still to be skipped. -/
def printDeps : Nat → List (Node R V) → Option (List (Stmt R V) × Nat)
  | _, [] => some ([], 0)
  | skip + 1, _ :: rest => (printDeps skip rest).map fun r => (r.1, r.2 + 1)
  | 0, .other :: _ => some ([], 0)
  | 0, .dep d :: rest =>
    match usingLoop d rest with
    | none => none
    | some none => (printDeps 0 rest).map fun r => (.single d :: r.1, r.2 + 1)
    | some (some (k, s)) => (printDeps k rest).map fun r => (s :: r.1, r.2 + 1)
end

/-! ### running the statements -/

/-- value of an argument; `arr` has the values of the arrays -/
def Src.value (arr : Nat → Nat → V) : Src V → V
  | .const v => v
  | .elem a i => arr a i
  | .other v => v

section
variable [CommRing R] [DecidableEq R] [Add V]

/-- `varName += value;` or `varName = value;` with the assignment operator, language_c.hpp l.1022-1033, language_c_loops.hpp l.156-162 -/
def assign (asg : V → V → V) (mode : Nat) (i : Option R) (v : V) (m : R → V) : Option (R → V) :=
  i.map fun i k => if k = i then (if mode = 1 then m k + v else asg (m k) v) else m k

/-- `for(i = 0; i < n; i++) dep[f(j, i)] op (array)[i + start];`, l.154-170, from element `i` on -/
def runLoop (asg : V → V → V) (arr : Nat → Nat → V) (j : Nat) (f : Plane R) (mode array start : Nat) : List Nat → (R → V) → Option (R → V)
  | [], m => some m
  | i :: is, m => (assign asg mode (f.eval j i) (arr array (i + start)) m).bind (runLoop asg arr j f mode array start is)

/-- one statement -/
def Stmt.run (asg : V → V → V) (arr : Nat → Nat → V) (j : Nat) : Stmt R V → (R → V) → Option (R → V)
  | .single d, m => assign asg d.mode (d.pat.eval j) (d.src.value arr) m
  | .loop n f mode array start, m => runLoop asg arr j f mode array start (List.range n) m

/-- all statements -/
def runStmts (asg : V → V → V) (arr : Nat → Nat → V) (j : Nat) : List (Stmt R V) → (R → V) → Option (R → V)
  | [], m => some m
  | s :: ss, m => (s.run asg arr j m).bind (runStmts asg arr j ss)
end

end Verif.Loops.Deps
