import Mathlib.Analysis.SpecialFunctions.Arsinh
import Mathlib.Analysis.SpecialFunctions.Pow.Real
import Mathlib.Analysis.SpecialFunctions.Sqrt
import Verif.Cg.Spec
import Verif.Paths.Spec
/-
Specification of solving an expression for a variable over the real numbers. Nothing here knows how
operations are inverted.
-/
namespace Verif.Solve
open Verif.Codegen Verif.Cg Verif.Paths

/-- the operations are those of the real numbers -/
structure RealI (I : Interp ℝ) : Prop where
  zero : I.zero = 0
  one : I.one = 1
  negOne : I.negOne = -1
  add : ∀ a b, I.add a b = a + b
  sub : ∀ a b, I.sub a b = a - b
  mul : ∀ a b, I.mul a b = a * b
  div : ∀ a b, I.div a b = a / b
  neg : ∀ a, I.neg a = -a
  pow : ∀ a b, I.pow a b = a ^ b
  exp : ∀ a, I.un .exp a = Real.exp a
  log : ∀ a, I.un .log a = Real.log a
  sqrt : ∀ a, I.un .sqrt a = Real.sqrt a
  cosh : ∀ a, I.un .cosh a = Real.cosh a
  sinh : ∀ a, I.un .sinh a = Real.sinh a
  tanh : ∀ a, I.un .tanh a = Real.tanh a
  eq : ∀ a b, I.cmp .eq a b = true ↔ a = b
  lt : ∀ a b, I.cmp .lt a b = true ↔ a < b
  gt : ∀ a b, I.cmp .gt a b = true ↔ a > b

/-- Operation `op` as a function of its argument number `i` alone, the others having the values `vs`,
takes a different value at `v` than at every other point of its principal domain, to which `v` belongs. -/
def Regular : Op → Nat → List ℝ → ℝ → Prop
  | .mul, 0, vs, _ => vs.getD 1 0 ≠ 0
  | .mul, _, vs, _ => vs.getD 0 0 ≠ 0
  | .div, 0, vs, _ => vs.getD 1 0 ≠ 0
  | .div, _, vs, v => vs.getD 0 0 ≠ 0 ∧ v ≠ 0
  | .pow, 0, _, _ => True
  | .pow, _, vs, _ => 0 < vs.getD 0 0 ∧ vs.getD 0 0 ≠ 1
  | .un .log, _, _, v => 0 < v
  | .un .sqrt, _, _, v => 0 ≤ v
  | .un .cosh, _, _, v => 0 ≤ v
  | _, _, _, _ => True

/-- The values operation `op` can take as a function of its argument number `i` alone, at regular
points, for the operations which can be solved. -/
def Attains : Op → Nat → List ℝ → ℝ → Prop
  | .add, _, _, _ | .sub, _, _, _ | .neg, _, _, _ | .alias, _, _, _ | .un .log, _, _, _ | .un .sinh, _, _, _ => True
  | .mul, 0, vs, _ => vs.getD 1 0 ≠ 0
  | .mul, _, vs, _ => vs.getD 0 0 ≠ 0
  | .div, 0, vs, _ => vs.getD 1 0 ≠ 0
  | .div, _, vs, p => vs.getD 0 0 ≠ 0 ∧ p ≠ 0
  | .pow, 0, vs, _ => vs.getD 1 0 = 1
  | .pow, _, vs, p => 0 < vs.getD 0 0 ∧ vs.getD 0 0 ≠ 1 ∧ 0 < p
  | .un .exp, _, _, p => 0 < p
  | .un .sqrt, _, _, p => 0 ≤ p
  | .un .cosh, _, _, p => 1 ≤ p
  | .un .tanh, _, _, p => -1 < p ∧ p < 1
  | _, _, _, _ => False

/-- Node `n` takes the value `p` if the node at the end of the route takes the value `q` (and everything
else has its value of `val`), every operation on the way being regular there. -/
inductive Need (I : Interp ℝ) (G : Graph ℝ) (val : Nat → ℝ) : Nat → List Nat → ℝ → ℝ → Prop
  | here {n : Nat} {p : ℝ} : Need I G val n [] p p
  | step {n i m : Nat} {is : List Nat} {p v q : ℝ} : (G n).args[i]? = some (.node m) →
      opSem I (G n).op (((G n).args.map (argVal val)).set i v) = some p →
      Regular (G n).op i ((G n).args.map (argVal val)) v → Need I G val m is v q →
      Need I G val n (i :: is) p q

/-- every operation on the route is regular at its present value -/
def RegularAlong (G : Graph ℝ) (val : Nat → ℝ) : Nat → List Nat → Prop
  | _, [] => True
  | n, i :: is =>
    match (G n).args[i]? with
    | some (.node m) => Regular (G n).op i ((G n).args.map (argVal val)) (val m) ∧ RegularAlong G val m is
    | _ => False

/-- the object has the value `p` -/
def Denotes {α : Type} (val : Nat → α) (node : Option Nat) (value : Option α) (p : α) : Prop :=
  match node with
  | some n => val n = p
  | none => value = some p

end Verif.Solve
