import Verif.Solve.Spec
/-
Specification of collecting the occurrences of a variable over the real numbers. Nothing here knows how
the code finds coefficients.
-/
namespace Verif.Solve
open Verif.Codegen Verif.Cg Verif.Paths

/-- every operation on the route is an addition, subtraction, multiplication, change of sign, alias or
the division of the argument taken -/
def Linear {α : Type} (G : Graph α) : Nat → List Nat → Prop
  | _, [] => True
  | n, i :: is =>
    match (G n).args[i]? with
    | some (.node m) =>
      ((G n).op ∈ [.add, .sub, .mul, .neg, .alias] ∨ ((G n).op = .div ∧ i = 0)) ∧ Linear G m is
    | _ => False

/-- the denominators on the route are not zero -/
def Divisible (G : Graph ℝ) (val : Nat → ℝ) : Nat → List Nat → Prop
  | _, [] => True
  | n, i :: is =>
    match (G n).args[i]? with
    | some (.node m) =>
      ((G n).op = .div → ((G n).args.map (argVal val)).getD 1 0 ≠ 0) ∧ Divisible G val m is
    | _ => False

/-- Factor by which operation `op` passes on a change of its argument number `i`. -/
noncomputable def passes (op : Op) (i : Nat) (vs : List ℝ) : ℝ :=
  match op, i with
  | .add, _ | .alias, _ => 1
  | .neg, _ => -1
  | .sub, 0 => 1
  | .sub, _ => -1
  | .mul, 0 => vs.getD 1 0
  | .mul, _ => vs.getD 0 0
  | .div, 0 => (vs.getD 1 0)⁻¹
  | _, _ => 0

/-- the coefficient of the end of the route in its start -/
noncomputable def coefficient (G : Graph ℝ) (val : Nat → ℝ) : Nat → List Nat → ℝ
  | _, [] => 1
  | n, i :: is =>
    match (G n).args[i]? with
    | some (.node m) => passes (G n).op i ((G n).args.map (argVal val)) * coefficient G val m is
    | _ => 0

/-- Every subtraction on the route is entered by the argument of the same number as the operation before
it (`prev` for the first one). -/
def SameSides {α : Type} (G : Graph α) : Nat → Nat → List Nat → Prop
  | _, _, [] => True
  | prev, n, i :: is =>
    match (G n).args[i]? with
    | some (.node m) => ((G n).op = .sub → (prev = 1 ↔ i = 1)) ∧ SameSides G i m is
    | _ => False

/-- no operation between `root` and `n` divides by zero -/
def DivisibleAbove (G : Graph ℝ) (val : Nat → ℝ) (root n : Nat) : Prop :=
  ∀ m, (∃ r, Route G root r m) → (∃ r, Route G m r n) → m ≠ n → (G m).op = .div →
    ((G m).args.map (argVal val)).getD 1 0 ≠ 0

end Verif.Solve
