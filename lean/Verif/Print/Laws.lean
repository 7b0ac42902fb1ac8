import Verif.Print.CSem

/-
Laws of arithmetic used when a printed expression is read back, and the shapes of expressions for which
fewer laws or no overflow of `int` are needed.
-/
namespace Verif.Print

open Verif.Codegen (Interp Expr Stmt Cmp Graph Arg Reach)

variable {α : Type}

/-- laws which also hold for IEEE numbers up to the sign of zero (and except NaN): signs, and the exact
conversion of small integers -/
structure SignLaws (A : Arith α) : Prop where
  neg_neg : ∀ a, A.I.neg (A.I.neg a) = a
  add_neg : ∀ a b, A.I.add a b = A.I.sub a (A.I.neg b)
  sub_neg : ∀ a b, A.I.sub a b = A.I.add a (A.I.neg b)
  neg_mul : ∀ a b, A.I.mul (A.I.neg a) b = A.I.neg (A.I.mul a b)
  neg_div : ∀ a b, A.I.div (A.I.neg a) b = A.I.neg (A.I.div a b)
  neg_one : A.I.neg A.I.negOne = A.I.one
  zero_nonneg : A.I.cmp .ge A.I.zero A.I.zero = true
  one_nonneg : A.I.cmp .ge A.I.one A.I.zero = true
  negOne_neg : A.I.cmp .ge A.I.negOne A.I.zero = false
  one_ne_zero : A.I.one ≠ A.I.zero
  ofInt_zero : A.ofInt 0 = A.I.zero
  ofInt_one : A.ofInt 1 = A.I.one
  ofInt_neg : ∀ a : Int, a.natAbs < 2 ^ 31 → A.ofInt (-a) = A.I.neg (A.ofInt a)
  ofInt_add : ∀ a b : Int, a.natAbs < 2 ^ 31 → b.natAbs < 2 ^ 31 → (a + b).natAbs < 2 ^ 31 →
    A.ofInt (a + b) = A.I.add (A.ofInt a) (A.ofInt b)
  ofInt_sub : ∀ a b : Int, a.natAbs < 2 ^ 31 → b.natAbs < 2 ^ 31 → (a - b).natAbs < 2 ^ 31 →
    A.ofInt (a - b) = A.I.sub (A.ofInt a) (A.ofInt b)
  ofInt_mul : ∀ a b : Int, a.natAbs < 2 ^ 31 → b.natAbs < 2 ^ 31 → (a * b).natAbs < 2 ^ 31 →
    A.ofInt (a * b) = A.I.mul (A.ofInt a) (A.ofInt b)
  ofInt_cmp : ∀ (c : Cmp) (a b : Int), a.natAbs ≤ 2 ^ 31 → b.natAbs ≤ 2 ^ 31 → A.I.cmp c (A.ofInt a) (A.ofInt b) = intCmp c a b

/-- laws of exact arithmetic (not of floating point): associativity -/
structure AssocLaws (I : Interp α) : Prop where
  add_add : ∀ a b c, I.add a (I.add b c) = I.add (I.add a b) c
  add_sub : ∀ a b c, I.add a (I.sub b c) = I.sub (I.add a b) c
  mul_mul : ∀ a b c, I.mul a (I.mul b c) = I.mul (I.mul a b) c
  mul_div : ∀ a b c, I.mul a (I.div b c) = I.div (I.mul a b) c

variable [DecidableEq α]

/-- the constant is written without a decimal point -/
def intConst (I : Interp α) (v : α) : Bool := v = I.zero || v = I.one || I.neg v = I.zero || I.neg v = I.one

/-- the expression consists of constants 0, 1, -1, sign functions and operations on them only -/
def isInt (I : Interp α) : Expr α → Bool
  | .const v => intConst I v
  | .sgn _ => true
  | .neg a | .ali a | .asg a => isInt I a
  | .add a b | .sub a b | .mul a b | .div a b => isInt I a && isInt I b
  | .var _ | .un _ _ | .pow _ _ => false

/-- no operation has two operands of type `int` -/
def intSafe (I : Interp α) : Expr α → Bool
  | .const _ | .var _ | .sgn _ => true
  | .un _ a | .neg a | .ali a | .asg a => intSafe I a
  | .pow a b => intSafe I a && intSafe I b
  | .add a b | .sub a b | .mul a b | .div a b => intSafe I a && intSafe I b && !(isInt I a && isInt I b)

/-- number of constants and variables -/
def leaves : Expr α → Nat
  | .const _ | .var _ | .sgn _ => 1
  | .un _ a | .neg a | .ali a | .asg a => leaves a
  | .pow a b | .add a b | .sub a b | .mul a b | .div a b => leaves a + leaves b

/-- the printed form begins with a sum or difference -/
def isSum : Expr α → Bool
  | .ali a | .asg a => isSum a
  | .add _ _ | .sub _ _ => true
  | _ => false

/-- the printed form is a product or quotient which is not enclosed -/
def isProd : Expr α → Bool
  | .ali a => isProd a
  | .mul _ _ | .div _ _ => true
  | _ => false

/-- no right operand of a sum is a sum, no right operand of a product a product: the printed text groups
the operations as they were recorded -/
def grouped : Expr α → Bool
  | .const _ | .var _ | .sgn _ => true
  | .un _ a | .neg a | .ali a | .asg a => grouped a
  | .pow a b | .sub a b | .div a b => grouped a && grouped b
  | .add a b => grouped a && grouped b && !isSum b
  | .mul a b => grouped a && grouped b && !isProd b

/-- the right-hand sides and conditions of a statement -/
def stmtExprs : Stmt α → List (Expr α)
  | .assign _ e => [e]
  | .ite _ l r _ t f => [l, r, t, f]

/-- every expression of a program has a property -/
def AllExprs (P : Expr α → Prop) (prog : List (Stmt α)) : Prop := ∀ s ∈ prog, ∀ e ∈ stmtExprs s, P e

/-- an argument which may be printed as an `int`: a constant 0, 1 or -1, a sign function, and operations on such -/
inductive IntLike (I : Interp α) (G : Graph α) : Arg α → Prop
  | const {v : α} : intConst I v = true → IntLike I G (.param v)
  | sign {n : Nat} : (G n).op = .sign → IntLike I G (.node n)
  | pass {n : Nat} {a : Arg α} : (G n).op = .assign ∨ (G n).op = .alias ∨ (G n).op = .neg → (G n).args = [a] →
      IntLike I G a → IntLike I G (.node n)
  | bin {n : Nat} {a b : Arg α} : (G n).op = .add ∨ (G n).op = .sub ∨ (G n).op = .mul ∨ (G n).op = .div → (G n).args = [a, b] →
      IntLike I G a → IntLike I G b → IntLike I G (.node n)

/-- no operation needed by the dependents has two operands which may be printed as `int`s -/
def IntSafeGraph (I : Interp α) (G : Graph α) (roots : List Nat) : Prop :=
  ∀ (n : Nat) (a b : Arg α), Reach G roots n → (G n).op = .add ∨ (G n).op = .sub ∨ (G n).op = .mul ∨ (G n).op = .div →
    (G n).args = [a, b] → ¬ (IntLike I G a ∧ IntLike I G b)

end Verif.Print
