import Verif.CExpr.Syntax
import Verif.Codegen.Spec

/-
What a text of C assignments means: C arithmetic with the types `int` and `double`, statements and the
reading of statements from tokens. Nothing here knows how the generator prints.
-/
namespace Verif.Print

open Verif.CExpr
open Verif.Codegen (Interp Fn Cmp)

/-- literals: `12` is an `int`, `12.`, `1.5` and `1e+20` are `double`s -/
inductive Lit (α : Type)
  | int (n : Nat)
  | real (v : α)
deriving DecidableEq, Repr

/-- arithmetic of `double` with the conversion from `int` -/
structure Arith (α : Type) where
  I : Interp α
  ofInt : Int → α

/-- types of C expressions -/
inductive Ty | int | double
deriving DecidableEq, Repr

/-- usual arithmetic conversions -/
def Ty.join : Ty → Ty → Ty
  | .int, .int => .int
  | _, _ => .double

/-- comparison of an operator -/
def cmpOf : Op → Option Cmp
  | .lt => some .lt
  | .le => some .le
  | .gt => some .gt
  | .ge => some .ge
  | .eq => some .eq
  | .ne => some .ne
  | _ => none

/-- comparison of integers -/
def intCmp : Cmp → Int → Int → Bool
  | .lt, a, b => a < b
  | .le, a, b => a ≤ b
  | .eq, a, b => a = b
  | .ge, a, b => b ≤ a
  | .gt, a, b => b < a
  | .ne, a, b => a ≠ b

variable {α : Type}

/-- type of an expression -/
def ty : Tree (Lit α) → Ty
  | .num (.int _) => .int
  | .num (.real _) => .double
  | .id _ => .double
  | .idx _ _ => .double
  | .call1 _ _ => .double
  | .call2 _ _ _ => .double
  | .paren t => ty t
  | .neg t => ty t
  | .cond _ b c => (ty b).join (ty c)
  | .bin o a b => match cmpOf o with
    | some _ => .int
    | none => (ty a).join (ty b)

/-- values -/
inductive Val (α : Type)
  | int (z : Int)
  | dbl (v : α)
deriving DecidableEq, Repr

/-- conversion to `double` -/
def Val.toD (A : Arith α) : Val α → α
  | .int z => A.ofInt z
  | .dbl v => v

/-- conversion to a type which is not narrower -/
def Val.conv (A : Arith α) (t : Ty) (v : Val α) : Val α :=
  match t with
  | .int => v
  | .double => .dbl (v.toD A)

/-- an `int`, or undefined behaviour -/
def intRes (z : Int) : Option (Val α) := if -2 ^ 31 ≤ z ∧ z < 2 ^ 31 then some (.int z) else none

/-- a truth value -/
def boolVal (b : Bool) : Val α := .int (if b then 1 else 0)

/-- binary operators: overflow and division by zero of `int` are undefined, `&&` and `||` are not used -/
def binVal (A : Arith α) : Op → Val α → Val α → Option (Val α)
  | .add, .int a, .int b => intRes (a + b)
  | .sub, .int a, .int b => intRes (a - b)
  | .mul, .int a, .int b => intRes (a * b)
  | .div, .int a, .int b => if b = 0 then none else intRes (a.tdiv b)
  | .add, u, v => some (.dbl (A.I.add (u.toD A) (v.toD A)))
  | .sub, u, v => some (.dbl (A.I.sub (u.toD A) (v.toD A)))
  | .mul, u, v => some (.dbl (A.I.mul (u.toD A) (v.toD A)))
  | .div, u, v => some (.dbl (A.I.div (u.toD A) (v.toD A)))
  | .lt, .int a, .int b => some (boolVal (intCmp .lt a b))
  | .le, .int a, .int b => some (boolVal (intCmp .le a b))
  | .gt, .int a, .int b => some (boolVal (intCmp .gt a b))
  | .ge, .int a, .int b => some (boolVal (intCmp .ge a b))
  | .eq, .int a, .int b => some (boolVal (intCmp .eq a b))
  | .ne, .int a, .int b => some (boolVal (intCmp .ne a b))
  | .lt, u, v => some (boolVal (A.I.cmp .lt (u.toD A) (v.toD A)))
  | .le, u, v => some (boolVal (A.I.cmp .le (u.toD A) (v.toD A)))
  | .gt, u, v => some (boolVal (A.I.cmp .gt (u.toD A) (v.toD A)))
  | .ge, u, v => some (boolVal (A.I.cmp .ge (u.toD A) (v.toD A)))
  | .eq, u, v => some (boolVal (A.I.cmp .eq (u.toD A) (v.toD A)))
  | .ne, u, v => some (boolVal (A.I.cmp .ne (u.toD A) (v.toD A)))
  | .and, _, _ => none
  | .or, _, _ => none

/-- sign -/
def negVal (A : Arith α) : Val α → Option (Val α)
  | .int a => intRes (-a)
  | .dbl v => some (.dbl (A.I.neg v))

/-- functions of `math.h` -/
def mathFn : String → Option Fn
  | "fabs" => some .abs
  | "acos" => some .acos
  | "acosh" => some .acosh
  | "asin" => some .asin
  | "asinh" => some .asinh
  | "atan" => some .atan
  | "atanh" => some .atanh
  | "cosh" => some .cosh
  | "cos" => some .cos
  | "erf" => some .erf
  | "erfc" => some .erfc
  | "exp" => some .exp
  | "expm1" => some .expm1
  | "log" => some .log
  | "log1p" => some .log1p
  | "sinh" => some .sinh
  | "sin" => some .sin
  | "sqrt" => some .sqrt
  | "tanh" => some .tanh
  | "tan" => some .tan
  | _ => none

/-- memory: arrays of `double`s (`none`: not initialised) and index variables -/
structure CEnv (α : Type) where
  arr : String → Nat → Option α
  ind : String → Option Nat

/-- position meant by a subscript: a literal or an index variable -/
def CEnv.pos (env : CEnv α) : Tree (Lit α) → Option Nat
  | .num (.int k) => some k
  | .id v => env.ind v
  | _ => none

/-- value of an expression; `none` is undefined behaviour -/
def ceval (A : Arith α) (env : CEnv α) : Tree (Lit α) → Option (Val α)
  | .num (.int n) => intRes n
  | .num (.real v) => some (.dbl v)
  | .id _ => none
  | .idx (.id s) i => (env.pos i).bind fun k => (env.arr s k).map .dbl
  | .idx _ _ => none
  | .call1 f a => match mathFn f, ceval A env a with
    | some g, some v => some (.dbl (A.I.un g (v.toD A)))
    | _, _ => none
  | .call2 f a b => if f = "pow" then
      match ceval A env a, ceval A env b with
      | some u, some v => some (.dbl (A.I.pow (u.toD A) (v.toD A)))
      | _, _ => none
    else none
  | .paren t => ceval A env t
  | .neg t => (ceval A env t).bind (negVal A)
  | .cond a b c => match ceval A env a with
    | some (.int z) => (if z ≠ 0 then ceval A env b else ceval A env c).map fun v => v.conv A ((ty b).join (ty c))
    | _ => none
  | .bin o a b => match ceval A env a, ceval A env b with
    | some u, some v => binVal A o u v
    | _, _ => none

/-! ### statements -/

/-- tokens of statements -/
inductive STok (α : Type)
  | tok (t : Tok (Lit α))
  | assign | semi | lbrace | rbrace | kwIf | kwElse | kwFor | incr
deriving DecidableEq, Repr

/-- statements: assignment, if with assignments, a counting loop around an assignment -/
inductive CStmt (α : Type)
  | assign (l r : Tree (Lit α))
  | ite (c : Tree (Lit α)) (l1 r1 l2 r2 : Tree (Lit α))
  | loop (i : String) (n : Nat) (l r : Tree (Lit α))
deriving DecidableEq, Repr

/-- expression tokens as part of a statement -/
def emb (ts : List (Tok (Lit α))) : List (STok α) := ts.map .tok

/-- the grammar of statements -/
inductive ReadsS : List (STok α) → List (CStmt α) → Prop
  | nil : ReadsS [] []
  | assign {tl tr : List (Tok (Lit α))} {l r : Tree (Lit α)} {rest : List (STok α)} {ss : List (CStmt α)} :
      Reads tl l → Reads tr r → ReadsS rest ss → ReadsS (emb tl ++ .assign :: emb tr ++ .semi :: rest) (.assign l r :: ss)
  | ite {tc tl1 tr1 tl2 tr2 : List (Tok (Lit α))} {c l1 r1 l2 r2 : Tree (Lit α)} {rest : List (STok α)} {ss : List (CStmt α)} :
      Reads tc c → Reads tl1 l1 → Reads tr1 r1 → Reads tl2 l2 → Reads tr2 r2 → ReadsS rest ss →
      ReadsS (.kwIf :: .tok .lp :: emb tc ++ .tok .rp :: .lbrace :: emb tl1 ++ .assign :: emb tr1 ++ .semi :: .rbrace ::
        .kwElse :: .lbrace :: emb tl2 ++ .assign :: emb tr2 ++ .semi :: .rbrace :: rest) (.ite c l1 r1 l2 r2 :: ss)
  | loop {i : String} {n : Nat} {tl tr : List (Tok (Lit α))} {l r : Tree (Lit α)} {rest : List (STok α)} {ss : List (CStmt α)} :
      Reads tl l → Reads tr r → ReadsS rest ss →
      ReadsS (.kwFor :: .tok .lp :: .tok (.id i) :: .assign :: .tok (.num (.int 0)) :: .semi :: .tok (.id i) :: .tok (.op .lt) ::
        .tok (.num (.int n)) :: .semi :: .tok (.id i) :: .incr :: .tok .rp :: emb tl ++ .assign :: emb tr ++ .semi :: rest)
        (.loop i n l r :: ss)

/-- write of an array element -/
def CEnv.set (env : CEnv α) (s : String) (k : Nat) (v : α) : CEnv α :=
  { env with arr := fun s' k' => if s' = s ∧ k' = k then some v else env.arr s' k' }

/-- assignment to an array element; the value is converted to `double` -/
def assignC (A : Arith α) (env : CEnv α) : Tree (Lit α) → Tree (Lit α) → Option (CEnv α)
  | .idx (.id s) i, r => match env.pos i, ceval A env r with
    | some k, some v => some (env.set s k (v.toD A))
    | _, _ => none
  | _, _ => none

/-- the loop from `k` on, `n` more rounds -/
def loopC (A : Arith α) (i : String) (l r : Tree (Lit α)) : Nat → Nat → CEnv α → Option (CEnv α)
  | 0, _, env => some env
  | n + 1, k, env =>
    (assignC A { env with ind := fun v => if v = i then some k else env.ind v } l r).bind fun env' => loopC A i l r n (k + 1) env'

/-- execution of a statement -/
def CStmt.exec (A : Arith α) (env : CEnv α) : CStmt α → Option (CEnv α)
  | .assign l r => assignC A env l r
  | .ite c l1 r1 l2 r2 => match ceval A env c with
    | some (.int z) => if z ≠ 0 then assignC A env l1 r1 else assignC A env l2 r2
    | _ => none
  | .loop i n l r => loopC A i l r n 0 env

/-- execution of a function body -/
def execC (A : Arith α) : CEnv α → List (CStmt α) → Option (CEnv α)
  | env, [] => some env
  | env, s :: ss => (s.exec A env).bind fun env' => execC A env' ss

end Verif.Print
