import Mathlib.Algebra.Ring.Defs
import Mathlib.Algebra.Ring.Int.Defs

/-
How formulas which are displayed on paper or on a screen are read, and what recorded expressions mean.
Nothing here knows how the generators of LaTeX and MathML print.

There are two steps. The text of a formula is typeset: braces and `mrow` elements are not visible, what is
raised, over or under a line or under a root is (`TexShows`, `MmlShows`). What is visible is then read with
the usual conventions: products are written without or with a sign, a sign at the beginning of a sum or after
an operator belongs to the following product, a raised expression belongs to the one number, name, function
value or parenthesis before it, and two numbers without a sign between them are not two numbers.
-/
namespace Verif.Formula

/-- functions with one argument -/
inductive Fn
  | abs | acos | acosh | asin | asinh | atan | atanh | cosh | cos | erf | erfc | exp | expm1 | log | log1p
  | sign | sinh | sin | sqrt | tanh | tan
deriving DecidableEq, Repr

/-- variables: independent, dependent and temporary -/
inductive Name
  | x (i : Nat) | y (i : Nat) | v (i : Nat)
deriving DecidableEq, Repr

/-- what is visible -/
inductive Item (α : Type)
  | num (v : α)
  | sym (n : Name)
  | plus | minus | times
  /-- an expression in parentheses -/
  | group (a : List (Item α))
  /-- a raised expression -/
  | sup (a : List (Item α))
  | frac (a b : List (Item α))
  | sqrt (a : List (Item α))
  /-- an expression between bars -/
  | bars (a : List (Item α))
  /-- the name of a function -/
  | fn (s : String)

/-- the functions meant by their usual names -/
def fnOf : String → Option Fn
  | "abs" => some .abs
  | "arccos" | "acos" => some .acos
  | "arccosh" | "acosh" => some .acosh
  | "arcsin" | "asin" => some .asin
  | "arcsinh" | "asinh" => some .asinh
  | "arctan" | "atan" => some .atan
  | "arctanh" | "atanh" => some .atanh
  | "cosh" => some .cosh
  | "cos" => some .cos
  | "erf" => some .erf
  | "erfc" => some .erfc
  | "exp" => some .exp
  | "expm1" => some .expm1
  | "ln" => some .log
  | "log1p" => some .log1p
  | "sgn" => some .sign
  | "sinh" => some .sinh
  | "sin" => some .sin
  | "tanh" => some .tanh
  | "tan" => some .tan
  | _ => none

/-- an interpretation: values of functions, quotients, powers and variables -/
structure Interp (α : Type) where
  un : Fn → α → α
  div : α → α → α
  pow : α → α → α
  env : Name → α

variable {α : Type}

/-- what the reader is doing: reading a sum, continuing a sum, continuing a product, reading one factor,
reading a product which may have a sign -/
inductive Mode (α : Type)
  | sum
  | sumLoop (acc : α)
  | signed
  | prodLoop (acc : α)
  | factor
  | base (v : α)

variable [CommRing α]

/-- the reader of what is visible -/
def read (I : Interp α) : Nat → Mode α → List (Item α) → Option (α × List (Item α))
  | 0, _, _ => none
  | n + 1, .sum, is =>
    match read I n .signed is with
    | some (v, r) => read I n (.sumLoop v) r
    | none => none
  | n + 1, .sumLoop acc, is =>
    match is with
    | [] => some (acc, [])
    | .plus :: r =>
      match read I n .signed r with
      | some (v, r) => read I n (.sumLoop (acc + v)) r
      | none => none
    | .minus :: r =>
      match read I n .signed r with
      | some (v, r) => read I n (.sumLoop (acc - v)) r
      | none => none
    | _ => none
  | n + 1, .signed, is =>
    match is with
    | .minus :: r =>
      match read I n .factor r with
      | some (v, r) =>
        match read I n (.prodLoop v) r with
        | some (v, r) => some (-v, r)
        | none => none
      | none => none
    | .plus :: r =>
      match read I n .factor r with
      | some (v, r) => read I n (.prodLoop v) r
      | none => none
    | is =>
      match read I n .factor is with
      | some (v, r) => read I n (.prodLoop v) r
      | none => none
  | n + 1, .prodLoop acc, is =>
    match is with
    | [] => some (acc, [])
    | .plus :: _ => some (acc, is)
    | .minus :: _ => some (acc, is)
    | .times :: r =>
      match read I n .factor r with
      | some (v, r) => read I n (.prodLoop (acc * v)) r
      | none => none
    | is =>
      match read I n .factor is with
      | some (v, r) => read I n (.prodLoop (acc * v)) r
      | none => none
  | n + 1, .factor, is =>
    match is with
    | .num _ :: .num _ :: _ => none
    | .num v :: r => read I n (.base v) r
    | .sym s :: r => read I n (.base (I.env s)) r
    | .group a :: r =>
      match read I n .sum a with
      | some (v, []) => read I n (.base v) r
      | _ => none
    | .sqrt a :: r =>
      match read I n .sum a with
      | some (v, []) => read I n (.base (I.un .sqrt v)) r
      | _ => none
    | .bars a :: r =>
      match read I n .sum a with
      | some (v, []) => read I n (.base (I.un .abs v)) r
      | _ => none
    | .fn s :: .group a :: r =>
      match fnOf s, read I n .sum a with
      | some f, some (v, []) => read I n (.base (I.un f v)) r
      | _, _ => none
    | .frac a b :: r =>
      match read I n .sum a, read I n .sum b with
      | some (v, []), some (w, []) => some (I.div v w, r)
      | _, _ => none
    | _ => none
  | n + 1, .base v, is =>
    match is with
    | .sup e :: r =>
      match read I n .sum e with
      | some (w, []) => some (I.pow v w, r)
      | _ => none
    | is => some (v, is)

/-- the visible formula has the value `v` -/
def Means (I : Interp α) (is : List (Item α)) (v : α) : Prop :=
  ∃ n, ∀ m, n ≤ m → read I m .sum is = some (v, [])

/-! ### LaTeX -/

/-- the parts of a LaTeX formula -/
inductive Tex (α : Type)
  | lbrace | rbrace
  /-- `^` -/
  | hat
  /-- `\left(` and `\right)` -/
  | lpar | rpar
  | plus | minus | times
  | frac | sqrt | abs
  /-- the name of a function (`\\cos`, `\\operatorname{erf}`) -/
  | fn (s : String)
  | num (v : α)
  | sym (n : Name)

/-- typesetting of one part, or of all parts up to the end or a closing brace or parenthesis -/
def tex : Nat → Bool → List (Tex α) → Option (List (Item α) × List (Tex α))
  | 0, _, _ => none
  | n + 1, true, ts =>
    match ts with
    | [] => some ([], [])
    | .rbrace :: r => some ([], .rbrace :: r)
    | .rpar :: r => some ([], .rpar :: r)
    | ts =>
      match tex n false ts with
      | some (a, r) =>
        match tex n true r with
        | some (b, r) => some (a ++ b, r)
        | none => none
      | none => none
  | n + 1, false, ts =>
    match ts with
    | .plus :: r => some ([.plus], r)
    | .minus :: r => some ([.minus], r)
    | .times :: r => some ([.times], r)
    | .fn s :: r => some ([.fn s], r)
    | .num v :: r => some ([.num v], r)
    | .sym s :: r => some ([.sym s], r)
    | .lbrace :: r =>
      match tex n true r with
      | some (a, .rbrace :: r) => some (a, r)
      | _ => none
    | .lpar :: r =>
      match tex n true r with
      | some (a, .rpar :: r) => some ([.group a], r)
      | _ => none
    | .hat :: .lbrace :: r =>
      match tex n true r with
      | some (a, .rbrace :: r) => some ([.sup a], r)
      | _ => none
    | .sqrt :: .lbrace :: r =>
      match tex n true r with
      | some (a, .rbrace :: r) => some ([.sqrt a], r)
      | _ => none
    | .abs :: .lbrace :: r =>
      match tex n true r with
      | some (a, .rbrace :: r) => some ([.bars a], r)
      | _ => none
    | .frac :: .lbrace :: r =>
      match tex n true r with
      | some (a, .rbrace :: .lbrace :: r) =>
        match tex n true r with
        | some (b, .rbrace :: r) => some ([.frac a b], r)
        | _ => none
      | _ => none
    | _ => none

/-- what LaTeX displays -/
def TexShows (ts : List (Tex α)) (is : List (Item α)) : Prop := ∃ n, ∀ m, n ≤ m → tex m true ts = some (is, [])

/-- the value of a LaTeX formula -/
def TexMeans (I : Interp α) (ts : List (Tex α)) (v : α) : Prop := ∃ is, TexShows ts is ∧ Means I is v

/-! ### MathML -/

/-- elements -/
inductive Tag | mrow | mfenced | msup | mfrac | msqrt
deriving DecidableEq, Repr

/-- the parts of a MathML formula; a number can have a sign; `apply` and `it` are the function application
and the multiplication which are not visible -/
inductive Mml (α : Type)
  | start (t : Tag) | stop (t : Tag)
  | plus | minus | times | it | apply
  | fn (s : String)
  | mn (neg : Bool) (v : α)
  | sym (n : Name)

/-- typesetting of one element, or of all elements up to the end of the element they are in -/
def mml : Nat → Bool → List (Mml α) → Option (List (Item α) × List (Mml α))
  | 0, _, _ => none
  | n + 1, true, ts =>
    match ts with
    | [] => some ([], [])
    | .stop t :: r => some ([], .stop t :: r)
    | ts =>
      match mml n false ts with
      | some (a, r) =>
        match mml n true r with
        | some (b, r) => some (a ++ b, r)
        | none => none
      | none => none
  | n + 1, false, ts =>
    match ts with
    | .plus :: r => some ([.plus], r)
    | .minus :: r => some ([.minus], r)
    | .times :: r => some ([.times], r)
    | .it :: r => some ([], r)
    | .apply :: r => some ([], r)
    | .fn s :: r => some ([.fn s], r)
    | .mn neg v :: r => some (if neg then [.minus, .num v] else [.num v], r)
    | .sym s :: r => some ([.sym s], r)
    | .start .mrow :: r =>
      match mml n true r with
      | some (a, .stop .mrow :: r) => some (a, r)
      | _ => none
    | .start .mfenced :: r =>
      match mml n true r with
      | some (a, .stop .mfenced :: r) => some ([.group a], r)
      | _ => none
    | .start .msqrt :: r =>
      match mml n true r with
      | some (a, .stop .msqrt :: r) => some ([.sqrt a], r)
      | _ => none
    | .start .msup :: r =>
      match mml n false r with
      | some (a, r) =>
        match mml n false r with
        | some (b, .stop .msup :: r) => some (a ++ [.sup b], r)
        | _ => none
      | none => none
    | .start .mfrac :: r =>
      match mml n false r with
      | some (a, r) =>
        match mml n false r with
        | some (b, .stop .mfrac :: r) => some ([.frac a b], r)
        | _ => none
      | none => none
    | _ => none

/-- what MathML displays -/
def MmlShows (ts : List (Mml α)) (is : List (Item α)) : Prop := ∃ n, ∀ m, n ≤ m → mml m true ts = some (is, [])

/-- the value of a MathML formula -/
def MmlMeans (I : Interp α) (ts : List (Mml α)) (v : α) : Prop := ∃ is, MmlShows ts is ∧ Means I is v

/-! ### recorded expressions -/

/-- an operation with the operations in it which have no variable of their own -/
inductive Expr (α : Type)
  | const (v : α)
  | var (n : Name)
  | un (f : Fn) (a : Expr α)
  | add (a b : Expr α)
  | sub (a b : Expr α)
  | mul (a b : Expr α)
  | div (a b : Expr α)
  | pow (a b : Expr α)
  | neg (a : Expr α)
  | ali (a : Expr α)
  | asg (a : Expr α)
deriving DecidableEq, Repr

/-- the value of an operation -/
def Expr.value (I : Interp α) : Expr α → α
  | .const v => v
  | .var n => I.env n
  | .un f a => I.un f (a.value I)
  | .add a b => a.value I + b.value I
  | .sub a b => a.value I - b.value I
  | .mul a b => a.value I * b.value I
  | .div a b => I.div (a.value I) (b.value I)
  | .pow a b => I.pow (a.value I) (b.value I)
  | .neg a => -a.value I
  | .ali a => a.value I
  | .asg a => a.value I

/-- the sign of numbers and their decimal digits: digits, and the sign and digits of the exponent when there is
one -/
structure Format (α : Type) where
  negative : α → Bool
  digits : α → α × Option (Bool × Nat)

/-- what digits mean: a number which is not negative is given by its digits and its exponent -/
structure Format.Right (F : Format α) (I : Interp α) : Prop where
  neg : ∀ v, F.negative v = true → F.negative (-v) = false
  plain : ∀ v m, F.negative v = false → F.digits v = (m, none) → m = v
  expo : ∀ v m s e, F.negative v = false → F.digits v = (m, some (s, e)) →
    m * I.pow 10 (if s then -(e : α) else (e : α)) = v

/-- what the aliases before it lead to -/
def Expr.target : Expr α → Expr α
  | .ali a => a.target
  | e => e

/-- no alias leads to a negative number -/
def AliasesRight (F : Format α) : Expr α → Prop
  | .const _ | .var _ => True
  | .un _ a | .neg a | .asg a => AliasesRight F a
  | .add a b | .sub a b | .mul a b | .div a b | .pow a b => AliasesRight F a ∧ AliasesRight F b
  | .ali a => AliasesRight F a ∧ ∀ v, a.target = .const v → F.negative v = false

/-- no power has a base which is a power, a negative number or a number with an exponent -/
def BasesRight (F : Format α) : Expr α → Prop
  | .const _ | .var _ => True
  | .un _ a | .neg a | .asg a | .ali a => BasesRight F a
  | .add a b | .sub a b | .mul a b | .div a b => BasesRight F a ∧ BasesRight F b
  | .pow a b => BasesRight F a ∧ BasesRight F b ∧ (∀ c d, a.target ≠ .pow c d) ∧
      ∀ v, a.target = .const v → F.negative v = false ∧ (F.digits v).2 = none

/-! ### tests of the reader -/

section Tests

/-- integers, with truncated powers -/
def testI (x y : Int) : Interp Int where
  un _ a := a
  div a b := a / b
  pow a b := a ^ b.toNat
  env := fun n => match n with | .x _ => x | .y _ => y | .v _ => 0

/-- `-2x^2 + -3y - 1` -/
example : read (testI 5 7) 30 .sum [.minus, .num 2, .sym (.x 0), .sup [.num 2], .plus, .minus, .num 3, .sym (.y 0), .minus, .num 1]
    = some (-2 * 5 ^ 2 + -3 * 7 - 1, []) := rfl
/-- `2 3` is not read, `2 × 3` is -/
example : read (testI 5 7) 30 .sum [.num 2, .num 3] = none := rfl
example : read (testI 5 7) 30 .sum [.num 2, .times, .num 3] = some (6, []) := rfl
/-- `-2` raised: the sign belongs to the power -/
example : read (testI 5 7) 30 .sum [.minus, .num 2, .sup [.num 2]] = some (-4, []) := rfl
/-- two raised expressions are not read -/
example : read (testI 5 7) 30 .sum [.sym (.x 0), .sup [.num 2], .sup [.num 3]] = none := rfl
/-- braces are not visible -/
example : tex 30 true [Tex.lbrace, .minus, .num (2 : Int), .rbrace, .hat, .lbrace, .num 2, .rbrace]
    = some ([.minus, .num 2, .sup [.num 2]], []) := rfl

end Tests

end Verif.Formula
