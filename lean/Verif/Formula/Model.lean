import Verif.Formula.Spec

/-
Model of the printing of expressions by `LanguageLatex` and `LanguageMathML`,
/repo/include/cppad/cg/lang/latex/language_latex.hpp l.1199-1232, 1384-1657, 2069-2089 and
/repo/include/cppad/cg/lang/mathml/language_mathml.hpp l.1355-1633, 2054-2081.

The text is a list of parts; blanks, `\mathopen{}`, `\mathclose{}` and the environments around names
(`\begin{CGVar}`, `<mrow class=...>`) are left out, a name is one part. The digits of a number are given by a
`Format`: `os << std::setprecision(...) << value` with the text split at `e`, without the zeros at the
beginning of the exponent.
-/
namespace Verif.Formula

variable {α : Type} [CommRing α]

/-- settings: `_powBaseEnclose` (default `false`) and whether `_multOpStr` is visible (default: not) -/
structure Opts where
  enclose : Bool
  visible : Bool

def Opts.default : Opts := ⟨false, false⟩

/-- the node reached through aliases; a parameter is the null pointer. latex l.1574-1582, 1469-1477 -/
def strip : Expr α → Expr α
  | .ali a => strip a
  | e => e

/-- `encloseInParenthesesMul` for nodes, latex l.1573-1588, mathml l.1550-1565 -/
def encloseMulNode (e : Expr α) : Bool := match strip e with
  | .const _ | .var _ | .div _ _ | .mul _ _ | .un _ _ | .pow _ _ => false
  | _ => true

/-- `encloseInParenthesesMul` for arguments, latex l.1565-1571, mathml l.1542-1548 -/
def encloseMul (F : Format α) (e : Expr α) : Bool := match e with
  | .const v => F.negative v
  | e => encloseMulNode e

/-- `encloseInParentheses` of powers, latex l.1469-1481, mathml l.1441-1452 -/
def enclosePow (e : Expr α) : Bool := match strip e with
  | .const _ | .var _ | .un _ _ | .pow _ _ => false
  | _ => true

/-- `isNumber`, latex l.1599-1617, mathml l.1576-1594; `right` is `pos == 1` -/
def isNumber (right : Bool) : Expr α → Bool
  | .const _ => true
  | .ali a => isNumber right a
  | .mul a b => if right then isNumber right b else isNumber right a
  | .pow a _ => if right then false else isNumber right a
  | _ => false

/-- a parameter given directly which is negative, latex l.1512, 1530 -/
def negParam (F : Format α) : Expr α → Option α
  | .const v => if F.negative v then some v else none
  | _ => none

/-! ### LaTeX -/

/-- digits, l.2074-2087: ` \times 10^{` is put in the place of `e`; the sign of the exponent is kept -/
def texDigits (F : Format α) (v : α) : List (Tex α) :=
  match F.digits v with
  | (m, none) => [.num m]
  | (m, some (s, e)) => [.num m, .times, .num 10, .hat, .lbrace, if s then .minus else .plus, .num (e : α), .rbrace]

/-- `printParameter`, l.2069-2090 -/
def texParam (F : Format α) (v : α) : List (Tex α) :=
  if F.negative v then .minus :: texDigits F (-v) else texDigits F v

/-- optional parentheses -/
def texEnclosed (b : Bool) (ts : List (Tex α)) : List (Tex α) := if b then .lpar :: ts ++ [.rpar] else ts

/-- the names of functions, l.1393-1459; the absolute value and the root have no names -/
def texName : Fn → String
  | .abs => ""
  | .acos => "arccos"
  | .asin => "arcsin"
  | .atan => "arctan"
  | .cosh => "cosh"
  | .cos => "cos"
  | .exp => "exp"
  | .log => "ln"
  | .sinh => "sinh"
  | .sign => "sgn"
  | .sin => "sin"
  | .sqrt => ""
  | .tanh => "tanh"
  | .tan => "tan"
  | .erf => "erf"
  | .erfc => "erfc"
  | .asinh => "arcsinh"
  | .acosh => "arccosh"
  | .atanh => "arctanh"
  | .expm1 => "expm1"
  | .log1p => "log1p"

/-- `printUnaryFunction`, l.1384-1464 -/
def texUn (f : Fn) (ts : List (Tex α)) : List (Tex α) :=
  match f with
  | .abs => .abs :: .lbrace :: ts ++ [.rbrace]
  | .sqrt => .sqrt :: .lbrace :: ts ++ [.rbrace]
  | f => .fn (texName f) :: .lpar :: ts ++ [.rpar]

/-- the sign between two factors, l.1627-1630 -/
def texMul (O : Opts) (a b : Expr α) : List (Tex α) :=
  if isNumber true a && isNumber false b then [.times] else if O.visible then [.times] else []

/-- `printExpression` and the functions it calls, l.1199-1657 -/
def latex (F : Format α) (O : Opts) : Expr α → List (Tex α)
  | .const v => texParam F v
  | .var n => [.sym n]
  | .un f a => texUn f (latex F O a)
  | .pow a b => .lbrace :: texEnclosed (O.enclose || enclosePow a) (latex F O a) ++ .rbrace :: .hat :: .lbrace ::
      texEnclosed (enclosePow b) (latex F O b) ++ [.rbrace]
  | .add a b => match negParam F b with
    | none => latex F O a ++ .plus :: latex F O b
    | some v => latex F O a ++ .minus :: texParam F (-v)
  | .sub a b => match negParam F b with
    | none => latex F O a ++ .minus :: texEnclosed (encloseMul F b) (latex F O b)
    | some v => latex F O a ++ .plus :: texParam F (-v)
  | .div a b => .frac :: .lbrace :: latex F O a ++ .rbrace :: .lbrace :: latex F O b ++ [.rbrace]
  | .mul a b => texEnclosed (encloseMul F a) (latex F O a) ++ texMul O a b ++ texEnclosed (encloseMul F b) (latex F O b)
  | .neg a => .minus :: texEnclosed (encloseMul F a) (latex F O a)
  | .ali a => latex F O a
  | .asg a => latex F O a

/-! ### MathML -/

/-- `printParameter`, l.2054-2081: the sign is in the `mn` element, a `+` of the exponent is left out -/
def mmlParam (F : Format α) (v : α) : List (Mml α) :=
  let neg := F.negative v
  match F.digits (if neg then -v else v) with
  | (m, none) => [.mn neg m]
  | (m, some (s, e)) => [.mn neg m, .times, .start .msup, .mn false 10, .mn s (e : α), .stop .msup]

/-- optional parentheses, l.1511-1517, 1596-1602, 1609-1615, 1626-1632 -/
def mmlEnclosed (b : Bool) (ts : List (Mml α)) : List (Mml α) :=
  if b then .start .mfenced :: .start .mrow :: ts ++ [.stop .mrow, .stop .mfenced] else ts

/-- parts of a power, l.1459-1474 -/
def mmlPart (b : Bool) (ts : List (Mml α)) : List (Mml α) :=
  if b then .start .mfenced :: .start .mrow :: ts ++ [.stop .mrow, .stop .mfenced] else .start .mrow :: ts ++ [.stop .mrow]

/-- the names of functions, l.1359-1427; the root has no name -/
def mmlName : Fn → String
  | .abs => "abs"
  | .acos => "arccos"
  | .asin => "arcsin"
  | .atan => "arctan"
  | .cosh => "cosh"
  | .cos => "cos"
  | .exp => "exp"
  | .log => "ln"
  | .sinh => "sinh"
  | .sign => "sgn"
  | .sin => "sin"
  | .sqrt => ""
  | .tanh => "tanh"
  | .tan => "tan"
  | .erf => "erf"
  | .erfc => "erfc"
  | .asinh => "asinh"
  | .acosh => "acosh"
  | .atanh => "atanh"
  | .expm1 => "expm1"
  | .log1p => "log1p"

/-- `printUnaryFunction`, l.1355-1434 -/
def mmlUn (f : Fn) (ts : List (Mml α)) : List (Mml α) :=
  match f with
  | .sqrt => .start .msqrt :: .start .mrow :: ts ++ [.stop .mrow, .stop .msqrt]
  | f => .fn (mmlName f) :: .apply :: .start .mfenced :: .start .mrow :: ts ++ [.stop .mrow, .stop .mfenced]

/-- the sign between two factors, l.1604-1607 -/
def mmlMul (O : Opts) (a b : Expr α) : List (Mml α) :=
  if isNumber true a && isNumber false b then [.times] else if O.visible then [.times] else [.it]

/-- `printExpression` and the functions it calls, l.1355-1633 -/
def mathml (F : Format α) (O : Opts) : Expr α → List (Mml α)
  | .const v => mmlParam F v
  | .var n => [.sym n]
  | .un f a => mmlUn f (mathml F O a)
  | .pow a b => .start .msup :: mmlPart (O.enclose || enclosePow a) (mathml F O a) ++
      mmlPart (enclosePow b) (mathml F O b) ++ [.stop .msup]
  | .add a b => match negParam F b with
    | none => mathml F O a ++ .plus :: mathml F O b
    | some v => mathml F O a ++ .minus :: mmlParam F (-v)
  | .sub a b => match negParam F b with
    | none => mathml F O a ++ .minus :: mmlEnclosed (encloseMul F b) (mathml F O b)
    | some v => mathml F O a ++ .plus :: mmlParam F (-v)
  | .div a b => .start .mfrac :: .start .mrow :: mathml F O a ++ .stop .mrow :: .start .mrow :: mathml F O b ++
      [.stop .mrow, .stop .mfrac]
  | .mul a b => mmlEnclosed (encloseMul F a) (mathml F O a) ++ mmlMul O a b ++ mmlEnclosed (encloseMul F b) (mathml F O b)
  | .neg a => .minus :: mmlEnclosed (encloseMul F a) (mathml F O a)
  | .ali a => mathml F O a
  | .asg a => mathml F O a

end Verif.Formula
