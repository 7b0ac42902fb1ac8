import Verif.Print.CSem
import Verif.Codegen.Model

/-
Model of the printing of expressions and assignments by `LanguageC`,
/repo/include/cppad/cg/lang/c/language_c.hpp l.966-1009, 1241-1262, 1430-1694, 1717-1752, 2083-2108.

The expressions are those built by the model of code generation (Verif/Codegen): one constructor per
operation node which is printed in place, `var` for a node with a variable ID, `const` for a parameter.
The text is a list of tokens; blanks and comments are left out. Parameters are finite and not a negative
zero; the digits of a parameter are kept as its value (rounding to `_parameterPrecision` digits is a
matter of `Verif/Decimal`).
-/
namespace Verif.Print

open Verif.CExpr
open Verif.Codegen (Interp Fn Cmp Name Expr Stmt)

variable {α : Type} [DecidableEq α]

/-- names of the arrays: lang_c_default_var_name_gen.hpp l.52-56 -/
structure Names where
  x : String
  y : String
  v : String

def Names.default : Names := ⟨"x", "y", "v"⟩

/-- `*p >= 0` -/
def nonneg (I : Interp α) (v : α) : Bool := I.cmp .ge v I.zero

/-- digits of a parameter: `0` and `1` get no decimal point, l.2100-2106 -/
def magLit (I : Interp α) (v : α) : Lit α := if v = I.zero then .int 0 else if v = I.one then .int 1 else .real v

/-- `writeParameter`, l.2091-2108: a negative number starts with `-` -/
def paramToks (I : Interp α) (v : α) : List (Tok (Lit α)) :=
  if nonneg I v then [.num (magLit I v)] else [.op .sub, .num (magLit I (I.neg v))]

/-- names of variables, lang_c_default_var_name_gen.hpp l.92-123 -/
def nameToks (N : Names) : Name → List (Tok (Lit α))
  | .x i => [.id N.x, .lb, .num (.int i), .rb]
  | .y i => [.id N.y, .lb, .num (.int i), .rb]
  | .v i => [.id N.v, .lb, .num (.int i), .rb]

/-- function names, l.504-526 and language_c_double.hpp l.27-30 -/
def fnName : Fn → String
  | .abs => "fabs"
  | .acos => "acos"
  | .acosh => "acosh"
  | .asin => "asin"
  | .asinh => "asinh"
  | .atan => "atan"
  | .atanh => "atanh"
  | .cosh => "cosh"
  | .cos => "cos"
  | .erf => "erf"
  | .erfc => "erfc"
  | .exp => "exp"
  | .expm1 => "expm1"
  | .log => "log"
  | .log1p => "log1p"
  | .sinh => "sinh"
  | .sin => "sin"
  | .sqrt => "sqrt"
  | .tanh => "tanh"
  | .tan => "tan"

/-- the node reached through aliases, l.1596-1603, 1636-1643 -/
def strip : Expr α → Expr α
  | .ali a => strip a
  | e => e

/-- `encloseInParenthesesMul`, l.1635-1649 -/
def encloseMul (e : Expr α) : Bool := match strip e with
  | .const _ | .var _ | .div _ _ | .mul _ _ | .un _ _ | .pow _ _ => false
  | _ => true

/-- `encloseInParenthesesDiv`, l.1595-1607 -/
def encloseDiv (e : Expr α) : Bool := match strip e with
  | .const _ | .var _ | .un _ _ | .pow _ _ => false
  | _ => true

/-- optional parentheses -/
def enclosed (b : Bool) (ts : List (Tok (Lit α))) : List (Tok (Lit α)) := if b then .lp :: ts ++ [.rp] else ts

/-- a parameter given directly which is negative, l.1551, 1575 -/
def negParam (I : Interp α) : Expr α → Option α
  | .const v => if nonneg I v then none else some v
  | _ => none

/-- `pushSignFunction`, l.1525-1547 -/
def signToks (I : Interp α) (nm : List (Tok (Lit α))) : List (Tok (Lit α)) :=
  .lp :: nm ++ .op .gt :: paramToks I I.zero ++ .quest :: paramToks I I.one ++
  .colon :: .lp :: nm ++ .op .lt :: paramToks I I.zero ++ .quest :: paramToks I I.negOne ++
  .colon :: paramToks I I.zero ++ [.rp, .rp]

/-- `pushExpressionNoVarCheck` and the functions it calls, l.1289-1694 -/
def exprToks (I : Interp α) (N : Names) : Expr α → List (Tok (Lit α))
  | .const v => paramToks I v
  | .var n => nameToks N n
  | .un f a => .id (fnName f) :: .lp :: exprToks I N a ++ [.rp]
  | .pow a b => .id "pow" :: .lp :: exprToks I N a ++ .comma :: exprToks I N b ++ [.rp]
  | .add a b => match negParam I b with
    | none => exprToks I N a ++ .op .add :: exprToks I N b
    | some v => exprToks I N a ++ .op .sub :: paramToks I (I.neg v)
  | .sub a b => match negParam I b with
    | none => exprToks I N a ++ .op .sub :: enclosed (encloseMul b) (exprToks I N b)
    | some v => exprToks I N a ++ .op .add :: paramToks I (I.neg v)
  | .mul a b => enclosed (encloseMul a) (exprToks I N a) ++ .op .mul :: enclosed (encloseMul b) (exprToks I N b)
  | .div a b => enclosed (encloseDiv a) (exprToks I N a) ++ .op .div :: enclosed (encloseDiv b) (exprToks I N b)
  | .neg a => .op .sub :: enclosed (encloseMul a) (exprToks I N a)
  | .sgn n => signToks I (nameToks N n)
  | .ali a => exprToks I N a
  | .asg a => exprToks I N a

/-- `getComparison`, l.2110-2135 -/
def cmpTok : Cmp → Op
  | .lt => .lt
  | .le => .le
  | .eq => .eq
  | .ge => .ge
  | .gt => .gt
  | .ne => .ne

/-- an assignment, l.978-1047 (the assignment operator is `=`) -/
def assignToks (I : Interp α) (N : Names) (n : Name) (e : Expr α) : List (STok α) :=
  emb (nameToks N n) ++ .assign :: emb (exprToks I N e) ++ [.semi]

/-- assignments and conditional assignments, l.966-1009, 1717-1752 -/
def stmtToks (I : Interp α) (N : Names) : Stmt α → List (STok α)
  | .assign n e => assignToks I N n e
  | .ite c l r n t f =>
    .kwIf :: .tok .lp :: emb (exprToks I N l) ++ .tok (.op (cmpTok c)) :: emb (exprToks I N r) ++ .tok .rp :: .lbrace ::
    assignToks I N n t ++ .rbrace :: .kwElse :: .lbrace :: assignToks I N n f ++ [.rbrace]

/-- the loop which sets the dependents to zero, l.811-824 -/
def zeroToks (I : Interp α) (N : Names) (n : Nat) : List (STok α) :=
  .kwFor :: .tok .lp :: .tok (.id "i") :: .assign :: .tok (.num (.int 0)) :: .semi :: .tok (.id "i") :: .tok (.op .lt) ::
  .tok (.num (.int n)) :: .semi :: .tok (.id "i") :: .incr :: .tok .rp :: .tok (.id N.y) :: .tok .lb :: .tok (.id "i") ::
  .tok .rb :: .assign :: emb (paramToks I I.zero) ++ [.semi]

/-- the function body, l.789-923. In the model of code generation the loop is written out as the first
`nDep` statements when there are operations. -/
def bodyToks (I : Interp α) (N : Names) (zeroLoop : Bool) (nDep : Nat) (prog : List (Stmt α)) : List (STok α) :=
  if zeroLoop then zeroToks I N nDep ++ (prog.drop nDep).flatMap (stmtToks I N)
  else prog.flatMap (stmtToks I N)

/-! ### the stream stack, lang/lang_stream_stack.hpp -/

/-- an entry: text or an operation node which is still to be printed -/
inductive Item (α : Type)
  | text (t : Tok (Lit α))
  | node (e : Expr α)

/-- `_cache`, the position of `_it` (0 is `before_begin`) and the text written so far -/
structure Stack (α : Type) where
  cache : List (Item α)
  it : Nat
  out : List (Tok (Lit α))

/-- `operator<<` for text, l.99-106, and nodes, l.136-140 -/
def Stack.push (s : Stack α) : Item α → Stack α
  | .text t => if s.it = 0 then { s with out := s.out ++ [t] }
    else { s with cache := s.cache.insertIdx s.it (.text t), it := s.it + 1 }
  | .node e => { s with cache := s.cache.insertIdx s.it (.node e), it := s.it + 1 }

/-- `flush`, l.78-87 -/
def Stack.flush (s : Stack α) : Stack α :=
  match s.cache with
  | [] => s
  | _ => { cache := s.cache.dropWhile (fun i => match i with | .text _ => true | .node _ => false), it := 0,
           out := s.out ++ (s.cache.takeWhile (fun i => match i with | .text _ => true | .node _ => false)).filterMap
             (fun i => match i with | .text t => some t | .node _ => none) }

/-- what is pushed for one node: an argument with a variable or a parameter is text, other arguments are
nodes (`push`, l.1241-1262) -/
def argItems (I : Interp α) (N : Names) : Expr α → List (Item α)
  | .const v => (paramToks I v).map .text
  | .var n => (nameToks N n).map .text
  | e => [.node e]

/-- optional parentheses -/
def enclosedItems (b : Bool) (is : List (Item α)) : List (Item α) := if b then .text .lp :: is ++ [.text .rp] else is

/-- `pushExpressionNoVarCheck`: one level -/
def nodeItems (I : Interp α) (N : Names) : Expr α → List (Item α)
  | .const v => (paramToks I v).map .text
  | .var n => (nameToks N n).map .text
  | .un f a => .text (.id (fnName f)) :: .text .lp :: argItems I N a ++ [.text .rp]
  | .pow a b => .text (.id "pow") :: .text .lp :: argItems I N a ++ .text .comma :: argItems I N b ++ [.text .rp]
  | .add a b => match negParam I b with
    | none => argItems I N a ++ .text (.op .add) :: argItems I N b
    | some v => argItems I N a ++ .text (.op .sub) :: (paramToks I (I.neg v)).map .text
  | .sub a b => match negParam I b with
    | none => argItems I N a ++ .text (.op .sub) :: enclosedItems (encloseMul b) (argItems I N b)
    | some v => argItems I N a ++ .text (.op .add) :: (paramToks I (I.neg v)).map .text
  | .mul a b => enclosedItems (encloseMul a) (argItems I N a) ++ .text (.op .mul) :: enclosedItems (encloseMul b) (argItems I N b)
  | .div a b => enclosedItems (encloseDiv a) (argItems I N a) ++ .text (.op .div) :: enclosedItems (encloseDiv b) (argItems I N b)
  | .neg a => .text (.op .sub) :: enclosedItems (encloseMul a) (argItems I N a)
  | .sgn n => (signToks I (nameToks N n)).map .text
  | .ali a => argItems I N a
  | .asg a => argItems I N a

/-- `pushExpressionNoVarCheck2`, l.1264-1287: the loop -/
def Stack.run (I : Interp α) (N : Names) : Nat → Stack α → Option (Stack α)
  | 0, _ => none
  | fuel + 1, s =>
    let s := s.flush
    match s.cache with
    | [] => some s
    | .node e :: rest => Stack.run I N fuel ((nodeItems I N e).foldl Stack.push { s with cache := rest, it := 0 })
    | .text _ :: _ => none

/-- printing of an expression with the stack -/
def printStack (I : Interp α) (N : Names) (fuel : Nat) (e : Expr α) : Option (List (Tok (Lit α))) :=
  (Stack.run I N fuel ((nodeItems I N e).foldl Stack.push ⟨[], 0, []⟩)).map (·.out)

end Verif.Print
