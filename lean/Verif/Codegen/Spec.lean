/-
Specification vocabulary for code generation, independent of the model of the generator:
operation graphs and their meaning, and the language of generated assignments and its meaning.

Graph: /repo/include/cppad/cg/operation_node.hpp, argument.hpp, operation.hpp (l.26-89).
Only scalar operations outside loops/ifs appear here (no arrays, atomics, loops or prints).
-/
namespace Verif.Codegen

/-- Unary functions, operation.hpp l.27-89 (`Abs` ... `Log1p`). -/
inductive Fn
  | abs | acos | acosh | asin | asinh | atan | atanh | cosh | cos | erf | erfc | exp | expm1
  | log | log1p | sinh | sin | sqrt | tanh | tan
deriving DecidableEq, Repr

/-- comparison of a conditional operation (`ComLt` ... `ComNe`) -/
inductive Cmp | lt | le | eq | ge | gt | ne
deriving DecidableEq, Repr

/-- `CGOpCode` restricted to the modelled operations, operation.hpp l.26-89 -/
inductive Op
  | inv | assign | alias | un (f : Fn) | add | sub | mul | div | pow | sign | neg | cond (c : Cmp)
deriving DecidableEq, Repr

/-- `Argument`, argument.hpp: a constant or an operation node -/
inductive Arg (α : Type)
  | param (v : α)
  | node (n : Nat)
deriving DecidableEq, Repr

/-- `OperationNode`: operation and arguments -/
structure Node (α : Type) where
  op : Op
  args : List (Arg α)

/-- the nodes managed by a handler, addressed by their position -/
abbrev Graph (α : Type) := Nat → Node α

/-- operation nodes among the arguments -/
def argNodes {α : Type} (as : List (Arg α)) : List Nat :=
  as.filterMap fun a => match a with | .node m => some m | .param _ => none

/-- children of a node -/
def kids {α : Type} (G : Graph α) (n : Nat) : List Nat := argNodes (G n).args

/-- an interpretation of the operations in a set of values -/
structure Interp (α : Type) where
  un : Fn → α → α
  add : α → α → α
  sub : α → α → α
  mul : α → α → α
  div : α → α → α
  pow : α → α → α
  neg : α → α
  cmp : Cmp → α → α → Bool
  zero : α
  one : α
  negOne : α

/-- sign: 1, -1 or 0 -/
def Interp.sign {α : Type} (I : Interp α) (a : α) : α :=
  if I.cmp .gt a I.zero then I.one else if I.cmp .lt a I.zero then I.negOne else I.zero

/-- meaning of an operation applied to argument values (`none`: wrong number of arguments, or an
independent variable, whose value is not computed from arguments) -/
def opSem {α : Type} (I : Interp α) : Op → List α → Option α
  | .assign, [a] => some a
  | .alias, [a] => some a
  | .un f, [a] => some (I.un f a)
  | .add, [a, b] => some (I.add a b)
  | .sub, [a, b] => some (I.sub a b)
  | .mul, [a, b] => some (I.mul a b)
  | .div, [a, b] => some (I.div a b)
  | .pow, [a, b] => some (I.pow a b)
  | .sign, [a] => some (I.sign a)
  | .neg, [a] => some (I.neg a)
  | .cond c, [l, r, t, f] => some (if I.cmp c l r then t else f)
  | _, _ => none

/-- value of an argument given the values of the nodes -/
def argVal {α : Type} (val : Nat → α) : Arg α → α
  | .param v => v
  | .node n => val n

/-- nodes needed by the roots -/
inductive Reach {α : Type} (G : Graph α) (roots : List Nat) : Nat → Prop
  | root {d : Nat} : d ∈ roots → Reach G roots d
  | kid {n m : Nat} : Reach G roots n → m ∈ kids G n → Reach G roots m

/-- `val` is the evaluation of the graph at the point `x`: independent variable number `j` has the
value `x j`, every other needed node has the value of its operation applied to its arguments. -/
def IsValuation {α : Type} (I : Interp α) (G : Graph α) (indeps roots : List Nat) (x : Nat → α)
    (val : Nat → α) : Prop :=
  (∀ j n, indeps[j]? = some n → val n = x j) ∧
  (∀ n, Reach G roots n → (G n).op ≠ .inv →
    opSem I (G n).op ((G n).args.map (argVal val)) = some (val n))

/-- number and kind of arguments of each operation; the argument of an alias or sign is an operation
and sign is not applied to an alias -/
def Shape {α : Type} (G : Graph α) (n : Nat) : Prop :=
  match (G n).op with
  | .inv => (G n).args = []
  | .assign | .un _ | .neg => ∃ a, (G n).args = [a]
  | .add | .sub | .mul | .div | .pow => ∃ a b, (G n).args = [a, b]
  | .alias => ∃ m, (G n).args = [.node m]
  | .sign => ∃ m, (G n).args = [.node m] ∧ (G m).op ≠ .alias
  | .cond _ => ∃ l r t f, (G n).args = [l, r, t, f]

/-- A well formed request to generate code: the graph below the dependents is acyclic (`rank` bounds
its depth by `fuel`) and well formed, its independent variables have been declared, and an alias which
is itself a dependent is not used as an argument. -/
structure WF {α : Type} (G : Graph α) (rank : Nat → Nat) (fuel : Nat) (indeps : List Nat)
    (deps : List (Arg α)) : Prop where
  acyclic : ∀ n, Reach G (argNodes deps) n → ∀ m ∈ kids G n, rank m < rank n
  depth : ∀ d ∈ argNodes deps, rank d < fuel
  shape : ∀ n, Reach G (argNodes deps) n → Shape G n
  declared : ∀ n, Reach G (argNodes deps) n → (G n).op = .inv → n ∈ indeps
  indeps_nodup : indeps.Nodup
  indeps_inv : ∀ n ∈ indeps, (G n).op = .inv
  alias_dep : ∀ n, Reach G (argNodes deps) n → ∀ m ∈ kids G n, (G m).op = .alias → m ∉ argNodes deps

/-! ### generated code -/

/-- variables of the generated function: `x[i]`, `y[i]` and `v[i]` -/
inductive Name | x (i : Nat) | y (i : Nat) | v (i : Nat)
deriving DecidableEq, Repr

/-- Right-hand sides. `ali` and `asg` mark where an alias / assign operation has been written out
(they print nothing of their own). `sgn` is the printed
`(a > 0?1:(a < 0?-1:0))`. -/
inductive Expr (α : Type)
  | const (v : α)
  | var (n : Name)
  | un (f : Fn) (a : Expr α)
  | add (a b : Expr α)
  | sub (a b : Expr α)
  | mul (a b : Expr α)
  | div (a b : Expr α)
  | pow (a b : Expr α)
  | neg (a : Expr α)
  | sgn (n : Name)
  | ali (a : Expr α)
  | asg (a : Expr α)
deriving DecidableEq, Repr

/-- `lhs = rhs;` or `if( l cmp r ) { lhs = t; } else { lhs = f; }` -/
inductive Stmt (α : Type)
  | assign (lhs : Name) (e : Expr α)
  | ite (c : Cmp) (l r : Expr α) (lhs : Name) (t f : Expr α)
deriving DecidableEq, Repr

/-- contents of the variables; `none` = never written -/
abbrev Env (α : Type) := Name → Option α

/-- expression evaluation; reading a variable which was never written fails -/
def Expr.eval {α : Type} (I : Interp α) (env : Env α) : Expr α → Option α
  | .const v => some v
  | .var n => env n
  | .un f a => (a.eval I env).map (I.un f)
  | .add a b => do let u ← a.eval I env; let w ← b.eval I env; pure (I.add u w)
  | .sub a b => do let u ← a.eval I env; let w ← b.eval I env; pure (I.sub u w)
  | .mul a b => do let u ← a.eval I env; let w ← b.eval I env; pure (I.mul u w)
  | .div a b => do let u ← a.eval I env; let w ← b.eval I env; pure (I.div u w)
  | .pow a b => do let u ← a.eval I env; let w ← b.eval I env; pure (I.pow u w)
  | .neg a => (a.eval I env).map I.neg
  | .sgn n => (env n).map fun a =>
      if I.cmp .gt a I.zero then I.one else if I.cmp .lt a I.zero then I.negOne else I.zero
  | .ali a => a.eval I env
  | .asg a => a.eval I env

/-- writing a variable -/
def Env.set {α : Type} (env : Env α) (n : Name) (v : α) : Env α :=
  fun m => if m = n then some v else env m

/-- one statement -/
def Stmt.exec {α : Type} (I : Interp α) (env : Env α) : Stmt α → Option (Env α)
  | .assign lhs e => (e.eval I env).map (env.set lhs)
  | .ite c l r lhs t f => do
    let a ← l.eval I env
    let b ← r.eval I env
    if I.cmp c a b then (t.eval I env).map (env.set lhs) else (f.eval I env).map (env.set lhs)

/-- the whole function body -/
def execAll {α : Type} (I : Interp α) : Env α → List (Stmt α) → Option (Env α)
  | env, [] => some env
  | env, s :: ss => (s.exec I env).bind fun env' => execAll I env' ss

/-- contents of the variables when the generated function is entered: only `x` is defined -/
def entryEnv {α : Type} (nIndep : Nat) (x : Nat → α) : Env α
  | .x j => if j < nIndep then some (x j) else none
  | _ => none

/-- variables an expression reads -/
def Expr.reads {α : Type} : Expr α → List Name
  | .const _ => []
  | .var n => [n]
  | .un _ a => a.reads
  | .add a b => a.reads ++ b.reads
  | .sub a b => a.reads ++ b.reads
  | .mul a b => a.reads ++ b.reads
  | .div a b => a.reads ++ b.reads
  | .pow a b => a.reads ++ b.reads
  | .neg a => a.reads
  | .sgn n => [n]
  | .ali a => a.reads
  | .asg a => a.reads

/-- variables a statement may read, on either branch -/
def Stmt.reads {α : Type} : Stmt α → List Name
  | .assign _ e => e.reads
  | .ite _ l r _ t f => l.reads ++ r.reads ++ t.reads ++ f.reads

/-- variable a statement writes (on every branch) -/
def Stmt.lhs {α : Type} : Stmt α → Name
  | .assign n _ => n
  | .ite _ _ _ n _ _ => n

/-- the values assigned, statement by statement -/
def execTrace {α : Type} (I : Interp α) : Env α → List (Stmt α) → Option (List α)
  | _, [] => some []
  | env, s :: ss => do
    let env' ← s.exec I env
    let v ← env' s.lhs
    let vs ← execTrace I env' ss
    pure (v :: vs)

/-- every variable read is an input or has been written before, whichever branches are taken;
`defs` are the variables written so far -/
def DefBeforeUse {α : Type} (nIndep : Nat) : List Name → List (Stmt α) → Prop
  | _, [] => True
  | defs, s :: ss =>
    (∀ r ∈ s.reads, (∃ j, j < nIndep ∧ r = .x j) ∨ r ∈ defs) ∧ DefBeforeUse nIndep (s.lhs :: defs) ss

end Verif.Codegen
