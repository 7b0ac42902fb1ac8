import Verif.Cg.Model
/-
Model of the evaluators: /repo/include/cppad/cg/evaluator/evaluator.hpp (the code shared by all
evaluators), evaluator_cg.hpp (evaluation to `CG` objects) and the hook of evaluator_solve.hpp.

`A` is the type of the results (`ActiveOut`), `S` what its operations change (nothing for plain numbers,
the nodes of a handler for `CG`). The order in which C++ evaluates the operands of an expression is not
specified: it is the parameter `ord`. Recursion deeper than `fuel` is a stack overflow (`ub`). Not
modelled: arrays, atomic functions, prints, names given to results (evaluator_cg.hpp l.101-109).
-/
namespace Verif.Eval
open Verif.Codegen Verif.Cg

variable {α A S : Type}

/-- the operations of `ActiveOut` -/
structure Ops (α A S : Type) where
  /-- `ActiveOut(parameter)` -/
  const : α → A
  un : Fn → A → S → Except Err (A × S)
  bin : Bin → A → A → S → Except Err (A × S)
  neg : A → S → Except Err (A × S)
  sign : A → S → Except Err (A × S)
  cond : Cmp → A → A → A → A → S → Except Err (A × S)

/-- functions with a case in `evalOperation`, evaluator.hpp l.378-468 -/
def supported : Fn → Bool
  | .abs | .acos | .asin | .atan | .cosh | .cos | .exp | .log | .sinh | .sin | .sqrt | .tanh | .tan => true
  | .acosh | .asinh | .atanh | .erf | .erfc | .expm1 | .log1p => false

/-- number of arguments read by the `eval...` method of an operation, evaluator.hpp l.471-677 -/
def arity : Op → Nat
  | .inv => 0
  | .assign | .alias | .un _ | .neg | .sign => 1
  | .add | .sub | .mul | .div | .pow => 2
  | .cond _ => 4

/-- the operation on the evaluated operands, evaluator.hpp l.471-677 -/
def applyOps (O : Ops α A S) : Op → List A → S → Except Err (A × S)
  | .assign, [a], s => .ok (a, s)
  | .alias, [a], s => .ok (a, s)
  | .un f, [a], s => if supported f then O.un f a s else .error .exception
  | .add, [a, b], s => O.bin .add a b s
  | .sub, [a, b], s => O.bin .sub a b s
  | .mul, [a, b], s => O.bin .mul a b s
  | .div, [a, b], s => O.bin .div a b s
  | .pow, [a, b], s => O.bin .pow a b s
  | .neg, [a], s => O.neg a s
  | .sign, [a], s => O.sign a s
  | .cond c, [l, r, t, f], s => O.cond c l r t f s
  | _, _, _ => .error .ub

/-- an operation for which `evalOperation` throws before reading arguments -/
def unsupportedOp : Op → Bool
  | .un f => !supported f
  | _ => false

/-- state during an evaluation: `evals_` and what the operations change -/
structure EState (A S : Type) where
  memo : Nat → Option A
  st : S

/-- `saveEvaluation`, evaluator.hpp l.264-277 -/
def EState.save (st : EState A S) (n : Nat) (a : A) : EState A S :=
  { st with memo := fun m => if m = n then some a else st.memo m }

/-- evaluation of the operands at the positions `ps`; `acc` holds the results so far -/
def evalArgs (ev : Nat → Arg α → EState A S → Except Err A × EState A S) (args : List (Arg α)) :
    List Nat → (Nat → Option A) → EState A S → Except Err (Nat → Option A) × EState A S
  | [], acc, st => (.ok acc, st)
  | p :: ps, acc, st =>
    match args[p]? with
    | none => (.error .ub, st)
    | some a =>
      match ev p a st with
      | (.error e, st') => (.error e, st')
      | (.ok v, st') => evalArgs ev args ps (fun q => if q = p then some v else acc q) st'

/-- what is fixed during an evaluation: the operations, the nodes of the handler, its independent
variables, the values for them (`indep_`), a replacement chosen by the final evaluator
(evaluator_solve.hpp l.140-196) given the path of operations and argument numbers to the node, and the
order of evaluation of the operands of a node -/
structure Setup (α A S : Type) where
  O : Ops α A S
  G : Graph α
  indeps : List Nat
  x : List A
  hook : List (Nat × Nat) → Nat → Option A
  ord : Nat → List Nat

/-- `evalIndependent`, evaluator.hpp l.575-578, with `getIndependentVariableIndex`,
code_handler_impl.hpp l.141-150 -/
def evalIndep (E : Setup α A S) (n : Nat) : Except Err A :=
  match E.indeps.idxOf? n with
  | none => .error .exception
  | some j =>
    match E.x[j]? with
    | none => .error .ub
    | some a => .ok a

/-- `evalArg`, evaluator.hpp l.222-232; `path` leads to the node the argument belongs to -/
def evalArg (E : Setup α A S) (evalOps : List (Nat × Nat) → Nat → EState A S → Except Err A × EState A S)
    (path : List (Nat × Nat)) (n p : Nat) : Arg α → EState A S → Except Err A × EState A S
  | .param v, st => (.ok (E.O.const v), st)
  | .node m, st => evalOps (path ++ [(n, p)]) m st

/-- `evalOperation`, evaluator.hpp l.374-469 (`thisOps.evalOperation` of the final evaluator when
`hook` gives a value) -/
def evalOperation (E : Setup α A S)
    (evalOps : List (Nat × Nat) → Nat → EState A S → Except Err A × EState A S)
    (path : List (Nat × Nat)) (n : Nat) (st : EState A S) : Except Err A × EState A S :=
  match E.hook path n with
  | some r => (.ok r, st)
  | none =>
    if (E.G n).op = .inv then (evalIndep E n, st)
    else if unsupportedOp (E.G n).op then (.error .exception, st)
    else
      match evalArgs (evalArg E evalOps path n) (E.G n).args (E.ord n) (fun _ => none) st with
      | (.error e, st') => (.error e, st')
      | (.ok vs, st') =>
        match (List.range (arity (E.G n).op)).mapM vs with
        | none => (.error .ub, st')
        | some as =>
          match applyOps E.O (E.G n).op as st'.st with
          | .error e => (.error e, st')
          | .ok (r, s) => (.ok r, { st' with st := s })

/-- `evalOperations`, evaluator.hpp l.234-262 -/
def evalOps (E : Setup α A S) : Nat → List (Nat × Nat) → Nat → EState A S → Except Err A × EState A S
  | 0, _, _, st => (.error .ub, st)
  | fuel + 1, path, n, st =>
    match st.memo n with
    | some a => (.ok a, st)
    | none =>
      match evalOperation E (evalOps E fuel) path n st with
      | (.error e, st') => (.error e, st')
      | (.ok a, st') => (.ok a, st'.save n a)

/-- `evalCG`, evaluator.hpp l.209-216 -/
def evalCG (E : Setup α A S) (fuel : Nat) (c : Cg α) (st : EState A S) : Except Err A × EState A S :=
  match c.node with
  | none =>
    match c.getValue with
    | .ok v => (.ok (E.O.const v), st)
    | .error e => (.error e, st)
  | some n => evalOps E fuel [] n st

/-- the loop over the dependents, evaluator.hpp l.174-177 -/
def evalAll (E : Setup α A S) (fuel : Nat) : List (Cg α) → EState A S → Except Err (List A) × EState A S
  | [], st => (.ok [], st)
  | c :: cs, st =>
    match evalCG E fuel c st with
    | (.error e, st') => (.error e, st')
    | (.ok a, st') =>
      match evalAll E fuel cs st' with
      | (.error e, st'') => (.error e, st'')
      | (.ok as, st'') => (.ok (a :: as), st'')

/-- an evaluator between (or during) calls: `evals_` and `underEval_` -/
structure Evaluator (A : Type) where
  memo : Nat → Option A
  underEval : Bool

/-- `evaluate`, evaluator.hpp l.137-186 -/
def evaluate (E : Setup α A S) (fuel : Nat) (deps : List (Cg α)) (ev : Evaluator A) (s : S) :
    Except Err (List A) × Evaluator A × S :=
  if E.indeps.length ≠ E.x.length then (.error .exception, ev, s)                    -- l.142-144
  else if ev.underEval then (.error .exception, ev, s)                               -- l.148-151
  else
    match evalAll E fuel deps ⟨fun _ => none, s⟩ with                                -- l.155 clear()
    | (.error e, st) => (.error e, ⟨st.memo, false⟩, st.st)                          -- l.181-184
    | (.ok ys, st) => (.ok ys, ⟨fun _ => none, false⟩, st.st)                        -- l.179-185

/-- a new evaluator, evaluator.hpp l.63-69 -/
def Evaluator.new : Evaluator A := ⟨fun _ => none, false⟩

/-! ### results which are plain numbers -/

/-- operations of numbers -/
def plainOps (I : Interp α) : Ops α α Unit where
  const := id
  un f a s := .ok (I.un f a, s)
  bin o a b s := .ok (o.base I a b, s)
  neg a s := .ok (I.neg a, s)
  sign a s := .ok (I.sign a, s)
  cond c l r t f s := .ok (if I.cmp c l r then t else f, s)

/-! ### results which are `CG` objects -/

/-- the overloaded operators (see `Verif.Cg.Model`) -/
def cgOps (I : Interp α) : Ops α (Cg α) (World α) where
  const := .const
  un f a w := unary (.un f) (I.un f) w a
  bin o a b w := binary I o w a b
  neg a w := unary .neg I.neg w a
  sign a w := unary .sign (signValue I) w a
  cond c l r t f w := condExp I c w l r t f

end Verif.Eval
