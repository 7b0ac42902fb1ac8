import Verif.Eval.SpecAtomic

/-
Model of the evaluation of arrays and of calls of atomic functions: /repo/include/cppad/cg/evaluator/evaluator.hpp l.137-304, l.511-525 and evaluator_ad.hpp l.83-175.
Other operations are given (`Verif.Eval.Model` is about them); the order in which C++ evaluates their operands is not specified, it is `ord`. Results are values; recursion deeper than `fuel` is a stack overflow (`ub`).
-/
namespace Verif.Eval.Atomic

variable {A : Type}

inductive Err
  | exception
  | ub
deriving DecidableEq

/-- `evals_`, `evalsArrays_`, `evalsAtomic_`, and the calls made so far (node, arguments), which only the claims look at -/
structure St (A : Type) where
  evals : Nat → Option A
  arrays : Nat → Option (List A)
  atoms : List Nat
  calls : List (Nat × List A)

/-- what does not change: the graph, operations, atomic functions (`atomicFunctions_`), values of the independent variables, the value of a new element, the order
of evaluation of the operands of each node -/
structure Setup (A : Type) where
  G : Nat → Node A
  opf : Nat → List A → Option A
  fns : Nat → Option (List A → Nat → List A)
  x : List A
  zero : A
  ord : Nat → List Nat

def upd {B : Type} (f : Nat → Option B) (n : Nat) (b : B) : Nat → Option B := fun m => if m = n then some b else f m

/-- `evalArg`, evaluator.hpp l.230-240 -/
def evalArg (ev : Nat → St A → Except Err A × St A) : Arg A → St A → Except Err A × St A
  | .param v, st => (.ok v, st)
  | .node n, st => ev n st

/-- arguments one after the other -/
def evalArgs (ev : Nat → St A → Except Err A × St A) : List (Arg A) → St A → Except Err (List A) × St A
  | [], st => (.ok [], st)
  | a :: as, st =>
    match evalArg ev a st with
    | (.error e, st) => (.error e, st)
    | (.ok v, st) =>
      match evalArgs ev as st with
      | (.error e, st) => (.error e, st)
      | (.ok vs, st) => (.ok (v :: vs), st)

/-- the operands of an operation, evaluated in the order `ps` -/
def operands (ev : Nat → St A → Except Err A × St A) (args : List (Arg A)) (ps : List Nat) (st : St A) : Except Err (List A) × St A :=
  match ps.mapM (args[·]?) with
  | none => (.error .ub, st)
  | some as =>
    match evalArgs ev as st with
    | (.error e, st) => (.error e, st)
    | (.ok vs, st) =>
      match (List.range args.length).mapM fun q => vs[ps.idxOf q]? with
      | none => (.error .ub, st)
      | some l => (.ok l, st)

/-- `(*resultArray)[a] = evalArg(args, a)`, evaluator.hpp l.299-301, from element `i` on -/
def fill (ev : Nat → St A → Except Err A × St A) (n : Nat) : Nat → List (Arg A) → St A → Except Err Unit × St A
  | _, [], st => (.ok (), st)
  | i, a :: as, st =>
    match evalArg ev a st with
    | (.error e, st) => (.error e, st)
    | (.ok v, st) =>
      match st.arrays n with
      | none => (.error .ub, st)
      | some l => fill ev n (i + 1) as { st with arrays := upd st.arrays n (l.set i v) }

/-- `evalArrayCreationOperation`, evaluator.hpp l.281-304; the array is in the state -/
def evalArray (E : Setup A) (ev : Nat → St A → Except Err A × St A) (n : Nat) (st : St A) : Except Err Unit × St A :=
  match E.G n with
  | .array args =>
    match st.arrays n with
    | some _ => (.ok (), st)
    | none => fill ev n 0 args { st with arrays := upd st.arrays n (List.replicate args.length E.zero) }
  | _ => (.error .ub, st)

/-- `evalAtomicOperation`, evaluator_ad.hpp l.131-175 -/
def evalAtomic (E : Setup A) (ev : Nat → St A → Except Err A × St A) (t : Nat) (st : St A) : Except Err Unit × St A :=
  if t ∈ st.atoms then (.ok (), st)
  else
    match E.G t with
    | .atomic fw id p x y =>
      if !fw then (.error .exception, st)
      else
        match E.fns id with
        | none => (.error .exception, st)
        | some f =>
          if p ≠ 0 then (.error .exception, st)
          else
            match evalArray E ev x st with
            | (.error e, st) => (.error e, st)
            | (.ok _, st) =>
              match evalArray E ev y st with
              | (.error e, st) => (.error e, st)
              | (.ok _, st) =>
                match st.arrays x, st.arrays y with
                | some ax, some ay =>
                  (.ok (), { st with arrays := upd st.arrays y (f ax ay.length), atoms := t :: st.atoms, calls := (t, ax) :: st.calls })
                | _, _ => (.error .ub, st)
    | _ => (.error .ub, st)

/-- `evalArrayElement`, evaluator.hpp l.511-525 -/
def evalElem (E : Setup A) (ev : Nat → St A → Except Err A × St A) (a t i : Nat) (st : St A) : Except Err A × St A :=
  match evalArray E ev a st with
  | (.error e, st) => (.error e, st)
  | (.ok _, st) =>
    match evalAtomic E ev t st with
    | (.error e, st) => (.error e, st)
    | (.ok _, st) =>
      match st.arrays a with
      | none => (.error .ub, st)
      | some l =>
        match l[i]? with
        | none => (.error .ub, st)
        | some v => (.ok v, st)

/-- `evalOperation`, evaluator.hpp l.374-479 -/
def evalOperation (E : Setup A) (ev : Nat → St A → Except Err A × St A) (n : Nat) (st : St A) : Except Err A × St A :=
  match E.G n with
  | .indep j =>
    match E.x[j]? with
    | none => (.error .ub, st)
    | some v => (.ok v, st)
  | .op k args =>
    match operands ev args (E.ord n) st with
    | (.error e, st) => (.error e, st)
    | (.ok vs, st) =>
      match E.opf k vs with
      | none => (.error .exception, st)
      | some v => (.ok v, st)
  | .elem a t i => evalElem E ev a t i st
  | _ => (.error .exception, st)

/-- `evalOperations` and `saveEvaluation`, evaluator.hpp l.242-279 -/
def eval (E : Setup A) : Nat → Nat → St A → Except Err A × St A
  | 0, _, st => (.error .ub, st)
  | fuel + 1, n, st =>
    match st.evals n with
    | some v => (.ok v, st)
    | none =>
      match evalOperation E (eval E fuel) n st with
      | (.error e, st) => (.error e, st)
      | (.ok v, st) => (.ok v, { st with evals := upd st.evals n v })

/-- an evaluator between calls: what it saved and `underEval_` -/
structure Evaluator (A : Type) where
  st : St A
  underEval : Bool

/-- `evaluate`, evaluator.hpp l.137-186, with `clear` (l.197-209) and `prepareNewEvaluation` (evaluator_ad.hpp l.114-123); `n` is the number of independent variables -/
def evaluate (E : Setup A) (fuel n : Nat) (deps : List (Arg A)) (ev : Evaluator A) : Except Err (List A) × Evaluator A :=
  if n ≠ E.x.length then (.error .exception, ev)
  else if ev.underEval then (.error .exception, ev)
  else
    let st : St A := { ev.st with evals := fun _ => none, arrays := fun _ => none }
    match evalArgs (eval E fuel) deps { st with atoms := [], calls := [] } with
    | (.error e, st) => (.error e, ⟨st, false⟩)
    | (.ok ys, st) => (.ok ys, ⟨{ st with evals := fun _ => none, arrays := fun _ => none }, false⟩)

end Verif.Eval.Atomic
