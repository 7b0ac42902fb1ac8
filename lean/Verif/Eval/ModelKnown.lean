import Verif.Eval.SpecKnown

/-
Model of the values which `EvaluatorCG` gives to the results of atomic functions: /repo/include/cppad/cg/evaluator/evaluator_cg.hpp l.98-107, l.152-260, l.330-346, evaluator.hpp l.137-186,
l.197-209, and of `CGAbstractAtomicFun::forward` for constants, abstract_atomic_fun.hpp l.115-126, l.546-559. An evaluation is the sequence of the elements which it asks for and possibly a failure; the
elements of the arrays are given as they are after their evaluation. The handler of the results is known. Assertions are compiled out. Values of an array after an unknown one are not used by the code and are left out.
-/
namespace Verif.Eval.Known

variable {A : Type}

/-- `processArray`, l.330-346: values, `valuesDefined`, `allParameters` -/
def processArray : List (El A) → List A → Bool → Bool → List A × Bool × Bool
  | [], vs, d, ap => (vs, d, ap)
  | e :: es, vs, d, ap =>
    match e.value with
    | none => (vs, false, false)
    | some v => processArray es (vs ++ [v]) d (if e.param then ap else false)

/-- the loop l.181-186 -/
def processArgs : List (List (El A)) → List (List A) → Bool → Bool → List (List A) × Bool × Bool
  | [], vals, d, ap => (vals, d, ap)
  | a :: as, vals, d, ap =>
    let r := processArray a [] d ap
    processArgs as (vals ++ [r.1]) r.2.1 r.2.2

/-- `atomicEvalResults_` -/
abbrev Cache (A : Type) := Nat → Option (List A)

/-- `evalAtomicOperation` for a call which was not evaluated before, l.162-221; the result of `forward` (l.211) is not looked at. `none` is an exception. -/
def evalCall (fns : Funs A) (c : Call A) (t : Nat) (cache : Cache A) : Option (Cache A) :=
  let r := processArgs c.args [] true true
  if r.2.1 then
    if c.forward then
      match fns c.id with
      | none => if r.2.2 then none else some cache
      | some f =>
        let tx := r.1.getD 0 []
        let ty := r.1.getD 1 []
        some fun m => if m = t then some (match f c.q c.p tx ty.length with | some l => l | none => ty) else cache m
    else some cache
  else some cache

/-- what an evaluation does: it asks for element `i` of the array with coefficient `k` of the results of call `t`, or fails -/
inductive Req
  | elem (t k i : Nat)
  | fail

/-- `evalArrayElement`, l.229-260: the known value of the new element; `saved` are the calls in `evals_` -/
def evalElem (fns : Funs A) (calls : Nat → Call A) (t i : Nat) (saved : List Nat) (cache : Cache A) : Option (Option A × Cache A) :=
  match if t ∈ saved then some cache else evalCall fns (calls t) t cache with
  | none => none
  | some cache => some ((cache t).bind (·[i]?), cache)

/-- the elements in their order; the cache is kept if there is an exception -/
def run (fns : Funs A) (calls : Nat → Call A) : List Req → List Nat → Cache A → Option (List (Option A)) × Cache A
  | [], _, cache => (some [], cache)
  | .fail :: _, _, cache => (none, cache)
  | .elem t _ i :: rs, saved, cache =>
    match evalElem fns calls t i saved cache with
    | none => (none, cache)
    | some (v, cache) =>
      match run fns calls rs (t :: saved) cache with
      | (none, cache) => (none, cache)
      | (some vs, cache) => (some (v :: vs), cache)

/-- `evaluate`: `clear` of the base class before (evaluator.hpp l.155, l.197-209) and of `EvaluatorCG` after an evaluation without exceptions (evaluator.hpp l.178, evaluator_cg.hpp l.98-107) -/
def evaluate (fns : Funs A) (calls : Nat → Call A) (rs : List Req) (cache : Cache A) : Option (List (Option A)) × Cache A :=
  match run fns calls rs [] cache with
  | (none, cache) => (none, cache)
  | (some vs, _) => (some vs, fun _ => none)

end Verif.Eval.Known
