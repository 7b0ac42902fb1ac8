/-
Which values of the results of a call of an atomic function are known after an evaluation with `CG` objects.
-/
namespace Verif.Eval.Known

variable {A : Type}

/-- an element of an array after its evaluation: its known value and whether it is a parameter -/
structure El (A : Type) where
  value : Option A
  param : Bool

/-- a call of forward or reverse mode from order `q` to `p`: `p + 1` arrays with the coefficients of the arguments, and `p + 1` for the results -/
structure Call (A : Type) where
  forward : Bool
  id : Nat
  q : Nat
  p : Nat
  args : List (List (El A))

/-- atomic functions by id, for orders, coefficients of the arguments (those of one argument next to each other) and number of results; `none` if they report a failure -/
abbrev Funs (A : Type) := Nat → Option (Nat → Nat → List A → Nat → Option (List A))

/-- the coefficients of one argument next to each other -/
def taylor (p : Nat) (txs : List (List A)) : List A :=
  match txs with
  | [] => []
  | tx :: _ => (List.range tx.length).flatMap fun j => (List.range (p + 1)).filterMap fun k => (txs[k]?).bind (·[j]?)

/-- the value of coefficient `k` of result `i`: known if all coefficients of the arguments and all initial values of the results are, and the function is available -/
def expected (fns : Funs A) (c : Call A) (k i : Nat) : Option A :=
  if c.forward then
    (c.args.mapM fun (a : List (El A)) => a.mapM El.value).bind fun (vals : List (List A)) =>
      (fns c.id).bind fun f => (f c.q c.p (taylor c.p (vals.take (c.p + 1))) ((c.p + 1) * (vals.getD (c.p + 1) []).length)).bind fun l => l[i * (c.p + 1) + k]?
  else none

end Verif.Eval.Known
