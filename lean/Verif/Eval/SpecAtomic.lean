/-
What the values of a recorded graph with arrays and calls of atomic functions are.
-/
namespace Verif.Eval.Atomic

variable {A : Type}

/-- an argument of an operation, or a dependent variable -/
inductive Arg (A : Type)
  | param (v : A)
  | node (n : Nat)
deriving DecidableEq

/-- the nodes of the graph; other operations have a number -/
inductive Node (A : Type)
  | indep (j : Nat)
  | op (k : Nat) (args : List (Arg A))
  | array (args : List (Arg A))
  /-- forward or reverse mode, function, order, and for order zero the arrays with the arguments and the results -/
  | atomic (forward : Bool) (id order x y : Nat)
  /-- an element of an array after the call of an atomic function -/
  | elem (array call index : Nat)

def argNodes : List (Arg A) → List Nat
  | [] => []
  | .param _ :: as => argNodes as
  | .node n :: as => n :: argNodes as

/-- the nodes which a node uses -/
def Node.kids : Node A → List Nat
  | .indep _ => []
  | .op _ args => argNodes args
  | .array args => argNodes args
  | .atomic _ _ _ x y => [x, y]
  | .elem a t _ => [a, t]

/-- nodes needed for `roots` -/
inductive Reach (G : Nat → Node A) (roots : List Nat) : Nat → Prop
  | root {n : Nat} : n ∈ roots → Reach G roots n
  | kid {n k : Nat} : Reach G roots n → k ∈ (G n).kids → Reach G roots k

/-- value of an argument -/
def Arg.value (val : Nat → A) : Arg A → A
  | .param v => v
  | .node n => val n

/-- nodes which have a value -/
def Node.scalar : Node A → Bool
  | .indep _ | .op _ _ | .elem _ _ _ => true
  | _ => false

/-- `val` are the values of the nodes at the independent variables `x`: `opf` gives the results of operations (`none`: not supported), `fns` those of the atomic functions for a number of results -/
def Values (opf : Nat → List A → Option A) (fns : Nat → Option (List A → Nat → List A)) (G : Nat → Node A) (x : List A) (U : Nat → Prop) (val : Nat → A) : Prop :=
  ∀ n, U n →
    match G n with
    | .indep j => x[j]? = some (val n)
    | .op k args => opf k (args.map (Arg.value val)) = some (val n)
    | .elem a t i => ∀ fw id p xs ys ax ay f, G t = .atomic fw id p ax ay → G ax = .array xs → G a = .array ys → fns id = some f →
        (f (xs.map (Arg.value val)) ys.length)[i]? = some (val n)
    | _ => True

end Verif.Eval.Atomic
