import Verif.Solve.Spec
/-
What recorded operations denote when independent variables may have been replaced: inputs are given per
node, and only nodes which are (still) inputs use them.
-/
namespace Verif.Subst
open Verif.Codegen Verif.Cg

/-- `val` evaluates the operations; the input `n` has the value `x n` -/
def Computes {α : Type} (I : Interp α) (w : World α) (x val : Nat → α) : Prop :=
  ∀ (n : Nat) nd h, w.nodes[n]? = some (nd, h) →
    if nd.op = .inv then val n = x n else opSem I nd.op (nd.args.map (argVal val)) = some (val n)

/-- the inputs `x`, except for `v` at `n` -/
def put {α : Type} (x : Nat → α) (n : Nat) (v : α) : Nat → α := fun m => if m = n then v else x m

end Verif.Subst
