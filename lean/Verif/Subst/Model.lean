import Verif.Solve.Model
/-
Model of the substitution of independent variables: /repo/include/cppad/cg/graph_mod.hpp.

All nodes belong to the handler or (for numbers outside of the list of nodes) do not. Names are not
modelled. When an exception is raised the operations created until then remain in the handler without
being used by any other; the independent variables are unchanged.
-/
namespace Verif.Subst
open Verif.Codegen Verif.Cg Verif.Solve

variable {α : Type}

/-- `OperationNode::makeAlias`, operation_node.hpp l.70-77, and `setOperation`, l.104-110 -/
def setNode (w : World α) (n : Nat) (nd : Node α) : World α :=
  { w with nodes := w.nodes.modify n fun p => (nd, p.2) }

/-- the argument made of the solution, graph_mod.hpp l.49-56; `getValue` throws for an object without
value -/
def solutionArg (c : Cg α) : Except Err (Arg α) :=
  match c.node with
  | some n => .ok (.node n)
  | none =>
    match c.value with
    | some v => .ok (.param v)
    | none => .error .exception

/-- `substituteIndependent(OperationNode&, ...)`, graph_mod.hpp l.29-64. The arguments before `w` are
those of `solveFor`. -/
def substituteIndependent (I : Interp α) (half : α) (ltr : Bool) (ord : Op → List Nat) (depth : Nat → Nat) (maxB fuel : Nat)
    (w : World α) (indep dep : Nat) (remove : Bool) : Except Err (World α) :=
  match w.indeps.idxOf? indep with                                       -- l.36, code_handler_impl.hpp l.141-150
  | none => .error .exception
  | some j =>
    if w.nodes.length ≤ dep then .error .exception                       -- l.39-42
    else
      match solveFor I half ltr ord depth maxB fuel w dep indep with     -- l.45
      | .error e => .error e
      | .ok (c, w1) =>
        match solutionArg c with
        | .error e => .error e
        | .ok a =>
          let w2 := setNode w1 indep ⟨.alias, [a]⟩                       -- l.58
          .ok (if remove then { w2 with indeps := w2.indeps.eraseIdx j } else w2)

/-- `substituteIndependent(const CG&, ...)`, graph_mod.hpp l.21-26 -/
def substituteIndependentCg (I : Interp α) (half : α) (ltr : Bool) (ord : Op → List Nat) (depth : Nat → Nat)
    (maxB fuel : Nat) (w : World α) (indep dep : Cg α) (remove : Bool) : Except Err (World α) :=
  match indep.node, dep.node with
  | some i, some d => substituteIndependent I half ltr ord depth maxB fuel w i d remove
  | _, _ => .error .ub                                                   -- null dereferenced

/-- `undoSubstituteIndependent`, graph_mod.hpp l.67-75 -/
def undoSubstituteIndependent (w : World α) (indep : Nat) : Except Err (World α) :=
  if indep ∈ w.indeps then .ok (setNode w indep ⟨.inv, []⟩) else .error .exception

/-- `removeIndependent`, graph_mod.hpp l.78-89 -/
def removeIndependent (w : World α) (indep : Nat) : Except Err (World α) :=
  if (w.graph indep).op ≠ .alias then .error .exception
  else
    match w.indeps.idxOf? indep with
    | none => .error .exception
    | some j => .ok { w with indeps := w.indeps.eraseIdx j }

end Verif.Subst
