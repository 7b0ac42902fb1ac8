import Verif.Dae.SpecRemove
import Mathlib.Analysis.Calculus.Deriv.Basic
/-
What the equations of a reduced system have to be: values of expressions over the reals, and trajectories of the variables.
-/
namespace Verif.Dae.Tape

/-- expressions of a tape; `tv x dx t` is a call of `time_var`, time_diff.hpp l.169-176, for the independent variables x, dx and t -/
inductive Ex (U : Type)
  | const (c : ℚ)
  | var (k : Nat)
  | add (a b : Ex U)
  | mul (a b : Ex U)
  | un (u : U) (a : Ex U)
  | tv (x dx t : Nat)
  deriving DecidableEq, Repr

/-- functions of one variable: where they are defined, and their derivatives -/
structure Fns (U : Type) where
  f : U → ℝ → ℝ
  d : U → U
  dom : U → ℝ → Prop
  deriv : ∀ u x, dom u x → HasDerivAt (f u) (f (d u) x) x
  next : ∀ u x, dom u x → dom (d u) x

variable {U : Type}

/-- the value of an expression -/
noncomputable def eval (F : Fns U) (X : Nat → ℝ) : Ex U → ℝ
  | .const c => c
  | .var k => X k
  | .add a b => eval F X a + eval F X b
  | .mul a b => eval F X a * eval F X b
  | .un u a => F.f u (eval F X a)
  | .tv x _ _ => X x

/-- all functions are used where they are defined -/
def Defined (F : Fns U) (X : Nat → ℝ) : Ex U → Prop
  | .add a b => Defined F X a ∧ Defined F X b
  | .mul a b => Defined F X a ∧ Defined F X b
  | .un u a => Defined F X a ∧ F.dom u (eval F X a)
  | _ => True

/-- the independent variables which occur -/
def Ex.occ : Ex U → List Nat
  | .const _ => []
  | .var k => [k]
  | .add a b => a.occ ++ b.occ
  | .mul a b => a.occ ++ b.occ
  | .un _ a => a.occ
  | .tv x dx t => [x, dx, t]

/-- no call of `time_var` -/
def Ex.Plain : Ex U → Prop
  | .add a b => a.Plain ∧ b.Plain
  | .mul a b => a.Plain ∧ b.Plain
  | .un _ a => a.Plain
  | .tv _ _ _ => False
  | _ => True

/-- the variables follow their derivatives at time `t`, the integrated variable is the time (up to a constant), other constants do
not change -/
structure Follows (info : List VarInfo) (vs : List Remove.VarOut) (X : ℝ → Nat → ℝ) (t : ℝ) : Prop where
  der : ∀ (j : Nat) x u, vs[j]? = some x → x.der = some u → HasDerivAt (fun s => X s j) (X t u) t
  const : ∀ (j : Nat) x, info[j]? = some x → x.timeDep = false → HasDerivAt (fun s => X s j) (if x.integrated then 1 else 0) t

/-- at most one variable is the time, and it does not depend on itself: the constructor, bipartite_graph.hpp l.121-131, and
`makeIntegratedVariable`, dae_var_info.hpp l.170-178 -/
structure OneTime (info : List VarInfo) : Prop where
  one : ∀ (j k : Nat) x y, info[j]? = some x → info[k]? = some y → x.integrated = true → y.integrated = true → j = k
  plain : ∀ x ∈ info, x.integrated = true → x.timeDep = false

/-- the given equations: there are `m`, which contain no others than the variables `t` with `inc i t` -/
structure Given (info : List VarInfo) (m : Nat) (inc : Nat → Nat → Bool) (dep : List (Ex U)) : Prop where
  len : dep.length = m
  plain : ∀ f ∈ dep, f.Plain
  occ : ∀ (i : Nat) f, dep[i]? = some f → ∀ t ∈ f.occ, t < info.length ∧ inc i t = true

end Verif.Dae.Tape
