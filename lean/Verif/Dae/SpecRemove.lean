import Verif.Dae.Model
/-
What the information about a reduced system of differential and algebraic equations has to say: `DaeVarInfo` and
`DaeEquationInfo`, in terms of the given variables, the given equations, and which variables these contain.
-/
namespace Verif.Dae.Remove

/-- `DaeVarInfo`, dae_var_info.hpp l.24-71, without the name; -1 is `none`. `dep`: `isFunctionOfIntegrated`, `orig`:
`getOriginalIndex`, `root`: `getOriginalAntiDerivative` -/
structure VarOut where
  id : Nat
  anti : Option Nat
  der : Option Nat
  dep : Bool
  integrated : Bool
  orig : Option Nat
  order : Int
  root : Option Nat
deriving DecidableEq, Repr

/-- `DaeEquationInfo`, dae_equation_info.hpp l.25-49, without `explicit_`, which is false -/
structure EqOut where
  id : Nat
  orig : Option Nat
  anti : Option Nat
  assigned : Option Nat
deriving DecidableEq, Repr

/-- variable `u` is the `n`-th derivative of variable `t` -/
inductive Der (vs : List VarOut) : Nat → Nat → Nat → Prop
  | zero {t : Nat} : t < vs.length → Der vs 0 t t
  | succ {n t u w : Nat} {x : VarOut} : Der vs n t u → vs[w]? = some x → x.anti = some u → Der vs (n + 1) t w

/-- equation `k` is the `n`-th derivative of equation `i` -/
inductive EqDer (es : List EqOut) : Nat → Nat → Nat → Prop
  | zero {i : Nat} : i < es.length → EqDer es 0 i i
  | succ {n i q k : Nat} {e : EqOut} : EqDer es n i q → es[k]? = some e → e.anti = some q → EqDer es (n + 1) i k

/-- the variable `t` depends on time -/
def Dep (info : List VarInfo) (t : Nat) : Prop := ∃ x, info[t]? = some x ∧ x.timeDep = true

/-- only variables which depend on time are derivatives; `makeConstant`, `makeIntegratedVariable`, dae_var_info.hpp l.158-178 -/
def ConstantsPlain (info : List VarInfo) : Prop := ∀ x ∈ info, x.timeDep = false → x.anti = none

/-- every given derivative occurs in a given equation -/
def Occurs (info : List VarInfo) (m : Nat) (inc : Nat → Nat → Bool) : Prop :=
  ∀ (t : Nat) x, info[t]? = some x → x.timeDep = true → x.anti ≠ none → ∃ i < m, inc i t = true

/-- the information about the reduced system is right: `info` describes the given variables, the given equation `i < m`
contains the variables `t` with `inc i t` -/
structure Right (info : List VarInfo) (m : Nat) (inc : Nat → Nat → Bool) (vs : List VarOut) (es : List EqOut) : Prop where
  /-- identifiers are positions -/
  ids : (∀ (t : Nat) x, vs[t]? = some x → x.id = t) ∧ ∀ (k : Nat) e, es[k]? = some e → e.id = k
  /-- the given variables come first, unchanged -/
  given : info.length ≤ vs.length ∧ ∀ (t : Nat) x, info[t]? = some x → ∃ y, vs[t]? = some y ∧ y.anti = x.anti ∧ y.dep = x.timeDep ∧
    y.integrated = x.integrated ∧ y.orig = some t
  /-- all others are derivatives of variables before them -/
  added : ∀ (t : Nat) y, info.length ≤ t → vs[t]? = some y → y.orig = none ∧ y.dep = true ∧ y.integrated = false ∧ ∃ a < t, y.anti = some a
  /-- constants have no derivatives, and no order -/
  plain : ∀ (t : Nat) y, vs[t]? = some y → y.dep = false → y.der = none ∧ y.order = -1 ∧ y.root = none
  /-- the links between variables and derivatives go both ways -/
  links : ∀ t u : Nat, (∃ x, vs[t]? = some x ∧ x.der = some u) ↔ ∃ y, vs[u]? = some y ∧ y.anti = some t
  /-- how often a variable was differentiated, and which one -/
  orders : ∀ (t : Nat) y, vs[t]? = some y → y.dep = true → ∃ (n b : Nat) (z : VarOut), Der vs n b t ∧ vs[b]? = some z ∧ z.anti = none ∧ y.order = n ∧
    y.root = if n = 0 then none else some b
  /-- the given equations come first, all others are derivatives of equations before them, at most one of each -/
  eqs : m ≤ es.length ∧ (∀ (k : Nat) e, es[k]? = some e → k < m → e.orig = some k ∧ e.anti = none) ∧
    (∀ (k : Nat) e, es[k]? = some e → m ≤ k → e.orig = none ∧ ∃ q < k, e.anti = some q) ∧
    ∀ (k k' : Nat) e e' q, es[k]? = some e → es[k']? = some e' → e.anti = some q → e'.anti = some q → k = k'
  /-- there are variables for everything which occurs in an equation -/
  complete : ∀ n i k t, EqDer es n i k → i < m → inc i t = true → Dep info t → ∃ u, Der vs n t u
  /-- no others are added -/
  needed : ∀ u, info.length ≤ u → u < vs.length → ∃ n i k t, EqDer es n i k ∧ i < m ∧ inc i t = true ∧ Dep info t ∧ Der vs n t u
  /-- every equation is assigned to a variable it contains, -/
  assigned : ∀ (k : Nat) e, es[k]? = some e → ∃ s, e.assigned = some s ∧
    ∃ n i t, EqDer es n i k ∧ i < m ∧ inc i t = true ∧ Dep info t ∧ Der vs n t s
  /-- and to no other equation -/
  distinct : ∀ (k k' : Nat) e e' s, es[k]? = some e → es[k']? = some e' → e.assigned = some s → e'.assigned = some s → k = k'

end Verif.Dae.Remove
