/-
What information about variables and equations of a system of differential and algebraic equations says, in terms of
the unique identifiers. Positions are left out: they change when variables or equations are removed or reordered.
-/
namespace Verif.Dae.Reorder

/-- `DaeVarInfo`: `dep` is `isFunctionOfIntegrated`; -1 is `none` -/
structure VInfo where
  id : Nat
  anti : Option Nat
  der : Option Nat
  dep : Bool
  integrated : Bool
deriving DecidableEq, Repr

/-- `DaeEquationInfo` -/
structure EInfo where
  id : Nat
  anti : Option Nat
  assigned : Option Nat
  explicit : Bool
deriving DecidableEq, Repr

/-- an element with identifier `a` refers with a position to an element with identifier `b` -/
def Refers {α β : Type} (idα : α → Nat) (idβ : β → Nat) (field : α → Option Nat) (l : List α) (l' : List β) (a b : Nat) : Prop :=
  ∃ x ∈ l, idα x = a ∧ ∃ q y, field x = some q ∧ l'[q]? = some y ∧ idβ y = b

/-- variable `a` is the derivative of variable `b` -/
def AntiRel (vs : List VInfo) (a b : Nat) : Prop := Refers VInfo.id VInfo.id VInfo.anti vs vs a b

/-- variable `b` is the derivative of variable `a` -/
def DerRel (vs : List VInfo) (a b : Nat) : Prop := Refers VInfo.id VInfo.id VInfo.der vs vs a b

/-- equation `e` is the derivative of equation `f` -/
def EqRel (es : List EInfo) (e f : Nat) : Prop := Refers EInfo.id EInfo.id EInfo.anti es es e f

/-- variable `a` is assigned to equation `e` -/
def AssignedRel (es : List EInfo) (vs : List VInfo) (e a : Nat) : Prop := Refers EInfo.id VInfo.id EInfo.assigned es vs e a

/-- there is a variable, an equation -/
def HasVar (vs : List VInfo) (a : Nat) : Prop := ∃ v ∈ vs, v.id = a
def HasEq (es : List EInfo) (e : Nat) : Prop := ∃ i ∈ es, i.id = e

/-- identifiers are unique and positions exist -/
structure Ok (vs : List VInfo) (es : List EInfo) : Prop where
  var_ids : (vs.map VInfo.id).Nodup
  eq_ids : (es.map EInfo.id).Nodup
  anti_lt : ∀ v ∈ vs, ∀ q, v.anti = some q → q < vs.length
  der_lt : ∀ v ∈ vs, ∀ q, v.der = some q → q < vs.length
  assigned_lt : ∀ i ∈ es, ∀ q, i.assigned = some q → q < vs.length
  eq_lt : ∀ i ∈ es, ∀ q, i.anti = some q → q < es.length

/-- no variable or equation is a derivative of itself -/
structure Acyclic (vs : List VInfo) (es : List EInfo) : Prop where
  var : ∃ rank : Nat → Nat, (∀ p, rank p < vs.length + 1) ∧ ∀ p q v, vs[p]? = some v → v.anti = some q → rank q < rank p
  eq : ∃ rank : Nat → Nat, (∀ p, rank p < es.length + 1) ∧ ∀ p q i, es[p]? = some i → i.anti = some q → rank q < rank p

/-- variable `a` is the `k`-th derivative of variable `b`, which is no derivative -/
inductive NthDer (vs : List VInfo) : Nat → Nat → Nat → Prop
  | base {v : VInfo} : v ∈ vs → v.anti = none → NthDer vs 0 v.id v.id
  | step {a b c k : Nat} : AntiRel vs a b → NthDer vs k b c → NthDer vs (k + 1) a c

/-- the class of a variable: -2 for the integrated variable, -1 for parameters, otherwise how often it is a derivative -/
inductive Class (vs : List VInfo) : Nat → Int → Prop
  | integrated {v : VInfo} : v ∈ vs → v.integrated = true → Class vs v.id (-2)
  | constant {v : VInfo} : v ∈ vs → v.integrated = false → v.dep = false → Class vs v.id (-1)
  | order {v : VInfo} {k b : Nat} : v ∈ vs → v.integrated = false → v.dep = true → NthDer vs k v.id b → Class vs v.id k

/-- variables with derivatives: those assigned to explicit equations if there are any, otherwise those which have
derivatives -/
def Differential (vs : List VInfo) (es : List EInfo) (a : Nat) : Prop :=
  (∃ i ∈ es, i.explicit = true ∧ AssignedRel [i] vs i.id a) ∨
  ((∀ i ∈ es, i.explicit = true → i.assigned = none) ∧ ∃ k b, NthDer vs (k + 1) b a)

end Verif.Dae.Reorder
