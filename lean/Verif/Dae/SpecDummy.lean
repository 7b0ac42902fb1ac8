import Mathlib.Algebra.Field.Defs
import Mathlib.Algebra.BigOperators.Group.Finset.Basic

/-
What dummy derivatives have to satisfy. A system of differential and algebraic equations after index reduction
has variables and equations which are time derivatives of others. Selecting a derivative as a dummy derivative
drops the relation between it and the variable of which it is the derivative; the relation has to follow from
the equations which remain. Nothing here knows how dummy derivatives are selected.
-/
namespace Verif.Dae.Dummy

/-- variables and equations are numbered, new ones come after those of which they are derivatives -/
structure Sys where
  nv : Nat
  ne : Nat
  /-- the variable of which a variable is the derivative -/
  anti : Nat → Option Nat
  der : Nat → Option Nat
  /-- the equation of which an equation is the derivative -/
  eqOf : Nat → Option Nat
  eqDer : Nat → Option Nat
  /-- a variable occurs in an equation -/
  occurs : Nat → Nat → Prop

/-- derivatives are consistent, and an equation which was differentiated has only variables which have derivatives,
which occur in the differentiated equation -/
structure Sys.Ok (S : Sys) : Prop where
  anti_der : ∀ v w, S.anti v = some w ↔ S.der w = some v
  anti_lt : ∀ v w, S.anti v = some w → w < v ∧ v < S.nv
  eq_der : ∀ i e, S.eqOf i = some e ↔ S.eqDer e = some i
  eq_lt : ∀ i e, S.eqOf i = some e → e < i ∧ i < S.ne
  occurs_lt : ∀ e w, S.occurs e w → w < S.nv
  occurs_der : ∀ i e w, S.eqOf i = some e → S.occurs e w → ∃ v, S.der w = some v ∧ S.occurs i v

/-- the variable has exactly `k` derivatives -/
def Sys.VLevel (S : Sys) : Nat → Nat → Prop
  | 0, v => S.der v = none
  | k + 1, v => ∃ u, S.der v = some u ∧ S.VLevel k u

/-- the equation has exactly `k` derivatives -/
def Sys.ELevel (S : Sys) : Nat → Nat → Prop
  | 0, i => S.eqDer i = none
  | k + 1, i => ∃ u, S.eqDer i = some u ∧ S.ELevel k u

/-- a variable which is a derivative and has exactly `k` derivatives -/
def Sys.VStage (S : Sys) (k v : Nat) : Prop := S.VLevel k v ∧ (S.anti v).isSome = true

/-- an equation which is a derivative and has exactly `k` derivatives -/
def Sys.EStage (S : Sys) (k i : Nat) : Prop := S.ELevel k i ∧ (S.eqOf i).isSome = true

variable {K : Type} [Field K]

/-- a moment in time: values and rates of change of the variables, the partial derivatives of equations and the
partial derivatives with respect to time -/
structure Moment (K : Type) where
  val : Nat → K
  rate : Nat → K
  part : Nat → Nat → K
  time : Nat → K

/-- the value of the derivative of a variable -/
def Moment.derVal (S : Sys) (M : Moment K) (w : Nat) : K :=
  match S.der w with
  | some v => M.val v
  | none => 0

/-- a moment at which an equation which holds at all times (so its rate of change is zero) and the differentiated
equation both hold; the partial derivatives of the differentiated equation with respect to new variables are those of
the equation -/
structure Moment.Right (S : Sys) (M : Moment K) : Prop where
  part_occurs : ∀ e w, M.part e w ≠ 0 → S.occurs e w
  chain : ∀ i e w v, S.eqOf i = some e → S.der w = some v → ¬ S.occurs e v → M.part i v = M.part e w
  rate_zero : ∀ i e, S.eqOf i = some e → (∑ w ∈ Finset.range S.nv, M.part e w * M.rate w) + M.time e = 0
  holds : ∀ i e, S.eqOf i = some e → (∑ w ∈ Finset.range S.nv, M.part e w * M.derVal S w) + M.time e = 0

/-- columns of a matrix are independent -/
def Independent (jac : Nat → Nat → K) (rows cols : List Nat) : Prop :=
  cols.Nodup ∧ ∀ c : Nat → K, (∀ i ∈ rows, (cols.map fun v => jac i v * c v).sum = 0) → ∀ v ∈ cols, c v = 0

/-- a QR decomposition with column pivoting, or a failure: the columns in a new order, and the rank -/
abbrev QR := List Nat → List Nat → Option (Nat × List Nat)

/-- the first columns are independent, and there are no more independent columns -/
structure QR.Right (qr : QR) (jac : Nat → Nat → K) : Prop where
  perm : ∀ rows cols r p, qr rows cols = some (r, p) → p.Perm cols
  rank_rows : ∀ rows cols r p, qr rows cols = some (r, p) → r ≤ rows.length
  indep : ∀ rows cols r p, cols.Nodup → qr rows cols = some (r, p) → Independent jac rows (p.take r) ∧ r ≤ p.length
  max : ∀ rows cols l, cols.Nodup → l ⊆ cols → Independent jac rows l → ∃ r p, qr rows cols = some (r, p) ∧ l.length ≤ r

/-- the list has exactly the elements with a property, once -/
def Lists (l : List Nat) (P : Nat → Prop) : Prop := l.Nodup ∧ ∀ a, a ∈ l ↔ P a

end Verif.Dae.Dummy
