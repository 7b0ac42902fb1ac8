import Verif.Scopes.Spec

/-
Specification of the order in which values are computed in code with scopes.
-/
namespace Verif.Scopes.Order

open Verif.Scopes

/-- nodes which are needed for the results -/
inductive Reach (nd : Nat → Node) (roots : List Nat) : Nat → Prop
  | root {r : Nat} : r ∈ roots → Reach nd roots r
  | arg {u a : Nat} : Reach nd roots u → a ∈ (nd u).args → Reach nd roots a

/-- the value of the first node depends on the second -/
inductive Desc (nd : Nat → Node) : Nat → Nat → Prop
  | arg {u a : Nat} : a ∈ (nd u).args → Desc nd u a
  | step {u a y : Nat} : a ∈ (nd u).args → Desc nd a y → Desc nd u y

/-- the scopes around the code in which a node uses its arguments (after the first one): at the end of a scope they are used in this
scope, at the beginning of a scope in the enclosing one -/
def _root_.Verif.Scopes.Placed.around (P : Placed) (u : Nat) : List (Nat × Nat) :=
  if (P.nd u).op.isEnd then
    match (P.nd u).args with
    | b :: _ => P.path (P.scope b)
    | [] => []
  else if (P.nd u).op.begins then (P.path (P.scope u)).dropLast
  else P.path (P.scope u)

/-- operation graphs in which every value is in a scope around its uses -/
structure Nested (P : Placed) (roots : List Nat) : Prop where
  acyclic : ∃ R : Nat → Nat, ∀ u, Reach P.nd roots u → ∀ a ∈ (P.nd u).args, R a < R u
  top : P.path 0 = []
  results : ∀ r ∈ roots, ((P.nd r).op.needed = true → P.scope r = 0) ∧ ((P.nd r).op = .plain ∨ (P.nd r).op = .indep ∨ (P.nd r).op = .multi)
  leaf : ∀ u, Reach P.nd roots u → (P.nd u).op.needed = false → (P.nd u).args = []
  /-- paths end with the scope itself -/
  last : ∀ u, Reach P.nd roots u → (P.nd u).op.needed = true → P.scope u ≠ 0 → ∃ p e, P.path (P.scope u) = p ++ [(P.scope u, e)]
  /-- paths begin with the path of the scope around, and have the node at the end, with the one at the beginning as its first argument -/
  outer : ∀ u, Reach P.nd roots u → (P.nd u).op.needed = true → ∀ p el q, P.path (P.scope u) = p ++ el :: q →
    el.1 ≠ 0 ∧ P.path el.1 = p ++ [el] ∧ Reach P.nd roots el.2 ∧ (P.nd el.2).op.isEnd = true ∧
      ∃ b as, (P.nd el.2).args = b :: as ∧ P.scope b = el.1
  begins : ∀ u, Reach P.nd roots u → (P.nd u).op.begins = true →
    ∃ p e as, P.path (P.scope u) = p ++ [(P.scope u, e)] ∧ (P.nd e).args = u :: as
  ends : ∀ u, Reach P.nd roots u → (P.nd u).op.isEnd = true → ∃ p b as, (P.nd u).args = b :: as ∧ (P.nd b).op.begins = true ∧
    P.path (P.scope b) = p ++ [(P.scope b, u)] ∧
    if (P.nd u).op.begins then ∃ el, P.path (P.scope u) = p ++ [el] else P.path (P.scope u) = p
  inside : ∀ u, Reach P.nd roots u → ∀ a ∈ (P.nd u).args, (P.nd a).op.needed = true → P.path (P.scope a) <+: P.around u

/-- in the list `y` comes before `x` -/
def Before (l : List Nat) (y x : Nat) : Prop := ∃ l₁ l₂ l₃, l = l₁ ++ y :: l₂ ++ x :: l₃

/-- the node is in the scope `c` or in a scope in it -/
def _root_.Verif.Scopes.Placed.In (P : Placed) (c x : Nat) : Prop := P.path c <+: P.path (P.scope x)

/-- nodes which are always printed: at the beginning and the end of scopes, and declarations of conditional temporaries -/
def printed (o : Op) : Bool := o.begins || o.isEnd || decide (o = .tmpDcl)

/-- what is expected of the order of the code -/
structure RightOrder (P : Placed) (roots : List Nat) (l : List Nat) : Prop where
  /-- every value is computed once -/
  once : l.Nodup
  /-- only what is needed is computed -/
  reached : ∀ x ∈ l, Reach P.nd roots x
  /-- a value is computed after all values it depends on -/
  before : ∀ x ∈ l, ∀ y ∈ l, Desc P.nd x y → Before l y x
  /-- no beginning or end of a scope and no declaration is missing -/
  printed : ∀ x, Reach P.nd roots x → printed (P.nd x).op = true → x ∈ l
  /-- between the beginning and the end of a scope is the code of this scope, and no other -/
  blocks : ∀ e, Reach P.nd roots e → (P.nd e).op.isEnd = true → ∀ b as, (P.nd e).args = b :: as →
    ∃ l₁ code l₂, l = l₁ ++ b :: code ++ e :: l₂ ∧ ∀ x, x ∈ code ↔ x ∈ l ∧ x ≠ b ∧ P.In (P.scope b) x

end Verif.Scopes.Order
