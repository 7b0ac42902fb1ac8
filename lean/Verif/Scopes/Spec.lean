import Verif.Ranges.Spec

/-
Specification of code in scopes (loops and branches of conditionals on the iteration): in which iterations is the code of a scope
run, and which values are computed whenever they are used.
-/
namespace Verif.Scopes

open Verif.Ranges

/-- kinds of nodes of the operation graph. The condition on the iteration (`IndexCondExpr`) is part of the node with the branch. -/
inductive Op
  /-- an independent variable -/
  | indep
  /-- an operation or an assignment to an indexed dependent -/
  | plain
  /-- an independent variable with an index (`LoopIndexedIndep`), printed where it is used -/
  | indexed
  /-- results which use loops (`DependentMultiAssign`) -/
  | multi
  | loopStart
  | loopEnd
  | startIf (rs : List (Nat × Nat))
  | elseIf (rs : List (Nat × Nat))
  | els
  | endIf
  | condRes
  /-- declaration of a conditional temporary -/
  | tmpDcl
  /-- use of a conditional temporary -/
  | tmp
  /-- assignment to a conditional temporary -/
  | loopTmp
deriving DecidableEq

structure Node where
  op : Op
  args : List Nat
deriving DecidableEq

/-- operation graph with the scope of each node; the path of a scope lists its enclosing scopes and itself, each with the node at its
end -/
structure Placed where
  nd : Nat → Node
  scope : Nat → Nat
  path : Nat → List (Nat × Nat)

/-- in iteration `it` no branch up to and including the one which begins with this node is taken -/
inductive Skips (nd : Nat → Node) (it : Nat) : Nat → Prop
  | startIf {b : Nat} {rs : List (Nat × Nat)} {as : List Nat} : nd b = ⟨.startIf rs, as⟩ → ¬ Covers rs it → Skips nd it b
  | elseIf {b p : Nat} {rs : List (Nat × Nat)} {as : List Nat} : nd b = ⟨.elseIf rs, p :: as⟩ → ¬ Covers rs it → Skips nd it p → Skips nd it b

/-- in iteration `it` the branch which begins with this node is taken -/
inductive Taken (nd : Nat → Node) (it : Nat) : Nat → Prop
  | startIf {b : Nat} {rs : List (Nat × Nat)} {as : List Nat} : nd b = ⟨.startIf rs, as⟩ → Covers rs it → Taken nd it b
  | elseIf {b p : Nat} {rs : List (Nat × Nat)} {as : List Nat} : nd b = ⟨.elseIf rs, p :: as⟩ → Covers rs it → Skips nd it p → Taken nd it b
  | els {b p : Nat} {as : List Nat} : nd b = ⟨.els, p :: as⟩ → Skips nd it p → Taken nd it b

/-- the node ends a branch (an `else` ends the branch before it) -/
def Op.ends : Op → Bool
  | .endIf | .elseIf _ | .els => true
  | _ => false

/-- in iteration `it` the code of scope `c` is run -/
def Placed.Runs (P : Placed) (c it : Nat) : Prop :=
  ∀ el ∈ P.path c, (P.nd el.2).op.ends = true → ∀ b as, (P.nd el.2).args = b :: as → Taken P.nd it b

/-- the loops around the code of scope `c` -/
def Placed.loops (P : Placed) (c : Nat) : List (Nat × Nat) := (P.path c).filter fun el => (P.nd el.2).op = .loopEnd

/-- whenever code of scope `c` is run, code of scope `d` is run as well, in the same iteration or outside of the loop -/
def Placed.Within (P : Placed) (c d : Nat) : Prop := P.loops d <+: P.loops c ∧ ∀ it ≤ sizeMax, P.Runs c it → P.Runs d it

/-- arguments of the node `u` are used in the scope `c`: a node at the end of a scope uses them in this scope, a node at the beginning
in the enclosing one -/
def Placed.UsedIn (P : Placed) (u c : Nat) : Prop :=
  match (P.nd u).op with
  | .loopEnd | .endIf | .elseIf _ | .els => (P.path c).getLast? = some (c, u)
  | .loopStart | .startIf _ => P.path c = (P.path (P.scope u)).dropLast
  | _ => c = P.scope u

/-- the scope in which the value of a node is computed: a conditional temporary is computed in the branch it ends with -/
def Placed.computed (P : Placed) (a : Nat) : Nat :=
  match P.nd a with
  | ⟨.tmp, [_, e]⟩ => match (P.nd e).args with
    | b :: _ => P.scope b
    | [] => P.scope a
  | _ => P.scope a

/-- the value has to be computed before it is used -/
def Op.needed : Op → Bool
  | .indep | .indexed => false
  | _ => true

/-- The property: every value is computed in the iterations in which it is used. -/
def Placed.AllComputed (P : Placed) (reached : Nat → Prop) : Prop :=
  ∀ u, reached u → ∀ a ∈ (P.nd u).args, (P.nd a).op.needed = true → ∀ c, P.UsedIn u c → P.Within c (P.computed a)

/-- what is true: the scope of every value, including the declarations of conditional temporaries, encloses its uses, and values which are
not conditional temporaries are computed when they are used -/
def Placed.AllEnclosed (P : Placed) (reached : Nat → Prop) : Prop :=
  ∀ u, reached u → ∀ a ∈ (P.nd u).args, (P.nd a).op.needed = true → ∀ c, P.UsedIn u c → P.Within c (P.scope a)

/-- nodes at the beginning and the end of each scope are where they belong -/
def Placed.Structured (P : Placed) (colors : Nat) : Prop :=
  ∀ c, 1 ≤ c → c ≤ colors → ∃ p e b as, P.path c = p ++ [(c, e)] ∧ (P.nd e).args = b :: as ∧ P.scope b = c ∧
    ((P.nd e).op = .loopEnd ∨ (P.nd e).op = .endIf → P.path (P.scope e) = p)

/-! ### graphs of models with loops -/

/-- a node at the end of a scope -/
def Op.isEnd (o : Op) : Bool := o.ends || decide (o = .loopEnd)

/-- a node at the beginning of a scope -/
def Op.begins : Op → Bool
  | .loopStart | .startIf _ | .elseIf _ | .els => true
  | _ => false

def Op.isValue : Op → Bool
  | .plain | .indep | .indexed => true
  | _ => false

/-- operation graphs of models with loops: results of loops which are not nested, with conditionals on the iteration which are not nested
either -/
structure LoopGraph (nd : Nat → Node) (N : Nat) : Prop where
  acyclic : ∃ R : Nat → Nat, ∀ n < N, ∀ a ∈ (nd n).args, R a < R n
  closed : ∀ n < N, ∀ a ∈ (nd n).args, a < N
  leaf : ∀ n < N, ((nd n).op = .indep ∨ (nd n).op = .indexed ∨ ∃ rs, (nd n).op = .startIf rs) → (nd n).args = []
  plain : ∀ n < N, (nd n).op = .plain → ∀ a ∈ (nd n).args, (nd a).op.isValue = true
  multi : ∀ n < N, (nd n).op = .multi → ∀ a ∈ (nd n).args, (nd a).op.isValue = true ∨ (nd a).op = .loopEnd
  loopStart : ∀ n < N, (nd n).op = .loopStart → ∀ a ∈ (nd n).args, (nd a).op.isValue = true
  loopEnd : ∀ n < N, (nd n).op = .loopEnd → ∃ s as, (nd n).args = s :: as ∧ (nd s).op = .loopStart ∧
    ∀ a ∈ as, (nd a).op.isValue = true ∨ (nd a).op = .endIf
  branch : ∀ n < N, (nd n).op.ends = true → ∃ b as, (nd n).args = b :: as ∧ ((nd b).op.begins = true ∧ (nd b).op ≠ .loopStart) ∧
    ∀ r ∈ as, ∃ v, nd r = ⟨.condRes, [b, v]⟩
  condRes : ∀ n < N, (nd n).op = .condRes → ∃ b v, (nd n).args = [b, v] ∧ ((nd b).op.begins = true ∧ (nd b).op ≠ .loopStart) ∧
    (nd v).op.isValue = true
  unique : ∀ e < N, ∀ e' < N, (nd e).op.isEnd = true → (nd e').op.isEnd = true → (nd e).args.head? = (nd e').args.head? → e = e'
  conds : ∀ n < N, ∀ rs, (nd n).op = .startIf rs ∨ (nd n).op = .elseIf rs → SeparatedRanges rs
  original : ∀ n < N, (nd n).op ≠ .tmp ∧ (nd n).op ≠ .tmpDcl ∧ (nd n).op ≠ .loopTmp

/-- the results of the model -/
def Roots (nd : Nat → Node) (N : Nat) (roots : List Nat) : Prop :=
  ∀ r ∈ roots, r < N ∧ ((nd r).op.isValue = true ∨ (nd r).op = .multi)

/-- the loop (its last node) in which a node uses its arguments, where `own` has the loop each node belongs to -/
def useLoop (nd : Nat → Node) (own : Nat → Option Nat) (n : Nat) : Option Nat :=
  match (nd n).op with
  | .loopEnd => some n
  | .loopStart => none
  | _ => own n

/-- Every value belongs to one loop or to no loop. Values of a loop are used only in it, and a value outside of the loops which is used in
a loop is an argument of the first node of the loop (`moveNonIndexedOutsideLoop`, loops.hpp l.240-347). -/
structure LoopLocal (nd : Nat → Node) (N : Nat) (roots : List Nat) (own : Nat → Option Nat) : Prop where
  args : ∀ n < N, ∀ a ∈ (nd n).args, (nd a).op.needed = true → own a = useLoop nd own n ∨
    (own a = none ∧ ∃ e s, useLoop nd own n = some e ∧ (nd e).args.head? = some s ∧ a ∈ (nd s).args)
  roots : ∀ r ∈ roots, own r = none

/-- the path of the innermost scope around two scopes with the given paths -/
structure Innermost (a b p : List Nat) : Prop where
  first : p <+: a
  second : p <+: b
  longest : ∀ q, q <+: a → q <+: b → q.length ≤ p.length

end Verif.Scopes
