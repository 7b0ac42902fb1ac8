import Mathlib.Logic.Basic
/-
Graphs of operations, the shape of an expression and its value. Independent of the search for patterns.
-/
namespace Verif.Patterns

/-- kinds of nodes: independent variables, aliases and all other operations -/
inductive Op where
  | inv
  | alias_
  | other (k : Nat)
deriving DecidableEq, Repr

inductive Arg (V : Type) where
  | par (c : V)
  | node (i : Nat)
deriving DecidableEq, Repr

structure Node (V : Type) where
  op : Op
  info : List Nat
  args : List (Arg V)
deriving DecidableEq, Repr

abbrev Graph (V : Type) := Nat → Node V

/-- nodes are numbered in the order of their creation, arguments exist before -/
def Acyclic {V : Type} (G : Graph V) : Prop := ∀ i j, Arg.node j ∈ (G i).args → j < i

/-- an alias has one argument, which is a node -/
def AliasOk {V : Type} (G : Graph V) : Prop := ∀ i, (G i).op = .alias_ → ∃ j, (G i).args = [.node j]

/-- aliases are aliases of independents -/
def AliasInv {V : Type} (G : Graph V) : Prop :=
  ∀ i, (G i).op = .alias_ → ∃ j, (G i).args = [.node j] ∧ (G j).op = .inv

/-- an expression in which the independents are not distinguished, nor are constants with the same `key` -/
inductive Shape (K : Type) where
  | par (k : K)
  | indep
  | op (o : Op) (info : List Nat) (args : List (Shape K))

/-- The shape of a node. Aliases do not matter, except that an alias of an independent is an operation. -/
def shapeAt {V K : Type} (key : V → K) (G : Graph V) : Nat → Nat → Shape K
  | 0, _ => .indep
  | f + 1, i =>
    match (G i).op, (G i).args with
    | .inv, _ => .indep
    | .alias_, [.node j] => if (G j).op = .inv then .op .alias_ (G i).info [.indep] else shapeAt key G f j
    | o, as => .op o (G i).info (as.map fun a => match a with
      | .par c => .par (key c)
      | .node j => shapeAt key G f j)

def shape {V K : Type} (key : V → K) (G : Graph V) (i : Nat) : Shape K := shapeAt key G (i + 1) i

/-- the value of a node for the values `x` of the independents; `I` interprets the operations -/
def valueAt {V : Type} (I : Nat → List Nat → List V → V) (G : Graph V) (x : Nat → V) : Nat → Nat → V
  | 0, i => x i
  | f + 1, i =>
    match (G i).op with
    | .inv => x i
    | .alias_ => match (G i).args with
      | .node j :: _ => valueAt I G x f j
      | .par c :: _ => c
      | [] => x i
    | .other k => I k (G i).info ((G i).args.map fun a => match a with
      | .par c => c
      | .node j => valueAt I G x f j)

def value {V : Type} (I : Nat → List Nat → List V → V) (G : Graph V) (x : Nat → V) (i : Nat) : V := valueAt I G x (i + 1) i

/-- a dependent variable: a constant or a node -/
inductive Dep (V : Type) where
  | par (c : V)
  | node (i : Nat)
deriving DecidableEq, Repr

def depShape {V K : Type} (key : V → K) (G : Graph V) : Dep V → Shape K
  | .par c => .par (key c)
  | .node i => shape key G i

def depValue {V : Type} (I : Nat → List Nat → List V → V) (G : Graph V) (x : Nat → V) : Dep V → V
  | .par c => c
  | .node i => value I G x i

/-- Operations in the same place of two expressions: the roots, and arguments in the same position of operations in the
same place. -/
inductive Corr {V : Type} (G : Graph V) (r0 s0 : Nat) : Nat → Nat → Prop
  | root : Corr G r0 s0 r0 s0
  | arg {r s j j' : Nat} {k : Nat} : Corr G r0 s0 r s → (G r).args[k]? = some (.node j) →
      (G s).args[k]? = some (.node j') → (G j).op ≠ .inv → (G j').op ≠ .inv → Corr G r0 s0 j j'

/-- Two expressions in which an operation is not used in places where the other expression has different operations, and
which do not use the same operation in different places. -/
structure Regular {V : Type} (G : Graph V) (r0 s0 : Nat) : Prop where
  fn : ∀ r s s', Corr G r0 s0 r s → Corr G r0 s0 r s' → s = s'
  sep : ∀ r s t, Corr G r0 s0 r s → Corr G r0 s0 s t → r = s

/-- The groups `gs` of candidates are the classes of candidates with the same shape, without the classes with a single
candidate. -/
structure ShapeClasses {S : Type} (sh : Nat → S) (cands : List Nat) (gs : List (List Nat)) : Prop where
  /-- every group is a class -/
  isClass : ∀ g ∈ gs, g.Sublist cands ∧ 2 ≤ g.length ∧ ∃ r ∈ g, ∀ d, d ∈ g ↔ d ∈ cands ∧ sh d = sh r
  /-- every class is a group -/
  all : ∀ d ∈ cands, ∀ d' ∈ cands, d ≠ d' → sh d = sh d' → ∃ g ∈ gs, d ∈ g ∧ d' ∈ g
  /-- no class is a group twice -/
  once : gs.Pairwise fun g g' => ∀ d ∈ g, d ∉ g'

end Verif.Patterns
