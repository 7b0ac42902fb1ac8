/-
Storage of arrays: ranges of cells of one big array, and what a program with arrays means when every array
has its own storage.
-/
namespace Verif.Arrays

/-- cell `c` belongs to the `n` cells from `s` on -/
def InRange (s n c : Nat) : Prop := s ≤ c ∧ c < s + n

/-- two ranges have no cell in common -/
def Apart (s n s' n' : Nat) : Prop := ∀ c, InRange s n c → ¬ InRange s' n' c

/-- a history of reservations and releases of arrays; `black` are cells an array must not use -/
inductive Ev (A : Type)
  | reserve (a : Nat) (args : List A) (black : List Nat)
  | release (a : Nat)

/-- a history makes sense: arrays are reserved when they are not in use, and released when they are -/
def Valid {A : Type} : List (Ev A) → List Nat → Prop
  | [], _ => True
  | .reserve a _ _ :: l, live => a ∉ live ∧ Valid l (a :: live)
  | .release a :: l, live => a ∈ live ∧ Valid l (live.erase a)

/-- the sizes of all reservations together -/
def total {A : Type} : List (Ev A) → Nat
  | [] => 0
  | .reserve _ args _ :: l => args.length + total l
  | .release _ :: l => total l

/-- the arrays in use after a history -/
def liveAfter {A : Type} : List (Ev A) → List Nat → List Nat
  | [], live => live
  | .reserve a _ _ :: l, live => liveAfter l (a :: live)
  | .release a :: l, live => liveAfter l (live.erase a)

/-- the size of array `a` after a history: that of its last reservation -/
def sizeAfter {A : Type} : List (Ev A) → (Nat → Nat) → Nat → Nat
  | [], sz => sz
  | .reserve a args _ :: l, sz => sizeAfter l fun b => if b = a then args.length else sz b
  | .release _ :: l, sz => sizeAfter l sz

/-! ### programs with arrays -/

/-- scalar variables: independents, temporaries, dependents -/
inductive Var
  | x (k : Nat)
  | v (k : Nat)
  | y (k : Nat)
  deriving DecidableEq, Repr

/-- `Argument`, argument.hpp: a parameter, or the result of an operation -/
inductive Arg (V : Type)
  | par (v : V)
  | op (n : Nat)
  deriving DecidableEq, Repr

/-- expressions as they are written in one place: constants, variables, elements of arrays, operations -/
inductive Ex (V : Type)
  | par (v : V)
  | var (w : Var)
  | elem (a i : Nat)
  | app (f : V → V → V) (l r : Ex V)

/-- the value, given the values of variables and of the elements of arrays -/
def Ex.eval {V : Type} (env : Var → V) (rd : Nat → Nat → V) : Ex V → V
  | .par v => v
  | .var w => env w
  | .elem a i => rd a i
  | .app f l r => f (l.eval env rd) (r.eval env rd)

/-- the elements of arrays an expression reads -/
def Ex.reads {V : Type} : Ex V → List (Nat × Nat)
  | .par _ => []
  | .var _ => []
  | .elem a i => [(a, i)]
  | .app _ l r => l.reads ++ r.reads

/-- the expression written for an argument; `node n` is the one of node `n` -/
def Arg.ex {V : Type} (node : Nat → Ex V) : Arg V → Ex V
  | .par v => .par v
  | .op n => node n

/-- the operations in the order of evaluation: an assignment, the creation of array `a`, and a call of an
external function which reads the arrays `tx` and writes the array `ty` -/
inductive Step (V : Type)
  | assign (w : Var) (e : Ex V)
  | create (a : Nat) (args : List (Arg V))
  | call (tx : List Nat) (ty : Nat) (f : List (List V) → Nat → V)

/-- values of variables, contents of arrays -/
structure St (V : Type) where
  env : Var → V
  arr : Nat → Nat → V

def setVar {V : Type} (env : Var → V) (w : Var) (v : V) : Var → V := fun w' => if w' = w then v else env w'

/-- the first `n` elements of array `a` -/
def setArr {V : Type} (arr : Nat → Nat → V) (a n : Nat) (g : Nat → V) : Nat → Nat → V :=
  fun a' i => if a' = a ∧ i < n then g i else arr a' i

/-- every array has its own storage; `size` gives the sizes of arrays -/
def Step.run {V : Type} (node : Nat → Ex V) (size : Nat → Nat) (s : St V) : Step V → St V
  | .assign w e => { s with env := setVar s.env w (e.eval s.env s.arr) }
  | .create a args =>
    { s with arr := setArr s.arr a args.length fun i =>
        match args[i]? with
        | some x => (x.ex node).eval s.env s.arr
        | none => s.arr a i }
  | .call tx ty f =>
    { s with arr := setArr s.arr ty (size ty) (f (tx.map fun a => (List.range (size a)).map (s.arr a))) }

def runSteps {V : Type} (node : Nat → Ex V) (size : Nat → Nat) : List (Step V) → St V → St V
  | [], s => s
  | st :: l, s => runSteps node size l (st.run node size s)

/-- the array created by a step -/
def Step.creates {V : Type} : Step V → Option (Nat × List (Arg V))
  | .create a args => some (a, args)
  | _ => none

/-- the elements of arrays a step reads in expressions -/
def Step.reads {V : Type} (node : Nat → Ex V) : Step V → List (Nat × Nat)
  | .assign _ e => e.reads
  | .create _ args => args.flatMap fun x => (x.ex node).reads
  | .call _ _ _ => []

/-- the arrays a step uses -/
def Step.uses {V : Type} (node : Nat → Ex V) : Step V → List Nat
  | .call tx ty _ => ty :: tx
  | s => (s.reads node).map (·.1)

/-- the arguments of array `a` -/
def argsOf {V : Type} (prog : List (Step V)) (a : Nat) : List (Arg V) :=
  match (prog.filterMap Step.creates).find? (fun c => c.1 == a) with
  | some c => c.2
  | none => []

/-- the number of elements of array `a` -/
def sizeOf' {V : Type} (prog : List (Step V)) (a : Nat) : Nat := (argsOf prog a).length

/-- the sizes of all arrays together -/
def cells {V : Type} (prog : List (Step V)) : Nat := ((prog.filterMap Step.creates).map (·.2.length)).sum

/-- step `q` creates array `a` -/
def CreatedAt {V : Type} (prog : List (Step V)) (a q : Nat) : Prop := ∃ args, prog[q]? = some (.create a args)

/-- Arrays are created once, before they are used, and `last a` is not before the last step which uses array `a`;
steps count from 1 there. Elements are inside of their arrays. -/
structure Lifetimes {V : Type} (node : Nat → Ex V) (prog : List (Step V)) (last : Nat → Nat) : Prop where
  once : ((prog.filterMap Step.creates).map (·.1)).Nodup
  needed : ∀ a q, CreatedAt prog a q → q + 1 < last a ∧ last a ≤ prog.length
  used : ∀ (p : Nat) st, prog[p]? = some st → ∀ a ∈ st.uses node, (∃ q, q < p ∧ CreatedAt prog a q) ∧ p + 1 ≤ last a
  inside : ∀ (p : Nat) st, prog[p]? = some st → ∀ a i, (a, i) ∈ st.reads node → i < sizeOf' prog a

/-- A node has one value: whenever it is an argument of a new array, its expression has the value `val n`. -/
def OneValue {V : Type} (node : Nat → Ex V) (prog : List (Step V)) (s : St V) : Prop :=
  ∃ val : Nat → V, ∀ (p b : Nat) args, prog[p]? = some (.create b args) → ∀ n, Arg.op n ∈ args →
    let sp := runSteps node (sizeOf' prog) (prog.take p) s
    (node n).eval sp.env sp.arr = val n

/-- Arguments of new arrays are elements of arrays, or read only arrays which are used later, too. -/
def NoNested {V : Type} (node : Nat → Ex V) (prog : List (Step V)) (last : Nat → Nat) : Prop :=
  ∀ (p b : Nat) args, prog[p]? = some (.create b args) → ∀ x ∈ args,
    (∃ a i, x.ex node = .elem a i) ∨ ∀ a i, (a, i) ∈ (x.ex node).reads → p + 1 < last a

end Verif.Arrays
