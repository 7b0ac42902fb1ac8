/-
Specification of calls of external (atomic) functions by compiled code: a call reaches the function which was added under the name of the
recorded function. Nothing here knows about positions in tables.
-/
namespace Verif.Library.Names

abbrev Name := List Char

/-- an atomic function: the object, its id and its name -/
structure Fun where
  obj : Nat
  id : Nat
  name : Name
deriving DecidableEq

/-- an operation of the graph which calls the function with this id, for the orders `q` to `p` (`q` is not used by reverse mode) -/
structure Call where
  id : Nat
  reverse : Bool
  q : Nat
  p : Nat
deriving DecidableEq

/-- the generation of the source of one function: the atomic functions registered while recording (in this order), the calls found in the graph and
the calls printed, in the order of evaluation -/
structure Gen where
  funs : List Fun
  found : List Call
  printed : List Call

/-- every printed call was found; an object has one id and one name -/
structure Gen.Ok (g : Gen) : Prop where
  found : ∀ c ∈ g.printed, c ∈ g.found
  objects : ∀ f ∈ g.funs, ∀ f' ∈ g.funs, f.obj = f'.obj → f = f'

/-- the name of the function called -/
def Gen.CallsName (g : Gen) (c : Call) (nm : Name) : Prop := ∃ f ∈ g.funs, f.id = c.id ∧ f.name = nm

/-- the names used by the code of a model -/
def Uses (gs : List Gen) (nm : Name) : Prop := ∃ g ∈ gs, ∃ c ∈ g.found, g.CallsName c nm

/-- no two functions have the same id -/
def Gen.IdsDiffer (g : Gen) : Prop := ∀ f ∈ g.funs, ∀ f' ∈ g.funs, f.id = f'.id → f = f'

/-- source can be generated: ids differ, the functions which are called are known, and no function with a higher id has the same name as one which
is called -/
def Gen.Possible (g : Gen) : Prop :=
  g.IdsDiffer ∧ (∀ c ∈ g.found, ∃ f ∈ g.funs, f.id = c.id) ∧
    ∀ c ∈ g.printed, ∀ f ∈ g.funs, f.id = c.id → ∀ f' ∈ g.funs, f'.name = f.name → f'.id ≤ f.id

/-- what is done with a compiled model: external functions are given (a name and a number which stands for the function), or the code of
one of the generated functions is evaluated -/
inductive Do
  | add (nm : Name) (ext : Nat)
  | eval (k : Nat)

/-- what happens: a result of `add`, an exception, or calls of external functions (the function, the mode and the orders) -/
inductive Happens
  | added (b : Bool)
  | fails
  | calls (l : List (Nat × Call))
deriving DecidableEq

/-- the function last added with a name, given what was done before, newest first -/
def lastAdded (nm : Name) : List Do → Option Nat
  | [] => none
  | .add nm' e :: before => if nm' = nm then some e else lastAdded nm before
  | .eval _ :: before => lastAdded nm before

/-- what has to happen, given what was done before -/
def Right (gs : List Gen) (before : List Do) : Do → Happens → Prop
  | .add nm _, h => ∃ b, h = .added b ∧ (b = true ↔ Uses gs nm)
  | .eval k, h =>
    ((∃ nm, Uses gs nm ∧ lastAdded nm before = none) → h = .fails) ∧
    ((∀ nm, Uses gs nm → lastAdded nm before ≠ none) → ∃ l, h = .calls l ∧ ∃ g, gs[k]? = some g ∧ l.map (·.2) = g.printed ∧
      ∀ x ∈ l, ∃ nm, g.CallsName x.2 nm ∧ lastAdded nm before = some x.1)

/-- every step has the right result -/
def AllRight (gs : List Gen) : List Do → List Do → List Happens → Prop
  | _, [], [] => True
  | before, d :: ds, h :: hs => Right gs before d h ∧ AllRight gs (d :: before) ds hs
  | _, _, _ => False

/-- the functions evaluated exist -/
def Exist (gs : List Gen) (ds : List Do) : Prop := ∀ k, .eval k ∈ ds → k < gs.length

/-! ### the arrays of a generated function -/

/-- declarations: the lengths of `atomicTx` and `atomicPy` (0 if not declared), and whether `atomicTy` and `atomicPx` are declared -/
structure Decls where
  tx : Nat
  ty : Bool
  px : Bool
  py : Nat
deriving DecidableEq

/-- everything a call uses is declared: `tx[0..p]`, and `ty`, or `px` and `py[0..p]` -/
def Decls.Enough (d : Decls) (c : Call) : Prop :=
  (∀ k ≤ c.p, k < d.tx) ∧ (c.reverse = false → d.ty = true) ∧ (c.reverse = true → d.px = true ∧ ∀ k ≤ c.p, k < d.py)

/-! ### text in C -/

inductive Read
  | begin
  | item
  | str (rev : List Char)
  | esc (rev : List Char)
  | after
  | sep
  | done

/-- the meaning of `{"...", "..."}` in C, with the most common escape sequences -/
def readNames : Read → List Name → List Char → Option (List Name)
  | .done, acc, [] => some acc.reverse
  | _, _, [] => none
  | .begin, acc, c :: cs => if c = '{' then readNames .item acc cs else none
  | .item, acc, c :: cs => if c = '"' then readNames (.str []) acc cs else if c = '}' then readNames .done acc cs else none
  | .str r, acc, c :: cs =>
    if c = '"' then readNames .after (r.reverse :: acc) cs
    else if c = '\\' then readNames (.esc r) acc cs
    else if c = '\n' then none
    else readNames (.str (c :: r)) acc cs
  | .esc r, acc, c :: cs =>
    if c = 'n' then readNames (.str ('\n' :: r)) acc cs
    else if c = 't' then readNames (.str ('\t' :: r)) acc cs
    else if c = '"' ∨ c = '\\' then readNames (.str (c :: r)) acc cs
    else none
  | .after, acc, c :: cs =>
    if c = ',' then readNames .sep acc cs else if c = '}' then readNames .done acc cs else if c = ' ' then readNames .after acc cs else none
  | .sep, acc, c :: cs => if c = '"' then readNames (.str []) acc cs else if c = ' ' then readNames .sep acc cs else none
  | .done, _, _ :: _ => none

/-- names which can be written into C without escaping -/
def Plain (nm : Name) : Prop := ∀ c ∈ nm, c ≠ '"' ∧ c ≠ '\\' ∧ c ≠ '\n'

end Verif.Library.Names
