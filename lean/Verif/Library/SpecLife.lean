/-
Specification of the life of model libraries, models and the atomic functions made from models: what a user who knows nothing about pointers
expects. Objects have numbers which are never used twice.
-/
namespace Verif.Library

/-- what a user can do -/
inductive Act
  /-- open a library which has models with these names -/
  | openLib (names : List Nat)
  /-- `model(name)` -/
  | getModel (lib name : Nat)
  | delModel (m : Nat)
  | delLib (l : Nat)
  /-- evaluation of a model -/
  | eval (m : Nat)
  /-- `asAtomic()` -/
  | asAtomic (m : Nat)
  /-- evaluation of the atomic function made from a model -/
  | evalAtomic (a : Nat)
  /-- move construction; the number of the new object is the result -/
  | moveLib (l : Nat)
  | moveModel (m : Nat)
deriving DecidableEq

inductive Out
  /-- a new (or known) object -/
  | obj (n : Nat)
  /-- a null pointer -/
  | null
  /-- the values computed by the library file opened as this number -/
  | values (file : Nat)
  /-- an exception -/
  | fails
  | done
  /-- the code of the library file is released, after its clean up function was called once -/
  | released (file : Nat)
  /-- the user used an object which is gone -/
  | misuse
  /-- undefined behaviour -/
  | ub
deriving DecidableEq

/-- a library object: the file and the names of the models, none if the contents went to another object -/
structure SLib where
  file : Option Nat
  names : List Nat

/-- a model object: the library it belongs to -/
structure SMdl where
  lib : Option Nat

structure SSt where
  next : Nat
  libs : Nat → Option SLib
  mdls : Nat → Option SMdl
  /-- the model an atomic function belongs to; there is at most one for each -/
  atoms : Nat → Option Nat

def SSt.init : SSt := ⟨0, fun _ => none, fun _ => none, fun _ => none⟩

def upd {α : Type} (f : Nat → α) (k : Nat) (v : α) : Nat → α := fun i => if i = k then v else f i

/-- the evaluation of a model: possible as long as its library is there -/
def SSt.evaluate (s : SSt) (m : Nat) : Out :=
  match s.mdls m with
  | none => .misuse
  | some d =>
    match d.lib with
    | none => .fails
    | some l =>
      match s.libs l with
      | some ⟨some h, _⟩ => .values h
      | _ => .fails

def SSt.step (s : SSt) : Act → Out × SSt
  | .openLib names => (.obj s.next, { s with next := s.next + 1, libs := upd s.libs s.next (some ⟨some s.next, names⟩) })
  | .getModel l name =>
    match s.libs l with
    | none => (.misuse, s)
    | some lib =>
      if name ∈ lib.names then (.obj s.next, { s with next := s.next + 1, mdls := upd s.mdls s.next (some ⟨some l⟩) })
      else (.null, s)
  | .delModel m =>
    match s.mdls m with
    | none => (.misuse, s)
    | some _ => (.done, { s with mdls := upd s.mdls m none, atoms := fun a => if s.atoms a = some m then none else s.atoms a })
  | .delLib l =>
    match s.libs l with
    | none => (.misuse, s)
    | some lib =>
      (match lib.file with
        | some h => .released h
        | none => .done, { s with libs := upd s.libs l none })
  | .eval m => (s.evaluate m, s)
  | .asAtomic m =>
    match s.mdls m with
    | none => (.misuse, s)
    | some _ =>
      match (List.range s.next).find? (fun a => s.atoms a == some m) with
      | some a => (.obj a, s)
      | none => (.obj s.next, { s with next := s.next + 1, atoms := upd s.atoms s.next (some m) })
  | .evalAtomic a =>
    match s.atoms a with
    | none => (.misuse, s)
    | some m => (s.evaluate m, s)
  | .moveLib l =>
    match s.libs l with
    | none => (.misuse, s)
    | some lib =>
      (.obj s.next, { s with
        next := s.next + 1
        libs := upd (upd s.libs l (some ⟨none, []⟩)) s.next (some lib)
        mdls := fun m => (s.mdls m).map fun d => if d.lib = some l then ⟨some s.next⟩ else d })
  | .moveModel m =>
    match s.mdls m with
    | none => (.misuse, s)
    | some d =>
      (.obj s.next, { s with
        next := s.next + 1
        mdls := upd (upd s.mdls m (some ⟨none⟩)) s.next (some d)
        atoms := fun a => if s.atoms a = some m then some s.next else s.atoms a })

def SSt.run (s : SSt) : List Act → List Out
  | [] => []
  | a :: as => (s.step a).1 :: (s.step a).2.run as

/-- objects are only moved while nothing refers to them: libraries without models, models whose library is gone and which have no atomic
function -/
def SSt.MayMove (s : SSt) : Act → Prop
  | .moveLib l => ∀ m d, s.mdls m = some d → d.lib ≠ some l
  | .moveModel m => (∀ d l, s.mdls m = some d → d.lib = some l → s.libs l = none) ∧ ∀ a, s.atoms a ≠ some m
  | _ => True

def SSt.Careful (s : SSt) : List Act → Prop
  | [] => True
  | a :: as => s.MayMove a ∧ (s.step a).2.Careful as

/-- no object is moved -/
def NoMoves (as : List Act) : Prop := ∀ a ∈ as, (∀ l, a ≠ .moveLib l) ∧ ∀ m, a ≠ .moveModel m

end Verif.Library
