import Verif.Library.SpecLife

/-
Model of the life of model libraries and models: dynamic_lib/linux/linux_dynamiclib.hpp, linux_dynamiclib_model.hpp (and with the same code
llvm/llvm_model_library.hpp, llvm_model.hpp, where nothing can be moved), functor_generic_model.hpp (`_isLibraryReady`, the pointers to
functions), generic_model.hpp (`asAtomic`), atomic_generic_model.hpp. All in include/cppad/cg/model.

Simplifications: a pointer is the number of the object, numbers are not used again; access to an object which is gone is undefined behaviour
(also if its memory is used for another one). A model has either all pointers to functions or none. What is evaluated is left open, the result
is the library file whose code is called. Files which cannot be opened, wrong versions and models which cannot be initialized are left out.
-/
namespace Verif.Library

/-- linux_dynamiclib.hpp l.34-38, functor_model_library.hpp l.30-33 -/
structure Lib where
  /-- `_dynLibHandle`; the file opened -/
  handle : Option Nat
  /-- `_models` -/
  models : List Nat
  /-- `_modelNames` -/
  names : List Nat
  /-- whether or not `_onClose` is not null -/
  onClose : Bool

/-- linux_dynamiclib_model.hpp l.35-36, functor_generic_model.hpp l.39-101, generic_model.hpp l.30 -/
structure Mdl where
  /-- `_dynLib` -/
  lib : Option Nat
  /-- `_isLibraryReady` -/
  ready : Bool
  /-- the file of the functions the model has pointers to -/
  fns : Option Nat
  /-- `_atomic` -/
  atomic : Option Nat

structure St where
  next : Nat
  libs : Nat → Option Lib
  mdls : Nat → Option Mdl
  /-- `model_` of the atomic functions -/
  atoms : Nat → Option Nat
  /-- files which are open -/
  files : Nat → Bool

def St.init : St := ⟨0, fun _ => none, fun _ => none, fun _ => none, fun _ => false⟩

/-- an evaluation, for instance `ForwardZero`, functor_generic_model.hpp l.336-350 -/
def St.evaluate (s : St) (m : Nat) : Out :=
  match s.mdls m with
  | none => .ub
  | some d =>
    if !d.ready then .fails
    else
      match d.fns with
      | none => .fails
      | some h => if s.files h then .values h else .ub

/-- `modelLibraryClosed` of the models in the set, linux_dynamiclib.hpp l.103-105, linux_dynamiclib_model.hpp l.75-78,
functor_generic_model.hpp l.1053-1073 -/
def closeModels : List Nat → (Nat → Option Mdl) → Option (Nat → Option Mdl)
  | [], f => some f
  | m :: ms, f =>
    match f m with
    | none => none
    | some d => closeModels ms (upd f m (some { d with lib := none, ready := false, fns := none }))

def St.step (s : St) : Act → Out × St
  -- linux_dynamiclib.hpp l.41-62; validation finds the names and `_onClose`
  | .openLib names => (.obj s.next, { s with
      next := s.next + 1
      libs := upd s.libs s.next (some ⟨some s.next, [], names, true⟩)
      files := upd s.files s.next true })
  -- linux_dynamiclib.hpp l.75-84, linux_dynamiclib_model.hpp l.59-67, functor_generic_model.hpp l.921-962
  | .getModel l name =>
    match s.libs l with
    | none => (.misuse, s)
    | some lib =>
      if name ∈ lib.names then
        match lib.handle with
        | none => (.ub, s)
        | some h =>
          if s.files h then
            (.obj s.next, { s with
              next := s.next + 1
              libs := upd s.libs l (some { lib with models := s.next :: lib.models })
              mdls := upd s.mdls s.next (some ⟨some l, true, some h, none⟩) })
          else (.ub, s)
      else (.null, s)
  -- linux_dynamiclib_model.hpp l.46-50, generic_model.hpp l.46-48
  | .delModel m =>
    match s.mdls m with
    | none => (.misuse, s)
    | some d =>
      let atoms := match d.atomic with
        | none => s.atoms
        | some a => upd s.atoms a none
      match d.lib with
      | none => (.done, { s with mdls := upd s.mdls m none, atoms := atoms })
      | some l =>
        match s.libs l with
        | none => (.ub, s)
        | some lib =>
          (.done, { s with
            mdls := upd s.mdls m none
            libs := upd s.libs l (some { lib with models := lib.models.filter (· != m) })
            atoms := atoms })
  -- linux_dynamiclib.hpp l.102-115
  | .delLib l =>
    match s.libs l with
    | none => (.misuse, s)
    | some lib =>
      match closeModels lib.models s.mdls with
      | none => (.ub, s)
      | some mdls =>
        match lib.handle with
        | none => (.done, { s with mdls := mdls, libs := upd s.libs l none })
        | some h =>
          if s.files h then
            (if lib.onClose then .released h else .done, { s with mdls := mdls, libs := upd s.libs l none, files := upd s.files h false })
          else (.ub, s)
  | .eval m =>
    match s.mdls m with
    | none => (.misuse, s)
    | some _ => (s.evaluate m, s)
  -- generic_model.hpp l.889-894
  | .asAtomic m =>
    match s.mdls m with
    | none => (.misuse, s)
    | some d =>
      match d.atomic with
      | some a => (.obj a, s)
      | none => (.obj s.next, { s with
          next := s.next + 1
          mdls := upd s.mdls m (some { d with atomic := some s.next })
          atoms := upd s.atoms s.next (some m) })
  -- atomic_generic_model.hpp l.52-84
  | .evalAtomic a =>
    match s.atoms a with
    | none => (.misuse, s)
    | some m => (s.evaluate m, s)
  -- linux_dynamiclib.hpp l.64-70, functor_model_library.hpp l.47-66
  | .moveLib l =>
    match s.libs l with
    | none => (.misuse, s)
    | some lib =>
      (.obj s.next, { s with
        next := s.next + 1
        libs := upd (upd s.libs l (some ⟨none, [], [], false⟩)) s.next (some lib) })
  -- linux_dynamiclib_model.hpp l.40-44, functor_generic_model.hpp l.104-138, generic_model.hpp l.40-44
  | .moveModel m =>
    match s.mdls m with
    | none => (.misuse, s)
    | some d =>
      (.obj s.next, { s with
        next := s.next + 1
        mdls := upd (upd s.mdls m (some { d with lib := none, ready := false, atomic := none })) s.next (some d) })

def St.run (s : St) : List Act → List Out
  | [] => []
  | a :: as => (s.step a).1 :: (s.step a).2.run as

end Verif.Library
