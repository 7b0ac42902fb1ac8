import Verif.Library.ModelBuild

/-
Model of `DynamicModelLibraryProcessor::createStaticLibrary`, /repo/include/cppad/cg/model/dynamic_lib/dynamic_library_processor.hpp l.181-219, and of `ArArchiver::create`, ar_archiver.hpp l.54-77,
which runs `ar rcs`: files are inserted into the archive, replacing members with the same name (that is what the manual of `ar` says about `r`); it is created if it does not exist. The archive is kept
apart from other files. Whether a source is compiled to position-independent code is left to the given compiler.
-/
namespace Verif.Library.Build

variable {O : Type}

/-- the part of a path after the last `/`, which is the name of the member -/
def baseName (p : List Char) : List Char := (p.reverse.takeWhile (· ≠ '/')).reverse

/-- insert a member or replace the one with its name -/
def arInsert (ms : List (List Char × O)) (n : List Char) (o : O) : List (List Char × O) :=
  if n ∈ ms.map Prod.fst then ms.map fun m => if m.1 = n then (n, o) else m else ms ++ [(n, o)]

/-- insert some files; fails if one of them is missing -/
def arAll (fs : Files O) : List (List Char) → List (List Char × O) → Option (List (List Char × O))
  | [], ms => some ms
  | p :: ps, ms =>
    match fs p with
    | some (.obj o) => arAll fs ps (arInsert ms (baseName p) o)
    | _ => none

/-- `createStaticLibrary`; `ar` is the archive before, if there is one -/
def createStatic (T : Tools O) (tmp : List Char) (groups : List (List (List Char × List Char))) (ar : Option (List (List Char × O))) (st : St O) :
    Bool × Option (List (List Char × O)) × St O :=
  match compileGroups T tmp groups st with
  | (false, st) => (false, ar, cleanup st)
  | (true, st) =>
    match arAll st.files (T.ord st.ofiles) (ar.getD []) with
    | none => (false, ar, cleanup st)
    | some ms => (true, some ms, cleanup st)

end Verif.Library.Build
