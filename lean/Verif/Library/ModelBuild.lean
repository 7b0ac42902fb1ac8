import Verif.Library.SpecBuild

/-
Model of `DynamicModelLibraryProcessor::createDynamicLibrary`, /repo/include/cppad/cg/model/dynamic_lib/dynamic_library_processor.hpp l.125-168, with `AbstractCCompiler::compileSources` and
`cleanup`, model/compiler/abstract_c_compiler.hpp l.146-264 (sources are not saved to disk first, the default), `GccCompiler::buildDynamic`, model/compiler/gcc_compiler.hpp l.60-80, and `createPath`,
model/system/linux_system.hpp l.118-144. Folders, jobs and the loading of the library are left out. Sources are always position-independent here, so the flag is left out.
-/
namespace Verif.Library.Build

variable {O : Type}

/-- `createPath(folder, file)` -/
def createPath (folder file : List Char) : List Char := (if folder.getLast? = some '/' then folder else folder ++ ['/']) ++ file

/-- the files and `_ofiles` -/
structure St (O : Type) where
  files : Files O
  ofiles : List (List Char)

def put (fs : Files O) (p : List Char) (f : Option (File O)) : Files O := fun q => if q = p then f else fs q

/-- the path of an object, abstract_c_compiler.hpp l.194 -/
def objPath (tmp name : List Char) : List Char := createPath tmp (name ++ ".o".toList)

/-- one source, abstract_c_compiler.hpp l.192-242 and gcc_compiler.hpp l.92-108; `false` is an exception -/
def compileOne (T : Tools O) (tmp : List Char) (s : List Char × List Char) (st : St O) : Bool × St O :=
  let file := objPath tmp s.1
  let ofiles := if file ∈ st.ofiles then st.ofiles else st.ofiles ++ [file]
  match T.cc s.2 with
  | (some o, ok) => (ok, ⟨put st.files file (some (.obj o)), ofiles⟩)
  | (none, ok) => (ok, ⟨st.files, ofiles⟩)

/-- `compileSources` -/
def compileSources (T : Tools O) (tmp : List Char) : List (List Char × List Char) → St O → Bool × St O
  | [], st => (true, st)
  | s :: ss, st =>
    match compileOne T tmp s st with
    | (false, st) => (false, st)
    | (true, st) => compileSources T tmp ss st

/-- the sources of each model, of the library and of the user, dynamic_library_processor.hpp l.134-146 -/
def compileGroups (T : Tools O) (tmp : List Char) : List (List (List Char × List Char)) → St O → Bool × St O
  | [], st => (true, st)
  | g :: gs, st =>
    match compileSources T tmp g st with
    | (false, st) => (false, st)
    | (true, st) => compileGroups T tmp gs st

/-- the objects in some files, if all of them are objects -/
def objects (fs : Files O) : List (List Char) → Option (List O)
  | [] => some []
  | p :: ps =>
    match fs p with
    | some (.obj o) => (objects fs ps).map (o :: ·)
    | _ => none

/-- `buildDynamic`; a linker which fails is taken to write nothing -/
def buildDynamic (T : Tools O) (lib : List Char) (st : St O) : Bool × St O :=
  match objects st.files (T.ord st.ofiles) with
  | none => (false, st)
  | some os => if T.accepts os then (true, { st with files := put st.files lib (some (.lib os)) }) else (false, st)

/-- `cleanup`, abstract_c_compiler.hpp l.254-264 -/
def cleanup (st : St O) : St O := ⟨st.ofiles.foldl (fun fs p => put fs p none) st.files, []⟩

/-- `createDynamicLibrary` -/
def create (T : Tools O) (tmp lib : List Char) (groups : List (List (List Char × List Char))) (st : St O) : Bool × St O :=
  match compileGroups T tmp groups st with
  | (false, st) => (false, cleanup st)
  | (true, st) =>
    match buildDynamic T lib st with
    | (ok, st) => (ok, cleanup st)

end Verif.Library.Build
