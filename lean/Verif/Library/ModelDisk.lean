import Verif.Library.ModelBuild

/-
Model of `compileSources` with `setSaveToDiskFirst(true)`, /repo/include/cppad/cg/model/compiler/abstract_c_compiler.hpp l.146-244,
`GccCompiler::compileFile`, model/compiler/gcc_compiler.hpp l.110-126, and `createDynamicLibrary` with it.
Simplified as in ModelBuild; the folders are taken to be there; a compiler which is given a file with an object or a library fails
and writes nothing.
-/
namespace Verif.Library.Build

variable {O : Type}

/-- `compileFile`, gcc_compiler.hpp l.110-126: what the compiler does with a path -/
def ccFile (T : Tools O) (fs : Files O) (path : List Char) : Option O × Bool :=
  match fs path with
  | some (.other text) => T.cc text
  | _ => (none, false)

/-- one source, abstract_c_compiler.hpp l.192-227; `opens` tells which paths can be opened for writing, the state of the stream is not
looked at (l.220-224) -/
def compileOneDisk (T : Tools O) (opens : List Char → Bool) (src tmp : List Char) (s : List Char × List Char) (st : St O) : Bool × St O :=
  let file := objPath tmp s.1
  let ofiles := if file ∈ st.ofiles then st.ofiles else st.ofiles ++ [file]
  let srcfile := createPath src s.1
  let fs := if opens srcfile then put st.files srcfile (some (.other s.2)) else st.files
  match ccFile T fs srcfile with
  | (some o, ok) => (ok, ⟨put fs file (some (.obj o)), ofiles⟩)
  | (none, ok) => (ok, ⟨fs, ofiles⟩)

/-- `compileSources`, abstract_c_compiler.hpp l.152-244 -/
def compileDisk (T : Tools O) (opens : List Char → Bool) (src tmp : List Char) : List (List Char × List Char) → St O → Bool × St O
  | [], st => (true, st)
  | s :: ss, st =>
    match compileOneDisk T opens src tmp s st with
    | (false, st) => (false, st)
    | (true, st) => compileDisk T opens src tmp ss st

/-- the sources of each model, of the library and of the user, dynamic_library_processor.hpp l.134-146 -/
def compileGroupsDisk (T : Tools O) (opens : List Char → Bool) (src tmp : List Char) : List (List (List Char × List Char)) → St O → Bool × St O
  | [], st => (true, st)
  | g :: gs, st =>
    match compileDisk T opens src tmp g st with
    | (false, st) => (false, st)
    | (true, st) => compileGroupsDisk T opens src tmp gs st

/-- `createDynamicLibrary` -/
def createDisk (T : Tools O) (opens : List Char → Bool) (src tmp lib : List Char) (groups : List (List (List Char × List Char))) (st : St O) : Bool × St O :=
  match compileGroupsDisk T opens src tmp groups st with
  | (false, st) => (false, cleanup st)
  | (true, st) =>
    match buildDynamic T lib st with
    | (ok, st) => (ok, cleanup st)

end Verif.Library.Build
