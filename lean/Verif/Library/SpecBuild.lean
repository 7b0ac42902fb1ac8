/-
Files, a compiler and a linker.
-/
namespace Verif.Library.Build

/-- a file: an object, a library (which is a list of objects) or anything else -/
inductive File (O : Type)
  | obj (o : O)
  | lib (os : List O)
  | other (text : List Char)

abbrev Files (O : Type) := List Char → Option (File O)

/-- the compiler: which object it writes for a source, if any, and whether it succeeds; whether the linker accepts some objects; the order in which files are listed in a set -/
structure Tools (O : Type) where
  cc : List Char → Option O × Bool
  accepts : List O → Bool
  ord : List (List Char) → List (List Char)

/-- the file with the source of a function of a model -/
def sourceName (model function : String) : List Char := (model ++ "_" ++ function ++ ".c").toList

/-- the object file of a source in a folder -/
def objectFile (folder name : List Char) : List Char :=
  if ['/'] <:+ folder then folder ++ name ++ ['.', 'o'] else folder ++ ['/'] ++ name ++ ['.', 'o']

end Verif.Library.Build
