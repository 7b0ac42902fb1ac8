import Verif.Library.ModelBuild

/-
Model of `SaveFilesModelLibraryProcessor::saveSourcesTo`, /repo/include/cppad/cg/model/save_files_model_library_processor.hpp
l.42-71, with `createFolder`, model/system/linux_system.hpp l.108-116.
Simplified: a file which can be opened is written completely; a path is the text of it, so `a/b` and `a//b` are different.
-/
namespace Verif.Library.Save

/-- What `mkdir` does: success, failure with `EEXIST`, other failure -/
inductive Mkdir | done | exists | failed
  deriving DecidableEq

/-- The texts of the files by path -/
abbrev Disk := List Char → Option (List Char)

/-- `createFolder`, linux_system.hpp l.108-116; `false` is an exception -/
def createFolder : Mkdir → Bool
  | .done => true
  | .exists => true
  | .failed => false

/-- `saveFile`, save_files_model_library_processor.hpp l.44-50; `opens` tells which paths can be opened for writing, the
state of the stream is not looked at -/
def saveFile (opens : List Char → Bool) (folder : List Char) (s : List Char × List Char) (d : Disk) : Disk :=
  if opens (Build.createPath folder s.1) then fun q => if q = Build.createPath folder s.1 then some s.2 else d q else d

/-- The loops over one map of sources, l.59-61, 64-66, 68-70 -/
def saveAll (opens : List Char → Bool) (folder : List Char) (l : List (List Char × List Char)) (d : Disk) : Disk :=
  l.foldl (fun d s => saveFile opens folder s d) d

/-- `saveSourcesTo`, l.42-71: the sources of all models, then of the library, then of the user -/
def saveSourcesTo (mk : Mkdir) (opens : List Char → Bool) (folder : List Char) (models : List (List (List Char × List Char)))
    (lib custom : List (List Char × List Char)) (d : Disk) : Bool × Disk :=
  if createFolder mk then
    let d1 := models.foldl (fun d l => saveAll opens folder l d) d
    let d2 := saveAll opens folder lib d1
    (true, saveAll opens folder custom d2)
  else (false, d)

end Verif.Library.Save
