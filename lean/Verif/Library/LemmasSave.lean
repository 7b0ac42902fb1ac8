import Verif.Library.ModelSave

namespace Verif.Library.Save

theorem saveModels_flatten (opens : List Char → Bool) (folder : List Char) (models : List (List (List Char × List Char))) (d : Disk) :
    models.foldl (fun d l => saveAll opens folder l d) d = saveAll opens folder models.flatten d := by
  induction models generalizing d with
  | nil => rfl
  | cons l ls ih =>
    rw [List.foldl_cons, ih, List.flatten_cons, saveAll, saveAll, saveAll, List.foldl_append]

theorem saveSourcesTo_eq (mk : Mkdir) (opens : List Char → Bool) (folder : List Char) (models : List (List (List Char × List Char)))
    (lib custom : List (List Char × List Char)) (d : Disk) (h : mk ≠ .failed) :
    saveSourcesTo mk opens folder models lib custom d = (true, saveAll opens folder (models.flatten ++ lib ++ custom) d) := by
  have : createFolder mk = true := by cases mk <;> simp_all [createFolder]
  simp only [saveSourcesTo, this, if_true, saveModels_flatten]
  simp only [saveAll, List.foldl_append]

theorem path_eq {folder base : List Char} (h : (folder = base ∧ base.getLast? ≠ some '/') ∨ folder = base ++ ['/']) (n : List Char) :
    Build.createPath folder n = base ++ '/' :: n := by
  rcases h with ⟨rfl, h⟩ | rfl
  · simp [Build.createPath, h]
  · simp [Build.createPath]

theorem saveAll_other {opens : List Char → Bool} {folder base : List Char}
    (hf : (folder = base ∧ base.getLast? ≠ some '/') ∨ folder = base ++ ['/']) (l : List (List Char × List Char)) (d : Disk) (q : List Char)
    (h : ∀ s ∈ l, q ≠ base ++ '/' :: s.1) : saveAll opens folder l d q = d q := by
  induction l generalizing d with
  | nil => rfl
  | cons s l ih =>
    show saveAll opens folder l (saveFile opens folder s d) q = _
    rw [ih _ fun s' h' => h s' (by simp [h']), saveFile, path_eq hf]
    split
    · exact if_neg (h s (by simp))
    · rfl

theorem saveAll_last {opens : List Char → Bool} {folder base : List Char}
    (hf : (folder = base ∧ base.getLast? ≠ some '/') ∨ folder = base ++ ['/']) (l₁ l₂ : List (List Char × List Char)) (n t : List Char) (d : Disk)
    (ho : opens (base ++ '/' :: n) = true) (h : ∀ s ∈ l₂, s.1 ≠ n) :
    saveAll opens folder (l₁ ++ (n, t) :: l₂) d (base ++ '/' :: n) = some t := by
  have e : saveAll opens folder (l₁ ++ (n, t) :: l₂) d = saveAll opens folder l₂ (saveFile opens folder (n, t) (saveAll opens folder l₁ d)) := by
    simp only [saveAll, List.foldl_append, List.foldl_cons]
  rw [e, saveAll_other hf l₂ _ _ fun s hs e => h s hs (by simpa using e.symm), saveFile, path_eq hf, if_pos ho, if_pos rfl]

theorem saveAll_closed {opens : List Char → Bool} {folder : List Char} (l : List (List Char × List Char)) (d : Disk) (q : List Char)
    (h : opens q = false) : saveAll opens folder l d q = d q := by
  induction l generalizing d with
  | nil => rfl
  | cons s l ih =>
    show saveAll opens folder l (saveFile opens folder s d) q = _
    rw [ih, saveFile]
    split
    · next ho => exact if_neg fun e => by rw [← e, h] at ho; cases ho
    · rfl

end Verif.Library.Save
