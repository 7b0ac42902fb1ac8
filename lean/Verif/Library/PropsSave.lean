import Verif.Library.LemmasSave

/-
C90: sources saved to a folder.
-/
namespace Verif.Library.Save

/-- C90, with any names: each file has the text of the last source with its name, where the sources of the models come
first and those of the user last; nothing else is changed. -/
theorem saved_last (mk : Mkdir) (opens : List Char → Bool) (folder base : List Char) (models : List (List (List Char × List Char)))
    (lib custom : List (List Char × List Char)) (d : Disk) (hm : mk ≠ .failed)
    (hf : (folder = base ∧ base.getLast? ≠ some '/') ∨ folder = base ++ ['/']) :
    ∃ d', saveSourcesTo mk opens folder models lib custom d = (true, d') ∧
      (∀ l₁ n t l₂, models.flatten ++ lib ++ custom = l₁ ++ (n, t) :: l₂ → (∀ s ∈ l₂, s.1 ≠ n) → opens (base ++ '/' :: n) = true →
        d' (base ++ '/' :: n) = some t) ∧
      ∀ q, (∀ s ∈ models.flatten ++ lib ++ custom, q ≠ base ++ '/' :: s.1) → d' q = d q := by
  refine ⟨_, saveSourcesTo_eq mk opens folder models lib custom d hm, fun l₁ n t l₂ e h ho => ?_, fun q h => saveAll_other hf _ d q h⟩
  rw [e]
  exact saveAll_last hf l₁ l₂ n t d ho h

/-- C90, if all files can be opened and no two sources have the same name: each source is saved under its name in the
folder, and nothing else is changed. -/
theorem saved_right_partial (mk : Mkdir) (opens : List Char → Bool) (folder base : List Char) (models : List (List (List Char × List Char)))
    (lib custom : List (List Char × List Char)) (d : Disk) (hm : mk ≠ .failed)
    (hf : (folder = base ∧ base.getLast? ≠ some '/') ∨ folder = base ++ ['/'])
    (ho : ∀ s ∈ models.flatten ++ lib ++ custom, opens (base ++ '/' :: s.1) = true)
    (hn : ((models.flatten ++ lib ++ custom).map Prod.fst).Nodup) :
    ∃ d', saveSourcesTo mk opens folder models lib custom d = (true, d') ∧
      (∀ s, s ∈ models.flatten ∨ s ∈ lib ∨ s ∈ custom → d' (base ++ '/' :: s.1) = some s.2) ∧
      ∀ q, (∀ s, s ∈ models.flatten ∨ s ∈ lib ∨ s ∈ custom → q ≠ base ++ '/' :: s.1) → d' q = d q := by
  obtain ⟨d', e, h1, h2⟩ := saved_last mk opens folder base models lib custom d hm hf
  refine ⟨d', e, fun s hs => ?_, fun q h => h2 q fun s hs => h s (by simpa [or_assoc] using hs)⟩
  have hs' : s ∈ models.flatten ++ lib ++ custom := by simpa [or_assoc] using hs
  have ho' := ho s hs'
  obtain ⟨l₁, l₂, e'⟩ := List.append_of_mem hs'
  refine h1 l₁ s.1 s.2 l₂ e' (fun s' hs' e'' => ?_) ho'
  rw [e', List.map_append, List.map_cons] at hn
  have := (List.nodup_cons.1 (List.nodup_append.1 hn).2.1).1
  exact this (e'' ▸ List.mem_map_of_mem hs')

/-- C90: if the folder cannot be created there is an exception, and no file is changed. -/
theorem save_failed (opens : List Char → Bool) (folder : List Char) (models : List (List (List Char × List Char)))
    (lib custom : List (List Char × List Char)) (d : Disk) : saveSourcesTo .failed opens folder models lib custom d = (false, d) := rfl

/-- C90: files which cannot be opened are not changed. -/
theorem closed_same (mk : Mkdir) (opens : List Char → Bool) (folder : List Char) (models : List (List (List Char × List Char)))
    (lib custom : List (List Char × List Char)) (d : Disk) (q : List Char) (h : opens q = false) :
    (saveSourcesTo mk opens folder models lib custom d).2 q = d q := by
  by_cases hm : mk = .failed
  · subst hm; rfl
  · rw [saveSourcesTo_eq mk opens folder models lib custom d hm]
    exact saveAll_closed _ d q h

/-- Not so if a file cannot be opened, for instance as the folder exists but is a file: nothing is saved, and there is no exception. -/
theorem lost_counterexample :
    ∃ (opens : List Char → Bool) (models : List (List (List Char × List Char))) (d : Disk),
      (['m'], ['t']) ∈ models.flatten ∧ (saveSourcesTo .exists opens ['f'] models [] [] d).1 = true ∧
        (saveSourcesTo .exists opens ['f'] models [] [] d).2 ['f', '/', 'm'] = none :=
  ⟨fun _ => false, [[(['m'], ['t'])]], fun _ => none, by decide, by decide, by decide⟩

/-- Not so if a source of the user has the name of a source of a model: the latter is lost, and there is no exception. -/
theorem replaced_counterexample :
    ∃ (models : List (List (List Char × List Char))) (custom : List (List Char × List Char)) (d : Disk),
      (['m'], ['t']) ∈ models.flatten ∧ (saveSourcesTo .done (fun _ => true) ['f'] models [] custom d).1 = true ∧
        (saveSourcesTo .done (fun _ => true) ['f'] models [] custom d).2 ['f', '/', 'm'] = some ['u'] :=
  ⟨[[(['m'], ['t'])]], [(['m'], ['u'])], fun _ => none, by decide, by decide, by decide⟩

/-- two models, a source of the library and one of the user; a file of before is kept -/
example : (let r := saveSourcesTo .exists (fun _ => true) ['f', '/'] [[(['a'], ['1'])], [(['b'], ['2'])]] [(['c'], ['3'])] [(['d'], ['4'])] (fun q => if q = ['f', '/', 'z'] then some ['5'] else none)
    r.1 = true ∧ ([['a'], ['b'], ['c'], ['d'], ['z'], ['y']].map fun n => r.2 (['f', '/'] ++ n)) =
      [some ['1'], some ['2'], some ['3'], some ['4'], some ['5'], none]) := by decide

end Verif.Library.Save
