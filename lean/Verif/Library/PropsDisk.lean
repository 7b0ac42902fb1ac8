import Verif.Library.LemmasDisk
import Verif.Library.LemmasSave
import Verif.Library.PropsBuild

/-
C91: dynamic libraries whose sources are saved to disk first.
-/
namespace Verif.Library.Build

variable {O : Type}

/-- C91, if all source files can be opened and are no object files: the creation succeeds if and only if it does without saving, and all
files are the same but for the source files -/
theorem disk_same_partial (T : Tools O) (opens : List Char → Bool) (src base tmp lib : List Char) (groups : List (List (List Char × List Char)))
    (fs : Files O) (hsrc : (src = base ∧ base.getLast? ≠ some '/') ∨ src = base ++ ['/']) (hord : ∀ l, (T.ord l).Perm l)
    (ho : ∀ s ∈ groups.flatten, opens (base ++ '/' :: s.1) = true)
    (hobj : ∀ s ∈ groups.flatten, ∀ s' ∈ groups.flatten, objectFile tmp s.1 ≠ base ++ '/' :: s'.1) :
    (createDisk T opens src tmp lib groups ⟨fs, []⟩).1 = (create T tmp lib groups ⟨fs, []⟩).1 ∧
      ∀ p, (∀ s ∈ groups.flatten, p ≠ base ++ '/' :: s.1) →
        (createDisk T opens src tmp lib groups ⟨fs, []⟩).2.files p = (create T tmp lib groups ⟨fs, []⟩).2.files p := by
  obtain ⟨a, b⟩ := createDisk_agree T opens src tmp lib (fun p => ∃ s ∈ groups.flatten, p = base ++ '/' :: s.1) groups fs hord
    (fun s h => by rw [Save.path_eq hsrc]; exact ho s h) (fun s h => ⟨s, h, Save.path_eq hsrc s.1⟩)
    (fun s h => by
      rintro ⟨s', h', e⟩
      rw [objPath_eq] at e
      exact hobj s h s' h' e)
  exact ⟨a, fun p hp => b.2 p fun ⟨s, h, e⟩ => hp s h e⟩

/-- C91: if also no two sources have the same name, all of them compile and the linker accepts their objects, the library is created
from exactly the objects of all sources -/
theorem disk_library_partial (T : Tools O) (c : List Char → O) (opens : List Char → Bool) (src base tmp lib : List Char)
    (groups : List (List (List Char × List Char))) (fs : Files O)
    (hsrc : (src = base ∧ base.getLast? ≠ some '/') ∨ src = base ++ ['/']) (hord : ∀ l, (T.ord l).Perm l)
    (ho : ∀ s ∈ groups.flatten, opens (base ++ '/' :: s.1) = true)
    (hobj : ∀ s ∈ groups.flatten, ∀ s' ∈ groups.flatten, objectFile tmp s.1 ≠ base ++ '/' :: s'.1)
    (hcc : ∀ s ∈ groups.flatten, T.cc s.2 = (some (c s.2), true)) (hnames : (groups.flatten.map Prod.fst).Nodup)
    (hacc : ∀ os : List O, os.Perm (groups.flatten.map fun s => c s.2) → T.accepts os = true)
    (hlib : ∀ s ∈ groups.flatten, lib ≠ objectFile tmp s.1) (hlib' : ∀ s ∈ groups.flatten, lib ≠ base ++ '/' :: s.1) :
    ∃ os st, createDisk T opens src tmp lib groups ⟨fs, []⟩ = (true, st) ∧ st.files lib = some (.lib os) ∧
      os.Perm (groups.flatten.map fun s => c s.2) := by
  obtain ⟨a, b⟩ := disk_same_partial T opens src base tmp lib groups fs hsrc hord ho hobj
  obtain ⟨os, st, h1, h2, h3, -⟩ := library_right_partial T c tmp lib groups fs hord hcc hnames hacc hlib
  rw [h1] at a
  refine ⟨os, (createDisk T opens src tmp lib groups ⟨fs, []⟩).2, Prod.ext a rfl, ?_, h3⟩
  rw [b lib hlib', h1]
  exact h2

/-- C91: if a source file cannot be opened and there was none before, there is an exception -/
theorem disk_missing (T : Tools O) (opens : List Char → Bool) (src base tmp lib : List Char) (groups : List (List (List Char × List Char)))
    (fs : Files O) (s : List Char × List Char) (hsrc : (src = base ∧ base.getLast? ≠ some '/') ∨ src = base ++ ['/'])
    (hs : s ∈ groups.flatten) (ho : opens (base ++ '/' :: s.1) = false) (hn : fs (base ++ '/' :: s.1) = none)
    (hobj : ∀ s' ∈ groups.flatten, objectFile tmp s'.1 ≠ base ++ '/' :: s.1) :
    (createDisk T opens src tmp lib groups ⟨fs, []⟩).1 = false := by
  have h := compileGroupsDisk_none T opens src tmp (base ++ '/' :: s.1) groups ⟨fs, []⟩ ho hn
    (fun s' h' e => hobj s' h' (by rw [← objPath_eq, e])) ⟨s, hs, (Save.path_eq hsrc s.1).symm⟩
  rw [createDisk]
  rcases hx : compileGroupsDisk T opens src tmp groups ⟨fs, []⟩ with ⟨x, a⟩
  rw [hx] at h
  simp only at h
  subst h
  rfl

/-- C91: if the library is created, all source files can be opened and no two sources have the same name, each source file has the text of its source -/
theorem disk_saved_partial (T : Tools O) (opens : List Char → Bool) (src base tmp lib : List Char) (groups : List (List (List Char × List Char)))
    (fs : Files O) (hsrc : (src = base ∧ base.getLast? ≠ some '/') ∨ src = base ++ ['/'])
    (hok : (createDisk T opens src tmp lib groups ⟨fs, []⟩).1 = true) (ho : ∀ s ∈ groups.flatten, opens (base ++ '/' :: s.1) = true)
    (hnames : (groups.flatten.map Prod.fst).Nodup)
    (hobj : ∀ s ∈ groups.flatten, ∀ s' ∈ groups.flatten, objectFile tmp s.1 ≠ base ++ '/' :: s'.1)
    (hlib : ∀ s ∈ groups.flatten, lib ≠ base ++ '/' :: s.1) :
    ∀ s ∈ groups.flatten, (createDisk T opens src tmp lib groups ⟨fs, []⟩).2.files (base ++ '/' :: s.1) = some (.other s.2) := by
  have h := createDisk_saved T opens src tmp lib groups fs hok (fun s h => by rw [Save.path_eq hsrc]; exact ho s h) hnames
    (fun s h s' h' => by rw [Save.path_eq hsrc, objPath_eq]; exact (hobj s' h' s h).symm) (fun s h => by rw [Save.path_eq hsrc]; exact (hlib s h).symm)
  intro s hs
  have := h s hs
  rw [Save.path_eq hsrc] at this
  exact this

/-- C91, failure: a source file of before cannot be opened for writing. Its old text is compiled, and nothing is reported. -/
theorem old_source_counterexample : ∃ (T : Tools (List Char)) (opens : List Char → Bool) (fs : Files (List Char)) (st : St (List Char)),
    (∀ s, T.cc s = (some s, true)) ∧ createDisk T opens ['s'] ['t'] ['l'] [[(['a'], ['n', 'e', 'w'])]] ⟨fs, []⟩ = (true, st) ∧
      st.files ['l'] = some (.lib [['o', 'l', 'd']]) :=
  ⟨⟨fun s => (some s, true), fun _ => true, id⟩, fun _ => false, fun p => if p = ['s', '/', 'a'] then some (.other ['o', 'l', 'd']) else none,
    _, fun _ => rfl, rfl, rfl⟩

/-! ### cases -/

private def tools' : Tools (List Char) := ⟨fun s => if s = [] then (some ['?'], false) else (some s, true), fun os => !os.isEmpty, List.reverse⟩

private def two : List (List (List Char × List Char)) := [[(['a'], ['1'])], [(['b'], ['2'])]]

private def made' (r : Bool × St (List Char)) : Bool × Option (List (List Char)) :=
  (r.1, match r.2.files ['l'] with
  | some (.lib os) => some os
  | _ => none)

example : (∀ s ∈ two.flatten, ∀ s' ∈ two.flatten, objectFile ['t'] s.1 ≠ ['s'] ++ '/' :: s'.1) ∧
    (∀ s ∈ two.flatten, tools'.cc s.2 = (some s.2, true)) ∧ (two.flatten.map Prod.fst).Nodup ∧
    (∀ s ∈ two.flatten, ['l'] ≠ objectFile ['t'] s.1) ∧ (∀ s ∈ two.flatten, ['l'] ≠ ['s'] ++ '/' :: s.1) ∧
    made' (createDisk tools' (fun _ => true) ['s'] ['t'] ['l'] two ⟨fun _ => none, []⟩) = (true, some [['2'], ['1']]) := by decide +kernel

-- a source which does not compile
example : made' (createDisk tools' (fun _ => true) ['s'] ['t'] ['l'] (two ++ [[(['c'], [])]]) ⟨fun _ => none, []⟩) = (false, none) := by decide +kernel

-- a source file which cannot be opened
example : made' (createDisk tools' (fun p => p != ['s', '/', 'b']) ['s'] ['t'] ['l'] two ⟨fun _ => none, []⟩) = (false, none) := by decide +kernel

end Verif.Library.Build
