import Verif.Library.LemmasBuild

/-
C87: compiling the sources of a library.
-/
namespace Verif.Library.Build

variable {O : Type}

/-- C87: if no two sources have the same name, all of them compile and the linker accepts their objects, the library is created from exactly the objects of all sources, each
once. The compiler had no object files before. -/
theorem library_right_partial (T : Tools O) (c : List Char → O) (tmp lib : List Char) (groups : List (List (List Char × List Char))) (fs : Files O)
    (hord : ∀ l, (T.ord l).Perm l) (hcc : ∀ s ∈ groups.flatten, T.cc s.2 = (some (c s.2), true)) (hnames : (groups.flatten.map Prod.fst).Nodup)
    (hacc : ∀ os : List O, os.Perm (groups.flatten.map fun s => c s.2) → T.accepts os = true)
    (hlib : ∀ s ∈ groups.flatten, lib ≠ objectFile tmp s.1) :
    ∃ os st, create T tmp lib groups ⟨fs, []⟩ = (true, st) ∧ st.files lib = some (.lib os) ∧ os.Perm (groups.flatten.map fun s => c s.2) ∧ st.ofiles = [] := by
  simp only [← objPath_eq] at hlib
  obtain ⟨a, b, d, -⟩ := compileSources_right T tmp c groups.flatten ⟨fs, []⟩ hcc hnames (fun _ _ => by simp)
  rw [create, compileGroups_flatten]
  cases hs : compileSources T tmp groups.flatten ⟨fs, []⟩ with
  | mk ok st =>
    rw [hs] at a b d
    simp only [List.nil_append] at a b d
    subst a
    -- every path has an object
    have hex : ∃ f : List Char → O, ∀ s ∈ groups.flatten, f (objPath tmp s.1) = c s.2 := by
      refine ⟨fun p => match st.files p with | some (.obj o) => o | _ => c p, fun s h => ?_⟩
      simp only [d s h]
    obtain ⟨f, hf⟩ := hex
    have hobj : objects st.files (T.ord st.ofiles) = some ((T.ord st.ofiles).map f) := by
      refine objects_perm st.files f _ fun p hp => ?_
      have : p ∈ st.ofiles := (hord st.ofiles).mem_iff.1 hp
      rw [b, List.mem_map] at this
      obtain ⟨s, h, rfl⟩ := this
      rw [d s h, hf s h]
    have hperm : ((T.ord st.ofiles).map f).Perm (groups.flatten.map fun s => c s.2) := by
      refine ((hord st.ofiles).map f).trans ?_
      rw [b, List.map_map]
      have : groups.flatten.map (f ∘ fun s => objPath tmp s.1) = groups.flatten.map fun s => c s.2 :=
        List.map_congr_left fun s h => hf s h
      rw [this]
    simp only [buildDynamic, hobj, hacc _ hperm, if_true]
    refine ⟨_, _, rfl, ?_, hperm, rfl⟩
    rw [cleanup_at]
    have : lib ∉ st.ofiles := by
      rw [b, List.mem_map]
      rintro ⟨s, h, e⟩
      exact hlib s h e.symm
    simp [this, put]

/-- C87: if the library is created and no two sources have the same name, all sources compiled, and it has what the compiler wrote for each of them -/
theorem library_complete_partial (T : Tools O) (tmp lib : List Char) (groups : List (List (List Char × List Char))) (fs : Files O) (st : St O)
    (hord : ∀ l, (T.ord l).Perm l) (hnames : (groups.flatten.map Prod.fst).Nodup) (hnew : ∀ s ∈ groups.flatten, fs (objectFile tmp s.1) = none)
    (hlib : ∀ s ∈ groups.flatten, lib ≠ objectFile tmp s.1) (h : create T tmp lib groups ⟨fs, []⟩ = (true, st)) :
    (∀ s ∈ groups.flatten, ∃ o, T.cc s.2 = (some o, true)) ∧
      ∃ os, st.files lib = some (.lib os) ∧ (os.map some).Perm (groups.flatten.map fun s => (T.cc s.2).1) := by
  simp only [← objPath_eq] at hnew hlib
  rw [create, compileGroups_flatten] at h
  cases hs : compileSources T tmp groups.flatten ⟨fs, []⟩ with
  | mk ok st1 =>
    rw [hs] at h
    cases ok with
    | false => cases h
    | true =>
      obtain ⟨b, d, -⟩ := compileSources_true T tmp groups.flatten ⟨fs, []⟩ (by rw [hs]) hnames (fun _ _ => by simp) hnew
      rw [hs] at b d
      simp only [List.nil_append] at b d
      simp only [buildDynamic] at h
      cases ho : objects st1.files (T.ord st1.ofiles) with
      | none => rw [ho] at h; cases h
      | some os =>
        rw [ho] at h
        simp only at h
        cases hacc : T.accepts os with
        | false => rw [hacc] at h; cases h
        | true =>
          rw [hacc] at h
          simp only [if_true, Prod.mk.injEq, true_and] at h
          have hmap := objects_some _ _ _ ho
          have hperm : (os.map fun o => some (File.obj o)).Perm (groups.flatten.map fun s => (T.cc s.2).1.map File.obj) := by
            rw [← hmap]
            refine ((hord st1.ofiles).map st1.files).trans ?_
            rw [b, List.map_map]
            have : groups.flatten.map (st1.files ∘ fun s => objPath tmp s.1) = groups.flatten.map fun s => (T.cc s.2).1.map File.obj :=
              List.map_congr_left fun s hs => (d s hs).2
            rw [this]
          have hperm' := hperm.map fun f => f.bind fun f => match f with | .obj o => some o | _ => none
          rw [List.map_map, List.map_map] at hperm'
          refine ⟨fun s hs => ?_, os, ?_, ?_⟩
          · have : (T.cc s.2).1.map File.obj ∈ os.map fun o => some (File.obj o) :=
              hperm.mem_iff.2 (List.mem_map.2 ⟨s, hs, rfl⟩)
            obtain ⟨o, -, e⟩ := List.mem_map.1 this
            have hok := (d s hs).1
            cases hcc : T.cc s.2 with
            | mk w ok =>
              rw [hcc] at e hok
              cases w with
              | none => cases e
              | some o' => exact ⟨o', by simp only at hok; rw [hok]⟩
          · rw [← h, cleanup_at]
            have : lib ∉ st1.ofiles := by
              rw [b, List.mem_map]
              rintro ⟨s, hs, e⟩
              exact hlib s hs e.symm
            simp [this, put]
          · have e1 : os.map ((fun f : Option (File O) => f.bind fun f => match f with | .obj o => some o | _ => none) ∘ fun o => some (File.obj o)) = os.map some := rfl
            have e2 : groups.flatten.map ((fun f : Option (File O) => f.bind fun f => match f with | .obj o => some o | _ => none) ∘ fun s => (T.cc s.2).1.map File.obj)
                = groups.flatten.map fun s => (T.cc s.2).1 :=
              List.map_congr_left fun s _ => by
                show ((T.cc s.2).1.map File.obj).bind _ = _
                cases (T.cc s.2).1 <;> rfl
            rw [e1, e2] at hperm'
            exact hperm'

/-- C87: whether the library is created, a source does not compile or the linker fails, no object files are left and no other files are changed; without a library
the file with its name is the one of before -/
theorem temporary_right (T : Tools O) (tmp lib : List Char) (groups : List (List (List Char × List Char))) (fs : Files O)
    (hnew : ∀ s ∈ groups.flatten, fs (objectFile tmp s.1) = none) :
    (create T tmp lib groups ⟨fs, []⟩).2.ofiles = [] ∧ (∀ p, p ≠ lib → (create T tmp lib groups ⟨fs, []⟩).2.files p = fs p) ∧
      ((create T tmp lib groups ⟨fs, []⟩).1 = false → (create T tmp lib groups ⟨fs, []⟩).2.files lib = fs lib) := by
  simp only [← objPath_eq] at hnew
  obtain ⟨a, -, b⟩ := compileSources_frame T tmp groups.flatten ⟨fs, []⟩
  rw [create, compileGroups_flatten]
  cases hs : compileSources T tmp groups.flatten ⟨fs, []⟩ with
  | mk ok st =>
    rw [hs] at a b
    have hcl : ∀ p, (cleanup st).files p = fs p := by
      intro p
      rw [cleanup_at]
      split
      · rename_i h
        rcases b p h with h | ⟨s, h', rfl⟩
        · cases h
        · exact (hnew s h').symm
      · rename_i h
        exact a p h
    cases ok with
    | false => exact ⟨rfl, fun p _ => hcl p, fun _ => hcl lib⟩
    | true =>
      simp only [buildDynamic]
      cases objects st.files (T.ord st.ofiles) with
      | none => exact ⟨rfl, fun p _ => hcl p, fun _ => hcl lib⟩
      | some os =>
        simp only
        cases hacc : T.accepts os with
        | false => exact ⟨rfl, fun p _ => hcl p, fun _ => hcl lib⟩
        | true =>
          refine ⟨rfl, fun p hp => ?_, nofun⟩
          have := hcl p
          rw [cleanup_at] at this
          simp only [if_true]
          rw [cleanup_at]
          simpa [put, hp] using this

/-! ### cases -/

/-- objects are the sources; empty sources do not compile but leave a file; the linker wants an object -/
private def tools : Tools (List Char) := ⟨fun s => if s = [] then (some ['?'], false) else (some s, true), fun os => !os.isEmpty, List.reverse⟩

private def files : Files (List Char) := fun p => if p = "m.so".toList then some (.other "old".toList) else none

private def good : List (List (List Char × List Char)) :=
  [[(sourceName "m" "forward_one", "1".toList), (sourceName "m" "sparse_forward_one", "2".toList)], [(sourceName "n" "forward_one", "3".toList)], []]

example : (∀ l, (tools.ord l).Perm l) ∧ (∀ s ∈ good.flatten, tools.cc s.2 = (some s.2, true)) ∧ (good.flatten.map Prod.fst).Nodup ∧
    (∀ os : List (List Char), os.Perm (good.flatten.map fun s => s.2) → tools.accepts os = true) ∧
    (∀ s ∈ good.flatten, "m.so".toList ≠ objectFile "tmp".toList s.1) ∧ ∀ s ∈ good.flatten, (files (objectFile "tmp".toList s.1)).isNone = true := by
  refine ⟨fun l => List.reverse_perm l, by decide +kernel, by decide +kernel, fun os h => ?_, by decide +kernel, by decide +kernel⟩
  cases os with
  | nil =>
    have := h.length_eq
    simp [good] at this
  | cons o os => rfl

/-- the objects in the library -/
private def made (r : Bool × St (List Char)) : Option (List (List Char)) :=
  match r.2.files "m.so".toList with
  | some (.lib os) => some os
  | _ => none

example : made (create tools "tmp".toList "m.so".toList good ⟨files, []⟩) = some ["3".toList, "2".toList, "1".toList] := by decide +kernel

-- a source which does not compile
example : (create tools "tmp".toList "m.so".toList (good ++ [[("c.c".toList, [])]]) ⟨files, []⟩).1 = false ∧
    ((create tools "tmp".toList "m.so".toList (good ++ [[("c.c".toList, [])]]) ⟨files, []⟩).2.files (objectFile "tmp".toList "c.c".toList)).isNone = true := by decide +kernel

/-- C87, failure: with models `m` and `m_sparse`, the function `sparse_forward_one` of the first and `forward_one` of the second have sources with the same name. The library is created
without the object of one of them, and nothing is reported. -/
theorem collision_counterexample : ∃ (T : Tools (List Char)) (groups : List (List (List Char × List Char))) (st : St (List Char)) (os : List (List Char)),
    groups = [[(sourceName "m" "forward_one", "1".toList), (sourceName "m" "sparse_forward_one", "2".toList)],
      [(sourceName "m_sparse" "forward_one", "3".toList), (sourceName "m_sparse" "sparse_forward_one", "4".toList)]] ∧
    create T "tmp".toList "m.so".toList groups ⟨fun _ => none, []⟩ = (true, st) ∧ st.files "m.so".toList = some (.lib os) ∧
    (∀ s ∈ groups.flatten, T.cc s.2 = (some s.2, true)) ∧ "2".toList ∉ os := by
  refine ⟨⟨fun s => (some s, true), fun _ => true, id⟩, _, _, ["1".toList, "3".toList, "4".toList], rfl, rfl, rfl, fun _ _ => rfl, by decide +kernel⟩

end Verif.Library.Build
