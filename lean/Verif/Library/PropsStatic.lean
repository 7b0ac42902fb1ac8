import Verif.Library.LemmasStatic

/-
C88: static libraries.
-/
namespace Verif.Library.Build

variable {O : Type}

/-- C88, with an archive of before: if no two sources have the same name and all of them compile, the members are the objects of the sources, and those of before with other names -/
theorem static_members (T : Tools O) (c : List Char → O) (tmp : List Char) (groups : List (List (List Char × List Char))) (fs : Files O) (ar : Option (List (List Char × O)))
    (hord : ∀ l, (T.ord l).Perm l) (hcc : ∀ s ∈ groups.flatten, T.cc s.2 = (some (c s.2), true)) (hnames : (groups.flatten.map Prod.fst).Nodup)
    (hslash : ∀ s ∈ groups.flatten, '/' ∉ s.1) (har : ∀ ms, ar = some ms → (ms.map Prod.fst).Nodup) :
    ∃ ms st, createStatic T tmp groups ar ⟨fs, []⟩ = (true, some ms, st) ∧ st.ofiles = [] ∧ (ms.map Prod.fst).Nodup ∧
      ∀ k v, (k, v) ∈ ms ↔ (∃ s ∈ groups.flatten, k = s.1 ++ ['.', 'o'] ∧ v = c s.2) ∨
        ((∀ s ∈ groups.flatten, k ≠ s.1 ++ ['.', 'o']) ∧ ∃ old, ar = some old ∧ (k, v) ∈ old) := by
  obtain ⟨a, b, d, -⟩ := compileSources_right T tmp c groups.flatten ⟨fs, []⟩ hcc hnames (fun _ _ => by simp)
  rw [createStatic, compileGroups_flatten]
  cases hs : compileSources T tmp groups.flatten ⟨fs, []⟩ with
  | mk ok st =>
    rw [hs] at a b d
    simp only [List.nil_append] at a b d
    subst a
    obtain ⟨f, hf⟩ : ∃ f : List Char → O, ∀ s ∈ groups.flatten, f (objPath tmp s.1) = c s.2 := by
      refine ⟨fun p => match st.files p with | some (.obj o) => o | _ => c p, fun s h => ?_⟩
      simp only [d s h]
    have hmem : ∀ p, p ∈ T.ord st.ofiles ↔ ∃ s ∈ groups.flatten, objPath tmp s.1 = p := by
      intro p
      rw [(hord st.ofiles).mem_iff, b, List.mem_map]
    have hbase : ((T.ord st.ofiles).map baseName).Nodup := by
      refine (((hord st.ofiles).map baseName).nodup_iff).2 ?_
      rw [b, List.map_map]
      have : groups.flatten.map (baseName ∘ fun s => objPath tmp s.1) = (groups.flatten.map Prod.fst).map (· ++ ['.', 'o']) := by
        rw [List.map_map]
        exact List.map_congr_left fun s h => baseName_objPath tmp s.1 (hslash s h)
      rw [this]
      exact List.Pairwise.map _ (fun x y hxy e => hxy (List.append_cancel_right e)) hnames
    obtain ⟨ms, h1, h2, h3⟩ := arAll_spec st.files f (T.ord st.ofiles) (ar.getD [])
      (fun p hp => by
        obtain ⟨s, h, rfl⟩ := (hmem p).1 hp
        rw [d s h, hf s h]) hbase
      (by
        cases ar with
        | none => simp
        | some old => exact har old rfl)
    simp only [h1]
    refine ⟨ms, _, rfl, rfl, h2, fun k v => ?_⟩
    rw [h3]
    have e1 : (∃ p ∈ T.ord st.ofiles, k = baseName p ∧ v = f p) ↔ ∃ s ∈ groups.flatten, k = s.1 ++ ['.', 'o'] ∧ v = c s.2 := by
      constructor
      · rintro ⟨p, hp, h, h'⟩
        obtain ⟨s, hs, rfl⟩ := (hmem p).1 hp
        exact ⟨s, hs, by rw [h, baseName_objPath tmp s.1 (hslash s hs)], by rw [h', hf s hs]⟩
      · rintro ⟨s, hs, h, h'⟩
        exact ⟨_, (hmem _).2 ⟨s, hs, rfl⟩, by rw [h, baseName_objPath tmp s.1 (hslash s hs)], by rw [h', hf s hs]⟩
    have e2 : k ∉ (T.ord st.ofiles).map baseName ↔ ∀ s ∈ groups.flatten, k ≠ s.1 ++ ['.', 'o'] := by
      rw [List.mem_map]
      constructor
      · intro h s hs e
        exact h ⟨_, (hmem _).2 ⟨s, hs, rfl⟩, by rw [e, baseName_objPath tmp s.1 (hslash s hs)]⟩
      · rintro h ⟨p, hp, e⟩
        obtain ⟨s, hs, rfl⟩ := (hmem p).1 hp
        exact h s hs (by rw [← e, baseName_objPath tmp s.1 (hslash s hs)])
    have e3 : (k, v) ∈ ar.getD [] ↔ ∃ old, ar = some old ∧ (k, v) ∈ old := by
      cases ar with
      | none => simp
      | some old => simp
    rw [e1, e2, e3]

/-- C88: if there was no archive, the members are exactly the objects of the sources -/
theorem static_right_partial (T : Tools O) (c : List Char → O) (tmp : List Char) (groups : List (List (List Char × List Char))) (fs : Files O)
    (hord : ∀ l, (T.ord l).Perm l) (hcc : ∀ s ∈ groups.flatten, T.cc s.2 = (some (c s.2), true)) (hnames : (groups.flatten.map Prod.fst).Nodup)
    (hslash : ∀ s ∈ groups.flatten, '/' ∉ s.1) :
    ∃ ms st, createStatic T tmp groups none ⟨fs, []⟩ = (true, some ms, st) ∧ st.ofiles = [] ∧ (ms.map Prod.fst).Nodup ∧
      ∀ k v, (k, v) ∈ ms ↔ ∃ s ∈ groups.flatten, k = s.1 ++ ['.', 'o'] ∧ v = c s.2 := by
  obtain ⟨ms, st, h1, h2, h3, h4⟩ := static_members T c tmp groups fs none hord hcc hnames hslash nofun
  refine ⟨ms, st, h1, h2, h3, fun k v => (h4 k v).trans ⟨?_, Or.inl⟩⟩
  rintro (h | ⟨-, old, h, -⟩)
  · exact h
  · cases h

/-- C88: if the library is created, no two sources have the same name and there were no object files before, all sources compiled (so the members are those of `static_members`) -/
theorem static_complete (T : Tools O) (tmp : List Char) (groups : List (List (List Char × List Char))) (fs : Files O) (ar ar' : Option (List (List Char × O))) (st : St O)
    (hord : ∀ l, (T.ord l).Perm l) (hnames : (groups.flatten.map Prod.fst).Nodup) (hnew : ∀ s ∈ groups.flatten, fs (objectFile tmp s.1) = none)
    (h : createStatic T tmp groups ar ⟨fs, []⟩ = (true, ar', st)) : ∀ s ∈ groups.flatten, ∃ o, T.cc s.2 = (some o, true) := by
  simp only [← objPath_eq] at hnew
  rw [createStatic, compileGroups_flatten] at h
  cases hs : compileSources T tmp groups.flatten ⟨fs, []⟩ with
  | mk ok st1 =>
    rw [hs] at h
    cases ok with
    | false => cases h
    | true =>
      obtain ⟨b, d, -⟩ := compileSources_true T tmp groups.flatten ⟨fs, []⟩ (by rw [hs]) hnames (fun _ _ => by simp) hnew
      rw [hs] at b d
      simp only [List.nil_append] at b d h
      cases ha : arAll st1.files (T.ord st1.ofiles) (ar.getD []) with
      | none => rw [ha] at h; cases h
      | some ms =>
        intro s hs
        obtain ⟨o, ho⟩ := arAll_some _ _ _ _ ha (objPath tmp s.1) ((hord st1.ofiles).mem_iff.2 (by rw [b]; exact List.mem_map.2 ⟨s, hs, rfl⟩))
        obtain ⟨d1, d2⟩ := d s hs
        rw [ho] at d2
        cases hcc : T.cc s.2 with
        | mk w ok =>
          rw [hcc] at d1 d2
          cases w with
          | none => cases d2
          | some o' => exact ⟨o', by simp only at d1; rw [d1]⟩

/-- C88: if a source does not compile or a file is missing, the archive is the one of before -/
theorem static_failed (T : Tools O) (tmp : List Char) (groups : List (List (List Char × List Char))) (fs : Files O) (ar ar' : Option (List (List Char × O))) (st : St O)
    (h : createStatic T tmp groups ar ⟨fs, []⟩ = (false, ar', st)) : ar' = ar ∧ st.ofiles = [] := by
  rw [createStatic] at h
  cases hc : compileGroups T tmp groups ⟨fs, []⟩ with
  | mk ok st1 =>
    rw [hc] at h
    cases ok with
    | false => cases h; exact ⟨rfl, rfl⟩
    | true =>
      simp only at h
      cases ha : arAll st1.files (T.ord st1.ofiles) (ar.getD []) with
      | none => rw [ha] at h; cases h; exact ⟨rfl, rfl⟩
      | some ms => rw [ha] at h; cases h

/-! ### cases -/

private def tools' : Tools (List Char) := ⟨fun s => if s = [] then (none, false) else (some s, true), fun _ => true, List.reverse⟩

private def two : List (List (List Char × List Char)) := [[("a.c".toList, "1".toList)], [("b.c".toList, "2".toList)]]

example : (createStatic tools' "tmp".toList two (some [("a.c.o".toList, "0".toList)]) ⟨fun _ => none, []⟩).2.1 =
    some [("a.c.o".toList, "1".toList), ("b.c.o".toList, "2".toList)] := by decide +kernel

example : (∀ l, (tools'.ord l).Perm l) ∧ (∀ s ∈ two.flatten, tools'.cc s.2 = (some s.2, true)) ∧ (two.flatten.map Prod.fst).Nodup ∧ ∀ s ∈ two.flatten, '/' ∉ s.1 :=
  ⟨fun l => List.reverse_perm l, by decide +kernel, by decide +kernel, by decide +kernel⟩

example : (createStatic tools' "tmp".toList [[("a.c".toList, [])]] (some [("a.c.o".toList, "0".toList)]) ⟨fun _ => none, []⟩).1 = false := by decide +kernel

/-- C88, failure: a static library which exists is not removed first. Objects of a model which is not in the library any more are still in the file. -/
theorem old_member_counterexample : ∃ (T : Tools (List Char)) (groups : List (List (List Char × List Char))) (old ms : List (List Char × List Char)) (st : St (List Char)),
    createStatic T "tmp".toList groups (some old) ⟨fun _ => none, []⟩ = (true, some ms, st) ∧
    ∃ m ∈ ms, ∀ s ∈ groups.flatten, m.1 ≠ s.1 ++ ['.', 'o'] :=
  ⟨tools', two, [("removed.c.o".toList, "0".toList)], _, _, rfl, ("removed.c.o".toList, "0".toList), by decide +kernel, by decide +kernel⟩

end Verif.Library.Build
