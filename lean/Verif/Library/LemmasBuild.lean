import Verif.Library.ModelBuild

/-
Lemmas for C87.
-/
namespace Verif.Library.Build

variable {O : Type}

theorem objPath_eq (folder name : List Char) : objPath folder name = objectFile folder name := by
  have h : ['/'] <:+ folder ↔ folder.getLast? = some '/' := by
    rw [List.getLast?_eq_some_iff]
    exact ⟨fun ⟨l, h⟩ => ⟨l, h.symm⟩, fun ⟨l, h⟩ => ⟨l, h.symm⟩⟩
  rw [objPath, createPath, objectFile]
  by_cases hf : folder.getLast? = some '/'
  · rw [if_pos hf, if_pos (h.2 hf), List.append_assoc]
    rfl
  · rw [if_neg hf, if_neg fun h' => hf (h.1 h')]
    simp only [List.append_assoc]
    rfl

theorem objPath_inj (tmp a b : List Char) (h : objPath tmp a = objPath tmp b) : a = b := by
  rw [objPath, objPath, createPath, createPath] at h
  exact List.append_cancel_right (List.append_cancel_left h)

theorem compileGroups_flatten (T : Tools O) (tmp : List Char) : ∀ (gs : List (List (List Char × List Char))) (st : St O),
    compileGroups T tmp gs st = compileSources T tmp gs.flatten st
  | [], _ => rfl
  | g :: gs, st => by
    have h : ∀ (g l : List (List Char × List Char)) (st : St O), compileSources T tmp (g ++ l) st =
        match compileSources T tmp g st with
        | (false, st) => (false, st)
        | (true, st) => compileSources T tmp l st := by
      intro g l
      induction g with
      | nil => intro st; rfl
      | cons s g ih =>
        intro st
        rw [List.cons_append, compileSources, compileSources]
        cases hc : compileOne T tmp s st with
        | mk ok st1 =>
          cases ok with
          | false => rfl
          | true => exact ih st1
    rw [compileGroups, List.flatten_cons, h]
    cases hc : compileSources T tmp g st with
    | mk ok st1 =>
      cases ok with
      | false => rfl
      | true => exact compileGroups_flatten T tmp gs st1

/-- only files in `ofiles` change, and these are those of before and those of the sources -/
theorem compileSources_frame (T : Tools O) (tmp : List Char) : ∀ (l : List (List Char × List Char)) (st : St O),
    (∀ p, p ∉ (compileSources T tmp l st).2.ofiles → (compileSources T tmp l st).2.files p = st.files p) ∧
    (∀ p ∈ st.ofiles, p ∈ (compileSources T tmp l st).2.ofiles) ∧
    ∀ p ∈ (compileSources T tmp l st).2.ofiles, p ∈ st.ofiles ∨ ∃ s ∈ l, p = objPath tmp s.1
  | [], st => ⟨fun _ _ => rfl, fun _ h => h, fun _ h => Or.inl h⟩
  | s :: ss, st => by
    have h1 : (∀ p, p ∉ (compileOne T tmp s st).2.ofiles → (compileOne T tmp s st).2.files p = st.files p) ∧
        (∀ p ∈ st.ofiles, p ∈ (compileOne T tmp s st).2.ofiles) ∧
        ∀ p ∈ (compileOne T tmp s st).2.ofiles, p ∈ st.ofiles ∨ p = objPath tmp s.1 := by
      have hin : objPath tmp s.1 ∈ (if objPath tmp s.1 ∈ st.ofiles then st.ofiles else st.ofiles ++ [objPath tmp s.1]) := by
        split
        · assumption
        · simp
      have hsub : ∀ p ∈ st.ofiles, p ∈ (if objPath tmp s.1 ∈ st.ofiles then st.ofiles else st.ofiles ++ [objPath tmp s.1]) := by
        intro p hp
        split
        · exact hp
        · simp [hp]
      have hsup : ∀ p ∈ (if objPath tmp s.1 ∈ st.ofiles then st.ofiles else st.ofiles ++ [objPath tmp s.1]), p ∈ st.ofiles ∨ p = objPath tmp s.1 := by
        intro p hp
        split at hp
        · exact Or.inl hp
        · simpa using hp
      unfold compileOne
      simp only
      split
      · refine ⟨fun p hp => ?_, hsub, hsup⟩
        have : p ≠ objPath tmp s.1 := fun e => hp (e ▸ hin)
        simp [put, this]
      · exact ⟨fun _ _ => rfl, hsub, hsup⟩
    rw [compileSources]
    cases hc : compileOne T tmp s st with
    | mk ok st1 =>
      rw [hc] at h1
      obtain ⟨a, b, c⟩ := h1
      cases ok with
      | false =>
        refine ⟨a, b, fun p hp => ?_⟩
        rcases c p hp with h | h
        · exact Or.inl h
        · exact Or.inr ⟨s, by simp, h⟩
      | true =>
        obtain ⟨a', b', c'⟩ := compileSources_frame T tmp ss st1
        refine ⟨fun p hp => (a' p hp).trans (a p fun h => hp (b' p h)), fun p hp => b' p (b p hp), fun p hp => ?_⟩
        rcases c' p hp with h | ⟨s', h, e⟩
        · rcases c p h with h | h
          · exact Or.inl h
          · exact Or.inr ⟨s, by simp, h⟩
        · exact Or.inr ⟨s', by simp [h], e⟩

/-- if all sources compile and no names are the same, there is an object for each -/
theorem compileSources_right (T : Tools O) (tmp : List Char) (c : List Char → O) : ∀ (l : List (List Char × List Char)) (st : St O),
    (∀ s ∈ l, T.cc s.2 = (some (c s.2), true)) → (l.map Prod.fst).Nodup → (∀ s ∈ l, objPath tmp s.1 ∉ st.ofiles) →
    (compileSources T tmp l st).1 = true ∧ (compileSources T tmp l st).2.ofiles = st.ofiles ++ l.map (fun s => objPath tmp s.1) ∧
      (∀ s ∈ l, (compileSources T tmp l st).2.files (objPath tmp s.1) = some (.obj (c s.2))) ∧
      ∀ p, (∀ s ∈ l, p ≠ objPath tmp s.1) → (compileSources T tmp l st).2.files p = st.files p
  | [], st, _, _, _ => by simp [compileSources]
  | s :: ss, st, hc, hn, ho => by
    rw [List.map_cons, List.nodup_cons] at hn
    have hne : ∀ s' ∈ ss, objPath tmp s'.1 ≠ objPath tmp s.1 := by
      intro s' hs' e
      exact hn.1 (objPath_inj tmp _ _ e ▸ List.mem_map_of_mem hs')
    have h1 : compileOne T tmp s st = (true, ⟨put st.files (objPath tmp s.1) (some (.obj (c s.2))), st.ofiles ++ [objPath tmp s.1]⟩) := by
      simp only [compileOne, hc s (by simp), if_neg (ho s (by simp))]
    rw [compileSources, h1]
    obtain ⟨a, b, d, e⟩ := compileSources_right T tmp c ss ⟨put st.files (objPath tmp s.1) (some (.obj (c s.2))), st.ofiles ++ [objPath tmp s.1]⟩
      (fun s' h => hc s' (by simp [h])) hn.2 (fun s' h => by
        simp only [List.mem_append, List.mem_singleton, not_or]
        exact ⟨ho s' (by simp [h]), hne s' h⟩)
    refine ⟨a, by simp only [b]; simp, fun s' hs' => ?_, fun p hp => ?_⟩
    · rcases List.mem_cons.1 hs' with rfl | h
      · simp only
        rw [e _ fun s'' h'' => (hne s'' h'').symm]
        simp [put]
      · exact d s' h
    · simp only
      rw [e p fun s' h => hp s' (by simp [h])]
      simp [put, hp s (by simp)]

/-- if nothing failed and no names are the same, the file of each source is what the compiler wrote for it -/
theorem compileSources_true (T : Tools O) (tmp : List Char) : ∀ (l : List (List Char × List Char)) (st : St O),
    (compileSources T tmp l st).1 = true → (l.map Prod.fst).Nodup → (∀ s ∈ l, objPath tmp s.1 ∉ st.ofiles) →
    (∀ s ∈ l, st.files (objPath tmp s.1) = none) →
    (compileSources T tmp l st).2.ofiles = st.ofiles ++ l.map (fun s => objPath tmp s.1) ∧
      (∀ s ∈ l, (T.cc s.2).2 = true ∧ (compileSources T tmp l st).2.files (objPath tmp s.1) = (T.cc s.2).1.map .obj) ∧
      ∀ p, (∀ s ∈ l, p ≠ objPath tmp s.1) → (compileSources T tmp l st).2.files p = st.files p
  | [], st, _, _, _, _ => by simp [compileSources]
  | s :: ss, st, ht, hn, ho, hf => by
    rw [List.map_cons, List.nodup_cons] at hn
    have hne : ∀ s' ∈ ss, objPath tmp s'.1 ≠ objPath tmp s.1 := by
      intro s' hs' e
      exact hn.1 (objPath_inj tmp _ _ e ▸ List.mem_map_of_mem hs')
    have h1 : (compileOne T tmp s st).1 = (T.cc s.2).2 ∧ (compileOne T tmp s st).2.ofiles = st.ofiles ++ [objPath tmp s.1] ∧
        (compileOne T tmp s st).2.files (objPath tmp s.1) = (T.cc s.2).1.map .obj ∧
        ∀ p, p ≠ objPath tmp s.1 → (compileOne T tmp s st).2.files p = st.files p := by
      simp only [compileOne, if_neg (ho s (by simp))]
      obtain ⟨w, ok⟩ := T.cc s.2
      cases w with
      | none => exact ⟨rfl, rfl, hf s (by simp), fun _ _ => rfl⟩
      | some o => exact ⟨rfl, rfl, by simp [put], fun p hp => by simp [put, hp]⟩
    rw [compileSources] at ht ⊢
    cases hc : compileOne T tmp s st with
    | mk ok st1 =>
      rw [hc] at h1 ht
      obtain ⟨k1, k2, k3, k4⟩ := h1
      cases ok with
      | false => cases ht
      | true =>
        simp only at ht k1 k2 k3 k4
        obtain ⟨b, d, e⟩ := compileSources_true T tmp ss st1 ht hn.2
          (fun s' h => by
            rw [k2]
            simp only [List.mem_append, List.mem_singleton, not_or]
            exact ⟨ho s' (by simp [h]), hne s' h⟩)
          (fun s' h => by rw [k4 _ (hne s' h)]; exact hf s' (by simp [h]))
        refine ⟨by simp only [b, k2]; simp, fun s' hs' => ?_, fun p hp => ?_⟩
        · rcases List.mem_cons.1 hs' with rfl | h
          · refine ⟨k1.symm, ?_⟩
            simp only
            rw [e _ fun s'' h'' => (hne s'' h'').symm, k3]
          · exact d s' h
        · simp only
          rw [e p fun s' h => hp s' (by simp [h]), k4 p (hp s (by simp))]

theorem objects_some (fs : Files O) : ∀ (l : List (List Char)) (os : List O), objects fs l = some os → l.map fs = os.map fun o => some (.obj o)
  | [], os, h => by cases h; rfl
  | p :: ps, os, h => by
    rw [objects] at h
    split at h
    · rename_i o ho
      cases hr : objects fs ps with
      | none => rw [hr] at h; cases h
      | some os' =>
        rw [hr] at h
        cases h
        rw [List.map_cons, List.map_cons, ho, objects_some fs ps os' hr]
    · cases h

theorem objects_perm (fs : Files O) (f : List Char → O) : ∀ l : List (List Char), (∀ p ∈ l, fs p = some (.obj (f p))) → objects fs l = some (l.map f)
  | [], _ => rfl
  | p :: ps, h => by
    rw [objects, h p (by simp), objects_perm fs f ps fun q hq => h q (by simp [hq])]
    rfl

theorem cleanup_files : ∀ (l : List (List Char)) (fs : Files O) (p : List Char), l.foldl (fun fs p => put fs p none) fs p = if p ∈ l then none else fs p
  | [], _, _ => by simp
  | q :: l, fs, p => by
    rw [List.foldl_cons, cleanup_files l]
    by_cases h : p ∈ l
    · simp [h]
    · by_cases e : p = q <;> simp [h, e, put]

theorem cleanup_at (st : St O) (p : List Char) : (cleanup st).files p = if p ∈ st.ofiles then none else st.files p :=
  cleanup_files st.ofiles st.files p

end Verif.Library.Build
