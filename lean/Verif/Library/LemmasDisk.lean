import Verif.Library.LemmasBuild
import Verif.Library.ModelDisk

namespace Verif.Library.Build

variable {O : Type}

/-- The two states agree but for the files in `S`. -/
def Agree (S : List Char → Prop) (a b : St O) : Prop := a.ofiles = b.ofiles ∧ ∀ p, ¬ S p → a.files p = b.files p

theorem put_agree {S : List Char → Prop} {f g : Files O} (h : ∀ p, ¬ S p → f p = g p) (q : List Char) (x : Option (File O)) :
    ∀ p, ¬ S p → put f q x p = put g q x p := by
  intro p hp
  unfold put
  split
  · rfl
  · exact h p hp

theorem compileOneDisk_agree (T : Tools O) (opens : List Char → Bool) (src tmp : List Char) (S : List Char → Prop) (s : List Char × List Char)
    (a b : St O) (h : Agree S a b) (ho : opens (createPath src s.1) = true) (hS : S (createPath src s.1)) :
    (compileOneDisk T opens src tmp s a).1 = (compileOne T tmp s b).1 ∧ Agree S (compileOneDisk T opens src tmp s a).2 (compileOne T tmp s b).2 := by
  have h1 : ccFile T (put a.files (createPath src s.1) (some (.other s.2))) (createPath src s.1) = T.cc s.2 := by
    simp [ccFile, put]
  have h2 : ∀ p, ¬ S p → put a.files (createPath src s.1) (some (.other s.2)) p = b.files p := by
    intro p hp
    have : p ≠ createPath src s.1 := fun e => hp (e ▸ hS)
    simp only [put, if_neg this]
    exact h.2 p hp
  simp only [compileOneDisk, ho, if_true, h1, compileOne, h.1]
  rcases T.cc s.2 with ⟨_ | o, ok⟩
  · exact ⟨rfl, rfl, h2⟩
  · exact ⟨rfl, rfl, put_agree h2 _ _⟩

theorem compileDisk_agree (T : Tools O) (opens : List Char → Bool) (src tmp : List Char) (S : List Char → Prop) (l : List (List Char × List Char))
    (a b : St O) (h : Agree S a b) (ho : ∀ s ∈ l, opens (createPath src s.1) = true) (hS : ∀ s ∈ l, S (createPath src s.1)) :
    (compileDisk T opens src tmp l a).1 = (compileSources T tmp l b).1 ∧ Agree S (compileDisk T opens src tmp l a).2 (compileSources T tmp l b).2 := by
  induction l generalizing a b with
  | nil => exact ⟨rfl, h⟩
  | cons s l ih =>
    obtain ⟨h1, h2⟩ := compileOneDisk_agree T opens src tmp S s a b h (ho s (by simp)) (hS s (by simp))
    rw [compileDisk, compileSources]
    rcases hx : compileOneDisk T opens src tmp s a with ⟨x, a'⟩
    rcases hy : compileOne T tmp s b with ⟨y, b'⟩
    rw [hx, hy] at h1 h2
    simp only at h1 h2
    subst h1
    cases x
    · exact ⟨rfl, h2⟩
    · exact ih a' b' h2 (fun s h => ho s (by simp [h])) fun s h => hS s (by simp [h])

theorem compileGroupsDisk_agree (T : Tools O) (opens : List Char → Bool) (src tmp : List Char) (S : List Char → Prop) (gs : List (List (List Char × List Char)))
    (a b : St O) (h : Agree S a b) (ho : ∀ s ∈ gs.flatten, opens (createPath src s.1) = true) (hS : ∀ s ∈ gs.flatten, S (createPath src s.1)) :
    (compileGroupsDisk T opens src tmp gs a).1 = (compileGroups T tmp gs b).1 ∧
      Agree S (compileGroupsDisk T opens src tmp gs a).2 (compileGroups T tmp gs b).2 := by
  induction gs generalizing a b with
  | nil => exact ⟨rfl, h⟩
  | cons g gs ih =>
    rw [List.flatten_cons] at ho hS
    obtain ⟨h1, h2⟩ := compileDisk_agree T opens src tmp S g a b h (fun s h => ho s (by simp [h])) fun s h => hS s (List.mem_append_left _ h)
    rw [compileGroupsDisk, compileGroups]
    rcases hx : compileDisk T opens src tmp g a with ⟨x, a'⟩
    rcases hy : compileSources T tmp g b with ⟨y, b'⟩
    rw [hx, hy] at h1 h2
    simp only at h1 h2
    subst h1
    cases x
    · exact ⟨rfl, h2⟩
    · exact ih a' b' h2 (fun s h => ho s (List.mem_append_right _ h)) fun s h => hS s (List.mem_append_right _ h)

theorem objects_agree {S : List Char → Prop} {f g : Files O} (h : ∀ p, ¬ S p → f p = g p) (l : List (List Char)) (hl : ∀ p ∈ l, ¬ S p) :
    objects f l = objects g l := by
  induction l with
  | nil => rfl
  | cons p l ih =>
    rw [objects, objects, h p (hl p (by simp)), ih fun q hq => hl q (by simp [hq])]

theorem cleanup_agree {S : List Char → Prop} {a b : St O} (h : Agree S a b) : Agree S (cleanup a) (cleanup b) := by
  refine ⟨rfl, fun p hp => ?_⟩
  rw [cleanup_at, cleanup_at, h.1, h.2 p hp]

theorem createDisk_agree (T : Tools O) (opens : List Char → Bool) (src tmp lib : List Char) (S : List Char → Prop)
    (groups : List (List (List Char × List Char))) (fs : Files O) (hord : ∀ l, (T.ord l).Perm l)
    (ho : ∀ s ∈ groups.flatten, opens (createPath src s.1) = true) (hS : ∀ s ∈ groups.flatten, S (createPath src s.1))
    (hobj : ∀ s ∈ groups.flatten, ¬ S (objPath tmp s.1)) :
    (createDisk T opens src tmp lib groups ⟨fs, []⟩).1 = (create T tmp lib groups ⟨fs, []⟩).1 ∧
      Agree S (createDisk T opens src tmp lib groups ⟨fs, []⟩).2 (create T tmp lib groups ⟨fs, []⟩).2 := by
  obtain ⟨h1, h2⟩ := compileGroupsDisk_agree T opens src tmp S groups ⟨fs, []⟩ ⟨fs, []⟩ ⟨rfl, fun _ _ => rfl⟩ ho hS
  have h3 := (compileSources_frame T tmp groups.flatten ⟨fs, []⟩).2.2
  rw [← compileGroups_flatten] at h3
  rw [createDisk, create]
  rcases hx : compileGroupsDisk T opens src tmp groups ⟨fs, []⟩ with ⟨x, a⟩
  rcases hy : compileGroups T tmp groups ⟨fs, []⟩ with ⟨y, b⟩
  rw [hx, hy] at h1 h2
  rw [hy] at h3
  simp only at h1 h2 h3
  subst h1
  cases x
  · exact ⟨rfl, cleanup_agree h2⟩
  · have e : objects a.files (T.ord a.ofiles) = objects b.files (T.ord b.ofiles) := by
      rw [h2.1]
      refine objects_agree h2.2 _ fun p hp => ?_
      rcases h3 p ((hord _).mem_iff.1 hp) with h | ⟨s, hs, rfl⟩
      · cases h
      · exact hobj s hs
    simp only [buildDynamic, e]
    cases objects b.files (T.ord b.ofiles) with
    | none => exact ⟨rfl, cleanup_agree h2⟩
    | some os =>
      simp only
      cases T.accepts os
      · exact ⟨rfl, cleanup_agree h2⟩
      · exact ⟨rfl, cleanup_agree (a := { a with files := put a.files lib _ }) (b := { b with files := put b.files lib _ }) ⟨h2.1, put_agree h2.2 _ _⟩⟩

theorem compileOneDisk_none (T : Tools O) (opens : List Char → Bool) (src tmp q : List Char) (s : List Char × List Char) (st : St O)
    (hq : opens q = false) (hn : st.files q = none) (ho : q ≠ objPath tmp s.1) :
    (compileOneDisk T opens src tmp s st).2.files q = none ∧ (q = createPath src s.1 → (compileOneDisk T opens src tmp s st).1 = false) := by
  have h1 : (if opens (createPath src s.1) then put st.files (createPath src s.1) (some (.other s.2)) else st.files) q = none := by
    split
    · next h =>
      have : q ≠ createPath src s.1 := fun e => by rw [← e, hq] at h; cases h
      simp only [put, if_neg this]
      exact hn
    · exact hn
  constructor
  · simp only [compileOneDisk]
    split
    · simp only [put, if_neg ho]
      exact h1
    · exact h1
  · intro e
    rw [← e] at h1
    simp only [compileOneDisk, ccFile, ← e, h1]

theorem compileDisk_none (T : Tools O) (opens : List Char → Bool) (src tmp q : List Char) (l : List (List Char × List Char)) (st : St O)
    (hq : opens q = false) (hn : st.files q = none) (ho : ∀ s ∈ l, q ≠ objPath tmp s.1) :
    (compileDisk T opens src tmp l st).2.files q = none ∧ ((∃ s ∈ l, q = createPath src s.1) → (compileDisk T opens src tmp l st).1 = false) := by
  induction l generalizing st with
  | nil => exact ⟨hn, fun ⟨_, h, _⟩ => by cases h⟩
  | cons s l ih =>
    obtain ⟨h1, h2⟩ := compileOneDisk_none T opens src tmp q s st hq hn (ho s (by simp))
    rw [compileDisk]
    rcases hx : compileOneDisk T opens src tmp s st with ⟨x, st'⟩
    rw [hx] at h1 h2
    cases x
    · exact ⟨h1, fun _ => rfl⟩
    · obtain ⟨h3, h4⟩ := ih st' h1 fun s h => ho s (by simp [h])
      refine ⟨h3, fun ⟨s', h, e⟩ => ?_⟩
      rcases List.mem_cons.1 h with rfl | h
      · cases h2 e
      · exact h4 ⟨s', h, e⟩

theorem compileGroupsDisk_none (T : Tools O) (opens : List Char → Bool) (src tmp q : List Char) (gs : List (List (List Char × List Char))) (st : St O)
    (hq : opens q = false) (hn : st.files q = none) (ho : ∀ s ∈ gs.flatten, q ≠ objPath tmp s.1) (h : ∃ s ∈ gs.flatten, q = createPath src s.1) :
    (compileGroupsDisk T opens src tmp gs st).1 = false := by
  induction gs generalizing st with
  | nil => obtain ⟨_, h, _⟩ := h; cases h
  | cons g gs ih =>
    rw [List.flatten_cons] at ho h
    obtain ⟨h1, h2⟩ := compileDisk_none T opens src tmp q g st hq hn fun s h => ho s (List.mem_append_left _ h)
    rw [compileGroupsDisk]
    rcases hx : compileDisk T opens src tmp g st with ⟨x, st'⟩
    rw [hx] at h1 h2
    cases x
    · rfl
    · refine ih st' h1 (fun s h => ho s (List.mem_append_right _ h)) ?_
      obtain ⟨s, h, e⟩ := h
      rcases List.mem_append.1 h with h | h
      · cases h2 ⟨s, h, e⟩
      · exact ⟨s, h, e⟩

theorem compileDisk_append (T : Tools O) (opens : List Char → Bool) (src tmp : List Char) (g l : List (List Char × List Char)) (st : St O) :
    compileDisk T opens src tmp (g ++ l) st =
      match compileDisk T opens src tmp g st with
      | (false, st) => (false, st)
      | (true, st) => compileDisk T opens src tmp l st := by
  induction g generalizing st with
  | nil => rfl
  | cons s g ih =>
    rw [List.cons_append, compileDisk, compileDisk]
    rcases compileOneDisk T opens src tmp s st with ⟨_ | _, st'⟩
    · rfl
    · exact ih st'

theorem compileGroupsDisk_flatten (T : Tools O) (opens : List Char → Bool) (src tmp : List Char) (gs : List (List (List Char × List Char))) (st : St O) :
    compileGroupsDisk T opens src tmp gs st = compileDisk T opens src tmp gs.flatten st := by
  induction gs generalizing st with
  | nil => rfl
  | cons g gs ih =>
    rw [compileGroupsDisk, List.flatten_cons, compileDisk_append]
    rcases compileDisk T opens src tmp g st with ⟨_ | _, st'⟩
    · rfl
    · exact ih st'

theorem compileOneDisk_at (T : Tools O) (opens : List Char → Bool) (src tmp q : List Char) (s : List Char × List Char) (st : St O)
    (ho : q ≠ objPath tmp s.1) :
    (compileOneDisk T opens src tmp s st).2.files q =
      if opens (createPath src s.1) = true ∧ q = createPath src s.1 then some (.other s.2) else st.files q := by
  have h1 : (if opens (createPath src s.1) then put st.files (createPath src s.1) (some (.other s.2)) else st.files) q =
      if opens (createPath src s.1) = true ∧ q = createPath src s.1 then some (.other s.2) else st.files q := by
    by_cases h : opens (createPath src s.1) = true <;> by_cases h' : q = createPath src s.1 <;> simp [h, put, h']
  rw [← h1]
  simp only [compileOneDisk]
  split
  · simp only [put, if_neg ho]
  · rfl

theorem compileDisk_other (T : Tools O) (opens : List Char → Bool) (src tmp q : List Char) (l : List (List Char × List Char)) (st : St O)
    (ho : ∀ s ∈ l, q ≠ objPath tmp s.1) (hs : ∀ s ∈ l, q ≠ createPath src s.1) :
    (compileDisk T opens src tmp l st).2.files q = st.files q := by
  induction l generalizing st with
  | nil => rfl
  | cons s l ih =>
    have h1 := compileOneDisk_at T opens src tmp q s st (ho s (by simp))
    rw [if_neg fun h => hs s (by simp) h.2] at h1
    rw [compileDisk]
    rcases hx : compileOneDisk T opens src tmp s st with ⟨_ | _, st'⟩
    · rw [hx] at h1; exact h1
    · rw [hx] at h1
      exact (ih st' (fun s h => ho s (by simp [h])) fun s h => hs s (by simp [h])).trans h1

theorem compileDisk_saved (T : Tools O) (opens : List Char → Bool) (src tmp : List Char) (l : List (List Char × List Char)) (st : St O)
    (hok : (compileDisk T opens src tmp l st).1 = true) (hop : ∀ s ∈ l, opens (createPath src s.1) = true) (hn : (l.map Prod.fst).Nodup)
    (ho : ∀ s ∈ l, ∀ s' ∈ l, createPath src s.1 ≠ objPath tmp s'.1) :
    ∀ s ∈ l, (compileDisk T opens src tmp l st).2.files (createPath src s.1) = some (.other s.2) := by
  induction l generalizing st with
  | nil => intro s h; cases h
  | cons s l ih =>
    have h1 := compileOneDisk_at T opens src tmp (createPath src s.1) s st (ho s (by simp) s (by simp))
    rw [if_pos ⟨hop s (by simp), rfl⟩] at h1
    rw [List.map_cons, List.nodup_cons] at hn
    rw [compileDisk] at hok ⊢
    rcases hx : compileOneDisk T opens src tmp s st with ⟨_ | _, st'⟩
    · rw [hx] at hok; cases hok
    · rw [hx] at hok h1
      intro s' h'
      rcases List.mem_cons.1 h' with rfl | h'
      · refine (compileDisk_other T opens src tmp _ l st' (fun t h => ho s' (by simp) t (by simp [h])) fun t h e => hn.1 ?_).trans h1
        have : s'.1 = t.1 := by
          rw [createPath, createPath] at e
          exact List.append_cancel_left e
        rw [this]
        exact List.mem_map_of_mem h
      · exact ih st' hok (fun t h => hop t (by simp [h])) hn.2 (fun t h u h' => ho t (by simp [h]) u (by simp [h'])) s' h'

theorem compileDisk_ofiles (T : Tools O) (opens : List Char → Bool) (src tmp : List Char) (l : List (List Char × List Char)) (st : St O) :
    ∀ p ∈ (compileDisk T opens src tmp l st).2.ofiles, p ∈ st.ofiles ∨ ∃ s ∈ l, p = objPath tmp s.1 := by
  induction l generalizing st with
  | nil => exact fun _ h => .inl h
  | cons s l ih =>
    have h1 : ∀ p ∈ (compileOneDisk T opens src tmp s st).2.ofiles, p ∈ st.ofiles ∨ p = objPath tmp s.1 := by
      have : (compileOneDisk T opens src tmp s st).2.ofiles = if objPath tmp s.1 ∈ st.ofiles then st.ofiles else st.ofiles ++ [objPath tmp s.1] := by
        simp only [compileOneDisk]
        split <;> rfl
      rw [this]
      intro p hp
      split at hp
      · exact .inl hp
      · simpa using hp
    rw [compileDisk]
    intro p hp
    rcases hx : compileOneDisk T opens src tmp s st with ⟨_ | _, st'⟩
    · rw [hx] at h1 hp
      exact (h1 p hp).imp_right fun e => ⟨s, by simp, e⟩
    · rw [hx] at h1 hp
      rcases ih st' p hp with h | ⟨t, h, e⟩
      · exact (h1 p h).imp_right fun e => ⟨s, by simp, e⟩
      · exact .inr ⟨t, by simp [h], e⟩

theorem createDisk_saved (T : Tools O) (opens : List Char → Bool) (src tmp lib : List Char) (groups : List (List (List Char × List Char))) (fs : Files O)
    (hok : (createDisk T opens src tmp lib groups ⟨fs, []⟩).1 = true) (hop : ∀ s ∈ groups.flatten, opens (createPath src s.1) = true)
    (hn : (groups.flatten.map Prod.fst).Nodup) (ho : ∀ s ∈ groups.flatten, ∀ s' ∈ groups.flatten, createPath src s.1 ≠ objPath tmp s'.1)
    (hl : ∀ s ∈ groups.flatten, createPath src s.1 ≠ lib) :
    ∀ s ∈ groups.flatten, (createDisk T opens src tmp lib groups ⟨fs, []⟩).2.files (createPath src s.1) = some (.other s.2) := by
  have h1 := compileDisk_saved T opens src tmp groups.flatten ⟨fs, []⟩
  have h2 := compileDisk_ofiles T opens src tmp groups.flatten ⟨fs, []⟩
  rw [createDisk, compileGroupsDisk_flatten] at hok ⊢
  intro s hs
  rcases hx : compileDisk T opens src tmp groups.flatten ⟨fs, []⟩ with ⟨_ | _, st⟩
  · rw [hx] at hok; cases hok
  · rw [hx] at hok h1 h2
    have h3 := h1 rfl hop hn ho s hs
    have h4 : createPath src s.1 ∉ st.ofiles := fun h => by
      rcases h2 _ h with h | ⟨t, h, e⟩
      · cases h
      · exact ho s hs t h e
    have h5 : (buildDynamic T lib st).2.ofiles = st.ofiles ∧ (buildDynamic T lib st).2.files (createPath src s.1) = st.files (createPath src s.1) := by
      unfold buildDynamic
      split
      · exact ⟨rfl, rfl⟩
      · split
        · exact ⟨rfl, if_neg (hl s hs)⟩
        · exact ⟨rfl, rfl⟩
    show (cleanup (buildDynamic T lib st).2).files _ = _
    rw [cleanup_at, h5.1, if_neg h4, h5.2]
    exact h3

end Verif.Library.Build
