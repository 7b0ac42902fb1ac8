import Verif.Index.Lemmas

namespace Verif.Index

variable {R : Type} [CommRing R] [DecidableEq R]

theorem ofSections_reproduces {pts : List (Nat × R)} (hs : Sorted pts) {mc : Nat} {f : Pat R}
    (h : ofSections (detectLinearSections pts mc) = some f) : Reproduces f.eval pts := by
  have hc := sections_covers hs mc
  have : f = choose (detectLinearSections pts mc) pts := by
    match hd : detectLinearSections pts mc, h with
    | [(s, p)], h => simpa [ofSections, choose] using h.symm
    | a :: b :: rest, h => simpa [ofSections, choose] using h.symm
  rw [this]
  exact choose_reproduces hs hc

theorem singleY_spec {y : Nat} {pts : List (Nat × List (Nat × R))} {xz : List (Nat × R)} (h : singleY y pts = some xz) :
    (∀ q ∈ xz, ∃ row ∈ pts, row.1 = q.1) ∧ (∀ row ∈ pts, ∃ z, row.2 = [(y, z)] ∧ (row.1, z) ∈ xz) := by
  induction pts generalizing xz with
  | nil => simp [singleY] at h; subst h; simp
  | cons a rest ih =>
    match a, h with
    | (x, [(y', z)]), h =>
      simp only [singleY] at h
      by_cases hy : y = y'
      · rw [if_pos hy, Option.map_eq_some_iff] at h
        obtain ⟨l, hl, rfl⟩ := h
        obtain ⟨i1, i2⟩ := ih hl
        constructor
        · intro q hq
          rcases List.mem_cons.mp hq with rfl | hq
          · exact ⟨_, List.mem_cons_self .., rfl⟩
          · obtain ⟨row, hr, e⟩ := i1 q hq
            exact ⟨row, List.mem_cons_of_mem _ hr, e⟩
        · intro row hr
          rcases List.mem_cons.mp hr with rfl | hr
          · exact ⟨z, by rw [hy], List.mem_cons_self ..⟩
          · obtain ⟨z', e1, e2⟩ := i2 row hr
            exact ⟨z', e1, List.mem_cons_of_mem _ e2⟩
      · rw [if_neg hy] at h; simp at h
    | (x, []), h => simp [singleY] at h
    | (x, _ :: _ :: _), h => simp [singleY] at h

theorem singleY_sorted {y : Nat} {pts : List (Nat × List (Nat × R))} {xz : List (Nat × R)} (hs : Sorted pts)
    (h : singleY y pts = some xz) : Sorted xz := by
  induction pts generalizing xz with
  | nil => simp [singleY] at h; subst h; exact List.Pairwise.nil
  | cons a rest ih =>
    match a, hs, h with
    | (x, [(y', z)]), hs, h =>
      simp only [singleY] at h
      by_cases hy : y = y'
      · rw [if_pos hy, Option.map_eq_some_iff] at h
        obtain ⟨l, hl, rfl⟩ := h
        obtain ⟨ha, hr⟩ := List.pairwise_cons.mp hs
        refine List.pairwise_cons.mpr ⟨?_, ih hr hl⟩
        intro q hq
        obtain ⟨row, hrow, e⟩ := (singleY_spec hl).1 q hq
        have := ha row hrow
        simp only at this ⊢
        omega
      · rw [if_neg hy] at h; simp at h
    | (x, []), _, h => simp [singleY] at h
    | (x, _ :: _ :: _), _, h => simp [singleY] at h

theorem addOffsets_spec {zF : R} {row offs offs' : List (Nat × R)} (hs : Sorted offs) (h : addOffsets zF row offs = some offs') :
    Sorted offs' ∧ (∀ q ∈ offs, q ∈ offs') ∧ ∀ q ∈ row, (q.1, q.2 - zF) ∈ offs' := by
  induction row generalizing offs with
  | nil => simp [addOffsets] at h; subst h; exact ⟨hs, fun q hq => hq, by simp⟩
  | cons a rest ih =>
    obtain ⟨y, z⟩ := a
    unfold addOffsets at h
    match hf : offs.find? (fun q => decide (q.1 = y)), h with
    | none, h =>
      simp only [hf] at h
      obtain ⟨i1, i2, i3⟩ := ih (put_sorted hs) h
      refine ⟨i1, ?_, ?_⟩
      · intro q hq
        exact i2 q (mem_put_other hq (find_none hf q hq))
      · intro q hq
        rcases List.mem_cons.mp hq with rfl | hq
        · exact i2 _ mem_put_self
        · exact i3 q hq
    | some (y', o), h =>
      simp only [hf] at h
      by_cases ho : o ≠ z - zF
      · rw [if_pos ho] at h; simp at h
      · rw [if_neg ho] at h
        obtain ⟨i1, i2, i3⟩ := ih hs h
        refine ⟨i1, i2, ?_⟩
        intro q hq
        rcases List.mem_cons.mp hq with rfl | hq
        · obtain ⟨e, hm⟩ := find_key hf
          simp only at e
          have ho' : o = z - zF := by simpa using ho
          have := i2 _ hm
          rw [e, ho'] at this
          exact this
        · exact i3 q hq

theorem splitPlane_spec {pts : List (Nat × List (Nat × R))} {offs starts offs' : List (Nat × R)} (hp : Sorted pts) (hs : Sorted offs)
    (h : splitPlane pts offs = some (starts, offs')) :
    Sorted offs' ∧ Sorted starts ∧ (∀ q ∈ offs, q ∈ offs') ∧ (∀ q ∈ starts, ∃ row ∈ pts, row.1 = q.1) ∧
    ∀ row ∈ pts, ∃ zF, (row.1, zF) ∈ starts ∧ ∀ q ∈ row.2, (q.1, q.2 - zF) ∈ offs' := by
  induction pts generalizing offs starts offs' with
  | nil =>
    simp [splitPlane] at h
    obtain ⟨rfl, rfl⟩ := h
    exact ⟨hs, List.Pairwise.nil, fun q hq => hq, by simp, by simp⟩
  | cons a rest ih =>
    obtain ⟨x, row⟩ := a
    obtain ⟨ha, hr⟩ := List.pairwise_cons.mp hp
    unfold splitPlane at h
    generalize firstZ row = zF at h
    simp only at h
    split at h
    · simp at h
    · rename_i offs1 hadd
      rw [Option.map_eq_some_iff] at h
      obtain ⟨⟨st, of⟩, hl, e⟩ := h
      obtain ⟨rfl, rfl⟩ := Prod.mk.inj e
      obtain ⟨a1, a2, a3⟩ := addOffsets_spec hs hadd
      obtain ⟨i1, i2, i3, i4, i5⟩ := ih hr a1 hl
      refine ⟨i1, ?_, fun q hq => i3 q (a2 q hq), ?_, ?_⟩
      · refine List.pairwise_cons.mpr ⟨?_, i2⟩
        intro q hq
        obtain ⟨row', hrow, e⟩ := i4 q hq
        have := ha row' hrow
        simp only at this ⊢
        omega
      · intro q hq
        rcases List.mem_cons.mp hq with rfl | hq
        · exact ⟨_, List.mem_cons_self .., rfl⟩
        · obtain ⟨row', hrow, e⟩ := i4 q hq
          exact ⟨row', List.mem_cons_of_mem _ hrow, e⟩
      · intro row' hrow
        rcases List.mem_cons.mp hrow with rfl | hrow
        · exact ⟨zF, List.mem_cons_self .., fun q hq => i3 _ (a3 q hq)⟩
        · obtain ⟨zF', h1, h2⟩ := i5 row' hrow
          exact ⟨zF', List.mem_cons_of_mem _ h1, h2⟩

theorem eval_slope_zero {p : Lin R} (h : p.dy = 0) (x : Nat) : p.eval x = p.b := by
  simp [Lin.eval, h]

theorem detect_reproduces_aux {pts : List (Nat × R)} (hs : Sorted pts) : Reproduces (detect pts).eval pts :=
  choose_reproduces hs (sections_covers hs _)

theorem detectPlane_spec {pts : List (Nat × List (Nat × R))} (hs : Sorted pts) (hr : ∀ row ∈ pts, Sorted row.2) {f : Plane R}
    (h : detectPlane pts = some f) : Reproduces2 f.eval pts := by
  unfold detectPlane at h
  split at h
  · rename_i x row
    obtain rfl := Option.some.inj h
    intro r hrm p hp
    simp at hrm
    subst hrm
    exact detect_reproduces_aux (hr _ (by simp)) p hp
  · split at h
    · rename_i q x2z hsy
      obtain rfl := Option.some.inj h
      intro row hrow p hp
      obtain ⟨z, e1, e2⟩ := (singleY_spec hsy).2 row hrow
      rw [e1] at hp
      simp at hp
      subst hp
      exact detect_reproduces_aux (singleY_sorted hs hsy) _ e2
    · split at h
      · simp at h
      · rename_i starts offs hsp
        obtain ⟨s1, s2, _, _, s5⟩ := splitPlane_spec hs List.Pairwise.nil hsp
        split at h
        · rename_i fx fy hfx hfy
          have rx := ofSections_reproduces s2 hfx
          have ry := ofSections_reproduces s1 hfy
          have sum : Reproduces2 (Plane.eval ⟨some fx, some fy⟩) pts := by
            intro row hrow p hp
            obtain ⟨zF, m1, m2⟩ := s5 row hrow
            have h1 := rx _ m1
            have h2 := ry _ (m2 p hp)
            simp only at h1 h2
            simp only [Plane.eval, h1, h2]
            congr 1
            ring
          split at h
          · rename_i px py
            by_cases hc : px.dy = 0 ∧ py.dy = 0
            · rw [if_pos hc] at h
              obtain rfl := Option.some.inj h
              intro row hrow p hp
              have := sum row hrow p hp
              simp only [Plane.eval, Pat.eval, eval_slope_zero hc.1, eval_slope_zero hc.2] at this
              simp only [Plane.eval, Pat.eval]
              rw [← this, eval_slope_zero (by exact hc.1)]
            · rw [if_neg hc] at h
              obtain rfl := Option.some.inj h
              exact sum
          · obtain rfl := Option.some.inj h
            exact sum
        · simp at h

end Verif.Index
