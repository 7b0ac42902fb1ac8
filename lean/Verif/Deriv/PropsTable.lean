import Verif.Deriv.LemmasTable
/-
C47: the generated sparsity functions.
-/
namespace Verif.Deriv

/-- What the function generated for the elements of each row or column returns: for every position, also those without
elements and those outside of the matrix, the elements requested for it in the order of the request, and their number. The
generated code only refers to arrays which it declares. -/
theorem sparsity_of_position (req : List (Nat × Nat)) :
    (gen1D (groups req)).compiles = true ∧ ∀ pos,
      ((gen1D (groups req)).lookup pos).2 = (req.filter (·.1 == pos)).length ∧
      readPos ((gen1D (groups req)).lookup pos) = .ok ((req.filter (·.1 == pos)).map (·.2)) := by
  refine ⟨gen1D_compiles (groups_sorted req) (groups_filled req), fun pos => ?_⟩
  rw [gen1D_lookup (groups_sorted req) (groups_filled req), valueAt_groups]
  refine ⟨by simp [grp], ?_⟩
  unfold readPos
  by_cases h : grp req pos = []
  · simp only [h, List.length_nil, if_true]
    rw [← h]; rfl
  · have hl : (grp req pos).length ≠ 0 := by simpa using h
    simp only [if_neg hl, if_neg h, Nat.le_refl, if_true, List.take_length]
    rfl

/-- The same for any map without empty vectors. -/
theorem sparsity_table {m : List (Nat × List Nat)} (hs : Sorted m) (hf : Filled m) :
    (gen1D m).compiles = true ∧ ∀ pos, (gen1D m).lookup pos =
      (if valueAt m pos = [] then none else some (valueAt m pos), (valueAt m pos).length) :=
  ⟨gen1D_compiles hs hf, gen1D_lookup hs hf⟩

/-- A vector without elements before another one: the generated code refers to `els0`, which is not declared. No caller
makes such a map. -/
theorem sparsity_table_counterexample :
    gen1D [(0, []), (1, [4])] = ⟨[(1, [4])], [some 0, some 1], [0, 1]⟩ ∧
    (gen1D [(0, []), (1, [4])]).compiles = false := by decide +kernel

/-- The sparsity patterns of the Hessians of all equations: rows, columns and number of elements of equation `i`, null and
zero for the equations without elements. -/
theorem sparsity_of_equation (sp : List (List Nat × List Nat)) :
    (gen2D sp).compiles = true ∧ ∀ i,
      (∀ r c, sp[i]? = some (r, c) → r ≠ [] → (gen2D sp).lookup i = (some r, some c, r.length)) ∧
      ((∀ r c, sp[i]? = some (r, c) → r = []) → (gen2D sp).lookup i = (none, none, 0)) := by
  obtain ⟨hb, hlt, _⟩ := maxNnzIndex2_bound sp 0 0 (Nat.le_refl _)
  rw [Nat.zero_add] at hb
  simp only [Nat.zero_add] at hlt
  have hptr : ∀ p, p < maxNnzIndex2 sp 0 0 → ((pointers sp 0).take (maxNnzIndex2 sp 0 0))[p]? =
      sp[p]?.map fun s => if s.1.isEmpty then none else some p := by
    intro p hp
    rw [List.getElem?_take_of_lt hp, pointers_get]
    congr 1
    funext s
    rw [Nat.zero_add]
  have hplen : ((pointers sp 0).take (maxNnzIndex2 sp 0 0)).length = maxNnzIndex2 sp 0 0 := by
    rw [List.length_take, pointers_length]; omega
  have hnn : ∀ p, p < maxNnzIndex2 sp 0 0 → (resize (sp.map (·.1.length)) (maxNnzIndex2 sp 0 0))[p]? =
      sp[p]?.map (·.1.length) := by
    intro p hp
    rw [resize, List.length_map, List.getElem?_append_left (by rw [List.length_take, List.length_map]; omega),
      List.getElem?_take_of_lt hp, List.getElem?_map]
  constructor
  · have key : ∀ (f : List Nat × List Nat → List Nat),
        ((pointers sp 0).take (maxNnzIndex2 sp 0 0)).all (fun o => match o with
          | none => true
          | some k => ((sp.map fun s => if s.1.isEmpty then none else some (f s)).getD k none).isSome) = true := by
      intro f
      rw [List.all_eq_true]
      intro o ho
      obtain ⟨p, hp⟩ := List.mem_iff_getElem?.1 ho
      have hpl : p < maxNnzIndex2 sp 0 0 := by
        have := (List.getElem?_eq_some_iff.1 hp).1
        omega
      rw [hptr p hpl] at hp
      obtain ⟨s, hs, rfl⟩ := Option.map_eq_some_iff.1 hp
      cases he : s.1.isEmpty with
      | true => rfl
      | false =>
        simp only [Bool.false_eq_true, if_false, List.getD_eq_getElem?_getD, List.getElem?_map, hs, Option.map_some, he,
          Option.getD_some, Option.isSome_some]
    rw [Table2.compiles, Bool.and_eq_true]
    exact ⟨key (·.1), key (·.2)⟩
  · intro i
    constructor
    · intro r c hi hr
      have hil := hlt i (r, c) hi hr
      have he : r.isEmpty = false := by cases r <;> simp_all
      rw [Table2.lookup]
      show (if i < ((pointers sp 0).take _).length then _ else _) = _
      rw [hplen, if_pos hil]
      simp only [gen2D, List.getD_eq_getElem?_getD, hptr i hil, hnn i hil, hi, Option.map_some, he, Bool.false_eq_true,
        if_false, Option.getD_some, List.getElem?_map]
    · intro hno
      rw [Table2.lookup]
      show (if i < ((pointers sp 0).take _).length then _ else _) = _
      rw [hplen]
      by_cases hil : i < maxNnzIndex2 sp 0 0
      · rw [if_pos hil]
        have hisp : i < sp.length := by omega
        have hget : sp[i]? = some sp[i] := List.getElem?_eq_getElem hisp
        have hr := hno sp[i].1 sp[i].2 hget
        simp only [gen2D, List.getD_eq_getElem?_getD, hptr i hil, hnn i hil, hget, Option.map_some, hr, List.isEmpty_nil,
          if_true, Option.getD_some, List.length_nil]
      · rw [if_neg hil]

/-! ### non-vacuity -/

example : gen1D (groups [(3, 1), (1, 0), (3, 0)]) = ⟨[(1, [0]), (3, [1, 0])], [none, some 1, none, some 3], [0, 1, 0, 2]⟩ := by
  decide +kernel

example : ((gen1D (groups [(3, 1), (1, 0), (3, 0)])).lookup 3) = (some [1, 0], 2) ∧
    ((gen1D (groups [(3, 1), (1, 0), (3, 0)])).lookup 2) = (none, 0) ∧
    ((gen1D (groups [(3, 1), (1, 0), (3, 0)])).lookup 7) = (none, 0) := by decide +kernel

example : Sorted [(1, [0]), (3, [1, 0])] ∧ Filled [(1, [0]), (3, [1, 0])] := by
  constructor
  · simp [Sorted]
  · simp [Filled]

example : (gen2D [([], []), ([0, 1], [1, 0]), ([], [])]).lookup 1 = (some [0, 1], some [1, 0], 2) ∧
    (gen2D [([], []), ([0, 1], [1, 0]), ([], [])]).lookup 2 = (none, none, 0) := by decide +kernel

end Verif.Deriv
