import Verif.Deriv.Lemmas
import Verif.Deriv.ModelDir
/-
Lemmas about the generated sparsity tables.
-/
namespace Verif.Deriv

/-- no key without elements -/
def Filled (m : List (Nat × List Nat)) : Prop := ∀ g ∈ m, g.2 ≠ []

theorem filled_isEmpty {m : List (Nat × List Nat)} (h : Filled m) {g : Nat × List Nat} (hg : g ∈ m) :
    g.2.isEmpty = false := by
  have := h g hg
  cases hv : g.2 with
  | nil => exact absurd hv this
  | cons a as => rfl

theorem valueAt_mem {m : List (Nat × List Nat)} (hs : Sorted m) {k : Nat} {v : List Nat} (h : (k, v) ∈ m) :
    m.find? (·.1 == k) = some (k, v) := by
  induction m with
  | nil => cases h
  | cons g m ih =>
    have hs' := List.pairwise_cons.1 hs
    rw [List.find?_cons]
    rcases List.mem_cons.1 h with rfl | h
    · simp
    · have hlt := hs'.1 _ h
      have : (g.1 == k) = false := by
        simp only [beq_eq_false_iff_ne]
        simp only at hlt
        omega
      rw [this]
      exact ih hs'.2 h

theorem find_none {m : List (Nat × List Nat)} {k : Nat} (h : ∀ g ∈ m, g.1 ≠ k) : m.find? (·.1 == k) = none := by
  rw [List.find?_eq_none]
  intro g hg
  simpa using h g hg

theorem valueAt_none {m : List (Nat × List Nat)} {k : Nat} (h : ∀ g ∈ m, g.1 ≠ k) : valueAt m k = [] := by
  rw [valueAt, find_none h]

/-- one after the last key -/
def endKey (m : List (Nat × List Nat)) : Nat := match m.getLast? with | none => 0 | some g => g.1 + 1

theorem maxNnzIndex_eq : ∀ (m : List (Nat × List Nat)) (n : Nat), Filled m → maxNnzIndex m n =
    match m.getLast? with | none => n | some g => g.1 + 1
  | [], _, _ => rfl
  | g :: m, n, h => by
    have he := filled_isEmpty h (List.mem_cons_self)
    have hf : Filled m := fun g' hg => h g' (List.mem_cons_of_mem _ hg)
    rw [maxNnzIndex]
    simp only [he, Bool.false_eq_true, if_false]
    rw [maxNnzIndex_eq m _ hf]
    cases m with
    | nil => rfl
    | cons g' m' =>
      rw [List.getLast?_cons_cons]
      cases hl : (g' :: m').getLast? with
      | none => simp at hl
      | some x => rfl

theorem maxNnzIndex_endKey {m : List (Nat × List Nat)} (h : Filled m) : maxNnzIndex m 0 = endKey m := maxNnzIndex_eq m 0 h

theorem lt_endKey {m : List (Nat × List Nat)} (hs : Sorted m) {g : Nat × List Nat} (h : g ∈ m) : g.1 < endKey m := by
  unfold endKey
  cases hl : m.getLast? with
  | none =>
    rw [List.getLast?_eq_none_iff] at hl
    rw [hl] at h; cases h
  | some x =>
    simp only
    obtain ⟨i, hi, rfl⟩ := List.mem_iff_getElem.1 h
    rw [List.getLast?_eq_getElem?, List.getElem?_eq_getElem (by omega), Option.some.injEq] at hl
    rw [← hl]
    rcases Nat.lt_or_ge i (m.length - 1) with hlt | hge
    · have := List.pairwise_iff_getElem.1 hs i (m.length - 1) hi (by omega) hlt
      omega
    · have : i = m.length - 1 := by omega
      subst this
      omega

theorem elsLoop_length : ∀ (r i : Nat) (m : List (Nat × List Nat)), (elsLoop r i m).length = r
  | 0, _, _ => rfl
  | r + 1, i, [] => by rw [elsLoop, List.length_cons, elsLoop_length r]
  | r + 1, i, (k, v) :: m => by
    rw [elsLoop]
    by_cases h : i ≠ k
    · rw [if_pos h, List.length_cons, elsLoop_length r]
    · rw [if_neg h, List.length_cons, elsLoop_length r]

theorem elsLoop_get : ∀ (r i : Nat) (m : List (Nat × List Nat)), Sorted m → (∀ g ∈ m, i ≤ g.1) → ∀ (p : Nat), p < r →
    ((∃ g ∈ m, g.1 = i + p) → (elsLoop r i m)[p]? = some (some (i + p))) ∧
    ((∀ g ∈ m, g.1 ≠ i + p) → (elsLoop r i m)[p]? = some none)
  | 0, _, _, _, _, p, hp => by omega
  | r + 1, i, [], hs, hm, p, hp => by
    refine ⟨by simp, fun _ => ?_⟩
    rw [elsLoop]
    cases p with
    | zero => rfl
    | succ p =>
      rw [List.getElem?_cons_succ]
      exact (elsLoop_get r (i + 1) [] hs (by simp) p (by omega)).2 (by simp)
  | r + 1, i, (k, v) :: m, hs, hm, p, hp => by
    have hs' := List.pairwise_cons.1 hs
    rw [elsLoop]
    by_cases h : i ≠ k
    · rw [if_pos h]
      have hk : i ≤ k := hm (k, v) (by simp)
      have hm' : ∀ g ∈ (k, v) :: m, i + 1 ≤ g.1 := by
        intro g hg
        rcases List.mem_cons.1 hg with rfl | hg
        · show i + 1 ≤ k
          omega
        · have := hs'.1 g hg
          simp only at this
          omega
      cases p with
      | zero =>
        refine ⟨?_, fun _ => rfl⟩
        rintro ⟨g, hg, e⟩
        have := hm' g hg
        omega
      | succ p =>
        rw [List.getElem?_cons_succ]
        have ih := elsLoop_get r (i + 1) ((k, v) :: m) hs hm' p (by omega)
        rw [show i + 1 + p = i + (p + 1) by omega] at ih
        exact ih
    · rw [if_neg h]
      have hk : i = k := by omega
      have hm' : ∀ g ∈ m, i + 1 ≤ g.1 := by
        intro g hg
        have := hs'.1 g hg
        simp only at this
        omega
      cases p with
      | zero =>
        refine ⟨fun _ => rfl, fun hno => ?_⟩
        exact absurd (by simpa using hk.symm) (hno (k, v) (by simp))
      | succ p =>
        rw [List.getElem?_cons_succ]
        have ih := elsLoop_get r (i + 1) m hs'.2 hm' p (by omega)
        rw [show i + 1 + p = i + (p + 1) by omega] at ih
        refine ⟨?_, fun hno => ih.2 fun g hg => hno g (by simp [hg])⟩
        rintro ⟨g, hg, e⟩
        rcases List.mem_cons.1 hg with rfl | hg
        · simp only at e; omega
        · exact ih.1 ⟨g, hg, e⟩

theorem nnzsLoop_length : ∀ (m : List (Nat × List Nat)) (a : List Nat), (nnzsLoop m a).length = a.length
  | [], _ => rfl
  | (k, v) :: m, a => by
    rw [nnzsLoop, nnzsLoop_length m]
    split
    · rfl
    · rw [List.length_set]

theorem nnzsLoop_get : ∀ (m : List (Nat × List Nat)) (a : List Nat), Sorted m → Filled m → ∀ (p : Nat), p < a.length →
    (∀ v, (p, v) ∈ m → (nnzsLoop m a)[p]? = some v.length) ∧
    ((∀ g ∈ m, g.1 ≠ p) → (nnzsLoop m a)[p]? = a[p]?)
  | [], a, _, _, p, hp => by simp [nnzsLoop]
  | (k, v) :: m, a, hs, hf, p, hp => by
    have hs' := List.pairwise_cons.1 hs
    have hf' : Filled m := fun g hg => hf g (List.mem_cons_of_mem _ hg)
    have he : v.isEmpty = false := filled_isEmpty hf (List.mem_cons_self (a := (k, v)))
    rw [nnzsLoop, he]
    simp only [Bool.false_eq_true, if_false]
    obtain ⟨h1, h2⟩ := nnzsLoop_get m (a.set k v.length) hs'.2 hf' p (by rw [List.length_set]; exact hp)
    constructor
    · intro v' hv
      rcases List.mem_cons.1 hv with e | hv
      · cases e
        rw [h2 fun g hg e => by have := hs'.1 g hg; simp only at this; omega, List.getElem?_set_self hp]
      · exact h1 v' hv
    · intro hno
      rw [h2 fun g hg => hno g (by simp [hg]), List.getElem?_set_ne]
      exact hno (k, v) (by simp)

theorem gen1D_arrays {m : List (Nat × List Nat)} (hf : Filled m) : (gen1D m).arrays = m := by
  unfold gen1D
  simp only
  rw [List.filter_eq_self]
  intro g hg
  simp [filled_isEmpty hf hg]

theorem gen1D_lookup {m : List (Nat × List Nat)} (hs : Sorted m) (hf : Filled m) (pos : Nat) :
    (gen1D m).lookup pos = (if valueAt m pos = [] then none else some (valueAt m pos), (valueAt m pos).length) := by
  have harr := gen1D_arrays hf
  have hmax := maxNnzIndex_endKey hf
  have hlen : (gen1D m).els.length = endKey m := by
    show (elsLoop _ _ _).length = _
    rw [elsLoop_length, hmax]
  have hnl : (nnzsLoop m (List.replicate (endKey m) 0)).length = endKey m := by rw [nnzsLoop_length, List.length_replicate]
  have hnn : (gen1D m).nnzs = nnzsLoop m (List.replicate (endKey m) 0) := by
    show resize (nnzsLoop m (List.replicate (endKey m) 0)) (maxNnzIndex m 0) = _
    rw [resize, hmax, List.take_of_length_le (by omega), hnl, Nat.sub_self]
    simp
  rw [Table.lookup, hlen]
  by_cases hp : pos < endKey m
  · rw [if_pos hp]
    have hels := elsLoop_get (endKey m) 0 m hs (by simp) pos hp
    rw [Nat.zero_add] at hels
    have hns := nnzsLoop_get m (List.replicate (endKey m) 0) hs hf pos (by rw [List.length_replicate]; exact hp)
    have hge : (gen1D m).els = elsLoop (endKey m) 0 m := by
      show elsLoop (maxNnzIndex m 0) 0 m = _
      rw [hmax]
    rw [hge, hnn, harr]
    by_cases hex : ∃ g ∈ m, g.1 = pos
    · obtain ⟨g, hg, rfl⟩ := hex
      have hfind := valueAt_mem hs (k := g.1) (v := g.2) hg
      have hval : valueAt m g.1 = g.2 := by rw [valueAt, hfind]
      rw [List.getD_eq_getElem?_getD, hels.1 ⟨g, hg, rfl⟩, List.getD_eq_getElem?_getD, hns.1 g.2 hg]
      simp only [Option.getD_some, hfind, hval, if_neg (hf g hg), Option.map_some]
    · have hno : ∀ g ∈ m, g.1 ≠ pos := fun g hg e => hex ⟨g, hg, e⟩
      rw [List.getD_eq_getElem?_getD, hels.2 hno, List.getD_eq_getElem?_getD, hns.2 hno, valueAt_none hno]
      simp [hp]
  · rw [if_neg hp, valueAt_none (k := pos) fun g hg e => hp (e ▸ lt_endKey hs hg)]
    rfl

theorem gen1D_compiles {m : List (Nat × List Nat)} (hs : Sorted m) (hf : Filled m) : (gen1D m).compiles = true := by
  rw [Table.compiles, gen1D_arrays hf, List.all_eq_true]
  intro o ho
  have hge : (gen1D m).els = elsLoop (endKey m) 0 m := by
    show elsLoop (maxNnzIndex m 0) 0 m = _
    rw [maxNnzIndex_endKey hf]
  rw [hge] at ho
  obtain ⟨p, hp⟩ := List.mem_iff_getElem?.1 ho
  have hlt : p < endKey m := by
    have := (List.getElem?_eq_some_iff.1 hp).1
    rwa [elsLoop_length] at this
  have hels := elsLoop_get (endKey m) 0 m hs (by simp) p hlt
  rw [Nat.zero_add] at hels
  by_cases hex : ∃ g ∈ m, g.1 = p
  · rw [hels.1 hex, Option.some.injEq] at hp
    rw [← hp]
    simp only
    rw [List.any_eq_true]
    obtain ⟨g, hg, e⟩ := hex
    exact ⟨g, hg, by simpa using e⟩
  · rw [hels.2 fun g hg e => hex ⟨g, hg, e⟩, Option.some.injEq] at hp
    rw [← hp]

theorem groups_filled (req : List (Nat × Nat)) : Filled (groups req) := fun g hg =>
  ((mem_groups (k := g.1) (vs := g.2)).1 hg).2

theorem valueAt_groups (req : List (Nat × Nat)) (k : Nat) : valueAt (groups req) k = grp req k := by
  by_cases h : grp req k = []
  · rw [h]
    refine valueAt_none fun g hg e => ?_
    have := (mem_groups (k := g.1) (vs := g.2)).1 hg
    rw [e, h] at this
    exact this.2 this.1
  · rw [valueAt, valueAt_mem (groups_sorted req) (mem_groups.2 ⟨rfl, h⟩)]

/-! ### two dimensions -/

theorem maxNnzIndex2_bound : ∀ (sp : List (List Nat × List Nat)) (i n : Nat), n ≤ i →
    maxNnzIndex2 sp i n ≤ i + sp.length ∧
    (∀ (p : Nat), ∀ s, sp[p]? = some s → s.1 ≠ [] → i + p < maxNnzIndex2 sp i n) ∧ n ≤ maxNnzIndex2 sp i n
  | [], i, n, h => ⟨by simpa [maxNnzIndex2] using h, by simp, Nat.le_refl _⟩
  | (r, c) :: sp, i, n, h => by
    rw [maxNnzIndex2, List.length_cons]
    cases hr : r.isEmpty with
    | true =>
      simp only [if_true]
      obtain ⟨h1, h2, h3⟩ := maxNnzIndex2_bound sp (i + 1) n (by omega)
      refine ⟨by omega, fun p s hp hs => ?_, h3⟩
      cases p with
      | zero =>
        simp only [List.getElem?_cons_zero, Option.some.injEq] at hp
        subst hp
        exact absurd (List.isEmpty_iff.1 hr) hs
      | succ p =>
        have := h2 p s (by simpa using hp) hs
        omega
    | false =>
      simp only [Bool.false_eq_true, if_false]
      obtain ⟨h1, h2, h3⟩ := maxNnzIndex2_bound sp (i + 1) (i + 1) (by omega)
      refine ⟨by omega, fun p s hp hs => ?_, by omega⟩
      cases p with
      | zero => omega
      | succ p =>
        have := h2 p s (by simpa using hp) hs
        omega

theorem pointers_get : ∀ (sp : List (List Nat × List Nat)) (i p : Nat),
    (pointers sp i)[p]? = sp[p]?.map fun s => if s.1.isEmpty then none else some (i + p)
  | [], _, _ => by simp [pointers]
  | (r, c) :: sp, i, p => by
    rw [pointers]
    cases p with
    | zero => simp
    | succ p =>
      rw [List.getElem?_cons_succ, List.getElem?_cons_succ, pointers_get sp (i + 1) p]
      congr 1
      funext s
      rw [show i + 1 + p = i + (p + 1) by omega]

theorem pointers_length : ∀ (sp : List (List Nat × List Nat)) (i : Nat), (pointers sp i).length = sp.length
  | [], _ => rfl
  | (r, c) :: sp, i => by rw [pointers, List.length_cons, List.length_cons, pointers_length sp]

end Verif.Deriv
