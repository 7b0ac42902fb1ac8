import Verif.Dae.Lemmas
import Mathlib.Data.Set.Finite.Basic
namespace Verif.Dae

/-- a structurally singular set of equations cannot be assigned -/
theorem not_singular {inc : Nat → List Nat} {a : Nat → Option Nat} (h : IsMatching inc a) {E : Finset Nat}
    (hc : ∀ i ∈ E, a i ≠ none) : ¬ Singular inc E := by
  unfold Singular
  rw [Nat.not_lt]
  refine Finset.card_le_card_of_injOn (fun i => (a i).getD 0) ?_ ?_
  · intro i hi
    obtain ⟨j, hj⟩ := Option.ne_none_iff_exists'.mp (hc i hi)
    simp only [Finset.coe_biUnion, Set.mem_iUnion]
    exact ⟨i, hi, by simp only [hj, Option.getD_some]; simpa using h.1 i j hj⟩
  · intro i hi i' hi' heq
    obtain ⟨j, hj⟩ := Option.ne_none_iff_exists'.mp (hc i hi)
    obtain ⟨j', hj'⟩ := Option.ne_none_iff_exists'.mp (hc i' hi')
    simp only [hj, hj', Option.getD_some] at heq
    subst heq
    exact h.2 i i' j hj hj'

/-- the variables of an equation which are considered -/
def incOf (cons : VN → Bool) (g : BG) (k : Nat) : List Nat := (g.e k).vars.filter fun j => cons (g.v j)

def coloredE (g : BG) : Finset Nat := (Finset.range g.ne).filter fun k => (g.e k).colored = true

/-- a search from an unassigned equation -/
theorem search_result {cons : VN → Bool} {mark : Bool} {rec : Nat → BG → Except Err (Bool × BG)} {n : Nat}
    (hd : Does cons mark rec n) {g : BG} (hm : Mut g)
    (hcv : ∀ j, (g.v j).colored = false) (hce : ∀ k, (g.e k).colored = false) {i : Nat} (hi : i < g.ne)
    (hun : (g.e i).assign = none) (hn : g.ne ≤ n) :
    (∃ g', rec i g = .ok (true, g') ∧ Found cons g i g' ∧ Mut g') ∨
    (∃ g', rec i g = .ok (false, g') ∧ Failed cons mark g i g' ∧ i ∈ coloredE g' ∧
      (∀ k, (g'.e k).colored = true → k < g.ne) ∧
      (∀ k, (g'.e k).colored = true → Alternating (incOf cons g) (fun k => (g.e k).assign) i k) ∧
      Singular (incOf cons g) (coloredE g')) := by
  have hunc : unc g ≤ n := by
    refine Nat.le_trans ?_ hn
    unfold unc
    refine Nat.le_trans (List.length_filter_le _ _) ?_
    rw [List.length_range]
  rcases hd i g hm (hce i) hi (fun j h => by rw [hcv] at h; cases h) hunc with ⟨g', e, F⟩ | ⟨g', e, hself, F⟩
  · left
    refine ⟨g', e, F, ⟨fun k j => ⟨F.e2v k j, fun h => ?_⟩, ?_⟩⟩
    · rcases F.v2e j k h with h1 | ⟨_, h2⟩
      · exact h1
      · rw [hun] at h2; cases h2
    · intro j k h
      rw [F.same.ne]
      rcases F.lt j k h with h1 | h1 | ⟨j', h1⟩
      · exact hm.lt j k h1
      · rw [h1]; exact hi
      · exact hm.lt j' k h1
  · right
    have hlt : ∀ k, (g'.e k).colored = true → k < g.ne := fun k hk =>
      F.reach (fun k => k < g.ne) hi (fun k0 j k _ _ _ h => hm.lt j k h) k hk (hce k)
    have hmem : ∀ k, k ∈ coloredE g' ↔ (g'.e k).colored = true := by
      intro k
      unfold coloredE
      rw [Finset.mem_filter, Finset.mem_range, F.same.ne]
      exact ⟨fun h => h.2, fun h => ⟨hlt k h, h⟩⟩
    refine ⟨g', e, F, (hmem i).mpr hself, hlt, ?_, ?_⟩
    · intro k hk
      refine F.reach _ .start ?_ k hk (hce k)
      intro k0 j k' h1 h2 h3 h4
      exact .step h1 (by unfold incOf; rw [List.mem_filter]; exact ⟨h2, h3⟩) ((hm.iff k' j).mpr h4)
    · -- every variable is assigned to another coloured equation
      unfold Singular
      have hsub : ((coloredE g').biUnion fun k => (incOf cons g k).toFinset).card ≤ ((coloredE g').erase i).card := by
        refine Finset.card_le_card_of_injOn (fun j => ((g.v j).assign).getD 0) ?_ ?_
        · intro j hj
          simp only [Finset.coe_biUnion, Set.mem_iUnion, incOf] at hj
          obtain ⟨k, hk, hj⟩ := hj
          simp only [List.coe_toFinset, Set.mem_setOf_eq, List.mem_filter] at hj
          obtain ⟨_, k', h1, h2⟩ := F.done k ((hmem k).mp hk) (hce k) j hj.1 hj.2
          simp only [h1, Option.getD_some, Finset.coe_erase, Set.mem_diff, Set.mem_singleton_iff]
          refine ⟨(hmem k').mpr h2, ?_⟩
          rintro rfl
          rw [(hm.iff k' j).mpr h1] at hun; cases hun
        · intro j hj j' hj' heq
          simp only [Finset.coe_biUnion, Set.mem_iUnion, incOf] at hj hj'
          obtain ⟨k, hk, hj⟩ := hj
          obtain ⟨k', hk', hj'⟩ := hj'
          simp only [List.coe_toFinset, Set.mem_setOf_eq, List.mem_filter] at hj hj'
          obtain ⟨_, m, h1, _⟩ := F.done k ((hmem k).mp hk) (hce k) j hj.1 hj.2
          obtain ⟨_, m', h1', _⟩ := F.done k' ((hmem k').mp hk') (hce k') j' hj'.1 hj'.2
          simp only [h1, h1', Option.getD_some] at heq
          subst heq
          have e1 := (hm.iff m j).mpr h1
          have e2 := (hm.iff m j').mpr h1'
          rw [e1] at e2
          exact Option.some.inj e2
      have := Finset.card_erase_lt_of_mem ((hmem i).mpr hself)
      omega

end Verif.Dae
