import Verif.Dae.SpecDummy
import Mathlib.LinearAlgebra.Dimension.Constructions
import Mathlib.LinearAlgebra.Dimension.Finite
import Mathlib.LinearAlgebra.LinearIndependent.Defs
import Mathlib.Data.List.Perm.Subperm

/-
For every matrix there is a decomposition as it is expected from the library for linear algebra.
-/
namespace Verif.Dae.Dummy

variable {K : Type} [Field K]

/-- there are not more independent columns than rows -/
theorem indep_le {jac : Nat → Nat → K} {rows cols : List Nat} (h : Independent jac rows cols) : cols.length ≤ rows.length := by
  classical
  let vec : Fin cols.length → (Fin rows.length → K) := fun v i => jac rows[i] cols[v]
  have hli : LinearIndependent K vec := by
    rw [Fintype.linearIndependent_iff]
    intro g hg v
    let c : Nat → K := fun a => if ha : ∃ v : Fin cols.length, cols[v] = a then g ha.choose else 0
    have hc : ∀ v : Fin cols.length, c cols[v] = g v := fun v => by
      have ha : ∃ u : Fin cols.length, cols[u] = cols[v] := ⟨v, rfl⟩
      simp only [c, dif_pos ha]
      congr 1
      have := ha.choose_spec
      exact Fin.ext ((List.Nodup.getElem_inj_iff h.1).1 this)
    rw [← hc v]
    refine h.2 c (fun i hi => ?_) _ (List.getElem_mem _)
    obtain ⟨n, hn, rfl⟩ := List.mem_iff_getElem.1 hi
    have h1 := congrFun hg ⟨n, hn⟩
    simp only [Finset.sum_apply, Pi.smul_apply, smul_eq_mul, Pi.zero_apply, vec] at h1
    rw [← h1, ← List.sum_ofFn]
    congr 1
    refine List.ext_getElem (by simp) fun m h1 h2 => ?_
    simp only [List.length_ofFn] at h2
    simp only [List.getElem_map, List.getElem_ofFn]
    rw [show c cols[m] = g ⟨m, h2⟩ from hc ⟨m, h2⟩, mul_comm]
    rfl
  have := hli.fintype_card_le_finrank
  simpa using this

theorem max_indep (jac : Nat → Nat → K) (rows cols : List Nat) :
    ∃ sel, sel ⊆ cols ∧ Independent jac rows sel ∧ ∀ l, l ⊆ cols → Independent jac rows l → l.length ≤ sel.length := by
  classical
  have h0 : ∃ sel : List Nat, sel ⊆ cols ∧ Independent jac rows sel :=
    ⟨[], by simp, List.nodup_nil, fun c _ v hv => by cases hv⟩
  have hb : ∀ n, (∃ sel, sel ⊆ cols ∧ Independent jac rows sel ∧ sel.length = n) → n ≤ rows.length := by
    rintro n ⟨sel, _, h, rfl⟩
    exact indep_le h
  obtain ⟨s, h1, h2⟩ := h0
  have hspec := Nat.findGreatest_spec (P := fun n => ∃ sel, sel ⊆ cols ∧ Independent jac rows sel ∧ sel.length = n)
    (indep_le h2) ⟨s, h1, h2, rfl⟩
  obtain ⟨sel, h3, h4, h5⟩ := hspec
  refine ⟨sel, h3, h4, fun l hl hi => ?_⟩
  rw [h5]
  exact Nat.le_findGreatest (indep_le hi) ⟨l, hl, hi, rfl⟩

theorem qr_exists (jac : Nat → Nat → K) : ∃ qr : QR, qr.Right jac := by
  classical
  have hone : ∀ rows cols : List Nat, ∃ rp : Nat × List Nat, rp.2.Perm cols ∧ rp.1 ≤ rows.length ∧
      (cols.Nodup → (Independent jac rows (rp.2.take rp.1) ∧ rp.1 ≤ rp.2.length) ∧
        ∀ l, l ⊆ cols → Independent jac rows l → l.length ≤ rp.1) := by
    intro rows cols
    by_cases hn : cols.Nodup
    · obtain ⟨sel, h1, h2, h3⟩ := max_indep jac rows cols
      refine ⟨(sel.length, sel ++ cols.filter fun a => !decide (a ∈ sel)), ?_, indep_le h2, fun _ => ⟨⟨?_, by simp⟩, h3⟩⟩
      · have hp : sel.Perm (cols.filter fun a => decide (a ∈ sel)) := by
          refine (List.perm_ext_iff_of_nodup h2.1 (hn.filter _)).2 fun a => ?_
          simp only [List.mem_filter, decide_eq_true_eq]
          exact ⟨fun h => ⟨h1 h, h⟩, fun h => h.2⟩
        exact (hp.append_right _).trans (List.filter_append_perm _ _)
      · simpa using h2
    · exact ⟨(0, cols), .refl _, Nat.zero_le _, fun h => absurd h hn⟩
  choose f hf using hone
  refine ⟨fun rows cols => some (f rows cols), ⟨?_, ?_, ?_, ?_⟩⟩
  · intro rows cols r p h
    have := (hf rows cols).1
    rw [Option.some.inj h] at this; exact this
  · intro rows cols r p h
    have := (hf rows cols).2.1
    rw [Option.some.inj h] at this; exact this
  · intro rows cols r p hn h
    have := ((hf rows cols).2.2 hn).1
    rw [Option.some.inj h] at this; exact this
  · intro rows cols l hn hl hi
    exact ⟨_, _, rfl, ((hf rows cols).2.2 hn).2 l hl hi⟩

end Verif.Dae.Dummy
