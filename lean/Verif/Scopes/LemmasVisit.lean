import Verif.Scopes.LemmasAlter

/-
Lemmas: visits of all nodes.
-/
namespace Verif.Scopes

open Verif.Ranges

section
variable {nd0 : Nat → Node} {N : Nat} {R : Nat → Nat} {S : List Nat} {st st' : St}

/-! ### another visit of an operation -/

theorem Done.of_same (hi : Inv nd0 N S st) {n cur : Nat} (hv : 1 ≤ st.count n) (hw : (nd0 n).op.needed = true → W st.nd st.path cur (st.scope n)) :
    Done nd0 N R S n cur st st :=
  ⟨hi, ⟨le_refl _, le_refl _, fun _ _ => rfl, SameCtl.refl _ _, fun _ h => h, fun _ _ _ => rfl, fun _ _ _ => rfl, fun _ _ _ => W.refl _⟩,
    fun _ _ _ => ⟨rfl, rfl⟩, hv, hw⟩

theorem InL.last {nd : Nat → Node} {path : Nat → List (Nat × Nat)} {L e c : Nat} (h : InL nd path L e c) :
    (c = L ∧ (path c).getLast? = some (L, e)) ∨ ∃ e', (path c).getLast? = some (c, e') ∧ path c = [(L, e), (c, e')] ∧ (nd e').op.ends = true := by
  rcases h.2.2.2 with h1 | ⟨_, _, e', h1, h2⟩
  · left
    refine ⟨h1, ?_⟩
    rw [h1, h.1]
    rfl
  · right
    exact ⟨e', by rw [h1]; rfl, h1, h2⟩

theorem handle_ok (hg : LoopGraph nd0 N) (hR : ∀ n < N, ∀ a ∈ (nd0 n).args, R a < R n) (hi : Inv nd0 N S st) {f n cur L e : Nat}
    (hn : n < N) (hv : 1 ≤ st.count n) (hS : n ∉ S) (hop : (st.nd n).op = .plain) (ho : InL st.nd st.path L e (st.scope n))
    (hoL : st.scope n ≠ L) (hcc : cur ≤ st.colors) (hcur : InL st.nd st.path L e cur)
    (h : handle f n cur (st.scope n) L st = .ok st') : Done nd0 N R S n cur st st' := by
  have hb := hi.base
  unfold handle at h
  rw [if_neg hcur.ne0] at h
  split at h
  · rename_i e1 e2 h1 h2
    split at h
    · rename_i hends
      simp only [Bool.and_eq_true] at hends
      split at h
      · rename_i b1 as1 b2 as2 hb1 hb2
        split at h
        · rename_i r1 r2 hr1 hr2
          split at h
          · cases h
          · rename_i r rs hrr
            split at h
            · exact move_ok hg hR hi hn hv hS hop ho hoL hcur h
            · rw [← hrr] at h
              -- the end of the old scope
              have ho' : st.path (st.scope n) = [(L, e), (st.scope n, e2.2)] := by
                rcases ho.last with ⟨h3, _⟩ | ⟨e', h3, h4, _⟩
                · exact absurd h3 hoL
                · rw [h2] at h3
                  cases h3
                  exact h4
              have hmem1 : e1 ∈ st.path cur := List.mem_of_getLast? h1
              have hmem2 : e2 ∈ st.path (st.scope n) := List.mem_of_getLast? h2
              have p1 := hb.pathEnd hcc hmem1
              have p2 := hb.pathEnd (hb.scopes n) hmem2
              have hc1 := branchRanges_ok hb.conds hb.closed (hb.closed _ p1.1 b1 (by rw [hb1]; simp)) hr1
              have hc2 := branchRanges_ok hb.conds hb.closed (hb.closed _ p2.1 b2 (by rw [hb2]; simp)) hr2
              refine alter_ok hg hR hi hn hv hS hop ho hoL hcc hcur (separated_combine hc1.1 hc2.1) ?_ h
              intro it hit hruns
              rw [combineOverlap_covers _ _ hc1.1.disjoint.ordered hc2.1.disjoint.ordered]
              right
              exact hc2.2 it hit (hruns e2 hmem2 hends.2 b2 as2 hb2)
        · cases h
      · cases h
    · exact move_ok hg hR hi hn hv hS hop ho hoL hcur h
  · cases h

theorem revisit_value (hg : LoopGraph nd0 N) (hR : ∀ n < N, ∀ a ∈ (nd0 n).args, R a < R n) (hi : Inv nd0 N S st) {f n cur : Nat}
    (hn : n < N) (hv : 1 ≤ st.count n) (hS : n ∉ S) (hval : (nd0 n).op.isValue = true) (hni : (st.nd n).op ≠ .indep) (hcc : cur ≤ st.colors)
    (hpl : (st.nd n).op ≠ .indexed → st.scope n = 0 ∨ ∃ L e, InL st.nd st.path L e (st.scope n) ∧ InL st.nd st.path L e cur)
    (h : revisit f n cur st = .ok st') : Done nd0 N R S n cur st st' := by
  have hb := hi.base
  unfold revisit at h
  split at h
  · rename_i hop
    split at h
    · rename_i heq
      exact restore_ok hg hR hi hn hv hS hop heq h
    · rename_i hne
      simp only [Except.ok.injEq] at h
      subst h
      refine Done.of_same hi hv fun _ => ?_
      obtain ⟨d, e', x, r, t, k, L', el, t1, t2, t3, t4, t5, t6, t7, t8, t9, t10, t11⟩ := hb.tmp n hn hop
      rcases hpl (by rw [hop]; intro h; cases h) with h1 | ⟨L, e, h1, h2⟩
      · exact absurd (h1.symm.trans t9).symm t10.loop.ne0
      · show W st.nd st.path cur (st.scope n)
        have h4 := t10.loop
        rw [← t9] at h4
        have h5 : st.scope n = L := (h1.unique h4).1.symm
        rw [h5]
        exact h2.w
  · rename_i hop
    simp only [Except.ok.injEq] at h
    subst h
    refine Done.of_same hi hv fun hn' => ?_
    have : st.nd n = nd0 n := by
      rcases hb.orig n hn with h1 | h1
      · exact h1
      · rw [hop] at h1; cases h1.2
    rw [← this, hop] at hn'
    cases hn'
  · rename_i hnt hnx
    have hnd : st.nd n = nd0 n := by
      rcases hb.orig n hn with h1 | h1
      · exact h1
      · exact absurd h1.2 hnt
    have hop : (st.nd n).op = .plain := by
      rw [← hnd] at hval
      rcases value_cases hval with h1 | h1 | h1
      · exact h1
      · exact absurd h1 hni
      · exact absurd h1 hnx
    split at h
    · rename_i heq
      simp only [Except.ok.injEq] at h
      subst h
      exact Done.of_same hi hv fun _ => by rw [heq]; exact W.refl _
    · rename_i hne
      simp only at h
      split at h
      · rename_i hnew
        simp only [Except.ok.injEq] at h
        subst h
        refine Done.of_same hi hv fun _ => ?_
        show W st.nd st.path cur (st.scope n)
        rcases hpl hnx with h1 | ⟨L, e, h1, h2⟩
        · rw [h1]; exact w_zero hb.zero
        · rw [common_in h1 h2 hne] at hnew
          rw [hnew]
          exact h2.w
      · rename_i hnew
        rcases hpl hnx with h1 | ⟨L, e, h1, h2⟩
        · rw [h1, common_zero hb.zero] at hnew
          exact absurd rfl hnew
        · have h3 := common_in h1 h2 hne
          rw [h3] at h hnew
          exact handle_ok hg hR hi hn hv hS hop h1 hnew hcc h2 h

end

end Verif.Scopes
