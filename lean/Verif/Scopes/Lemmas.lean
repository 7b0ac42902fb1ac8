import Mathlib.Tactic.Ring
import Mathlib.Tactic.IntervalCases
import Verif.Ranges.Props
import Verif.Scopes.Model

/-
Lemmas: iterations of branches, scopes within scopes.
-/
namespace Verif.Scopes

open Verif.Ranges

/-! ### ranges -/

theorem separated_combine {a b : List (Nat × Nat)} (ha : SeparatedRanges a) (hb : SeparatedRanges b) :
    SeparatedRanges (combineOverlap a b) := by
  by_cases h1 : a = []
  · subst h1; simpa [combineOverlap] using hb
  · by_cases h2 : b = []
    · subst h2; simpa [combineOverlap, h1] using ha
    · exact combineOverlap_separated a b ha.disjoint.ordered hb.disjoint.ordered h1 h2

theorem separated_invertGo : ∀ (rs : List (Nat × Nat)) (e : Nat), e ≤ sizeMax → (∀ r ∈ rs, e + 1 < r.1) → SeparatedRanges rs →
    SeparatedRanges (invertGo e rs) ∧ ∀ q ∈ invertGo e rs, e + 1 ≤ q.1
  | [], e, he, _, _ => by
    unfold invertGo
    split
    · refine ⟨⟨List.pairwise_singleton _ _, ?_⟩, ?_⟩
      · intro r hr
        simp only [List.mem_singleton] at hr
        subst hr
        exact ⟨by simp only; omega, le_refl _⟩
      · intro r hr
        simp only [List.mem_singleton] at hr
        subst hr
        exact le_refl _
    · exact ⟨⟨List.Pairwise.nil, by simp⟩, by simp⟩
  | r :: rs, e, he, h, hs => by
    have h1 := h r (by simp)
    have h2 := hs.2 r (by simp)
    obtain ⟨hp, hv⟩ := hs
    rw [List.pairwise_cons] at hp
    obtain ⟨⟨i1, i2⟩, i3⟩ := separated_invertGo rs r.2 h2.2 hp.1 ⟨hp.2, fun q hq => hv q (List.mem_cons_of_mem _ hq)⟩
    unfold invertGo
    refine ⟨⟨List.pairwise_cons.mpr ⟨?_, i1⟩, ?_⟩, ?_⟩
    · intro q hq
      have := i3 q hq
      simp only
      omega
    · intro q hq
      rcases List.mem_cons.mp hq with h | h
      · subst h
        simp only
        omega
      · exact i2 q h
    · intro q hq
      rcases List.mem_cons.mp hq with h | h
      · subst h
        exact le_refl _
      · have := i3 q h
        omega

theorem separated_invert {rs : List (Nat × Nat)} (h : SeparatedRanges rs) : SeparatedRanges (invert rs) := by
  cases rs with
  | nil =>
    refine ⟨List.pairwise_singleton _ _, ?_⟩
    intro r hr
    rw [invert, List.mem_singleton] at hr
    subst hr
    exact ⟨Nat.zero_le _, le_refl _⟩
  | cons r rs =>
    have h2 := h.2 r (by simp)
    obtain ⟨hp, hv⟩ := h
    rw [List.pairwise_cons] at hp
    obtain ⟨⟨i1, i2⟩, i3⟩ := separated_invertGo rs r.2 h2.2 hp.1 ⟨hp.2, fun q hq => hv q (List.mem_cons_of_mem _ hq)⟩
    unfold invert
    simp only
    by_cases h0 : r.1 ≠ 0
    · rw [if_pos h0]
      refine ⟨List.pairwise_cons.mpr ⟨?_, i1⟩, ?_⟩
      · intro q hq
        have := i3 q hq
        simp only
        omega
      · intro q hq
        rcases List.mem_cons.mp hq with h | h
        · subst h
          simp only
          omega
        · exact i2 q h
    · rw [if_neg h0]
      exact ⟨i1, i2⟩

/-- all conditions list ranges which cannot be merged -/
def Conds (nd : Nat → Node) (size : Nat) : Prop := ∀ n < size, ∀ rs, (nd n).op = .startIf rs ∨ (nd n).op = .elseIf rs → SeparatedRanges rs

theorem elseAcc_ok {nd : Nat → Node} {size : Nat} (hc : Conds nd size) (hcl : ∀ n < size, ∀ a ∈ (nd n).args, a < size) :
    ∀ (f p : Nat) (acc rs : List (Nat × Nat)), p < size → SeparatedRanges acc → elseAcc nd f p acc = some rs →
      SeparatedRanges rs ∧ ∀ it, Skips nd it p → ¬ Covers acc it → ¬ Covers rs it
  | 0, _, _, _, _, _, h => by simp [elseAcc] at h
  | f + 1, p, acc, rs, hp, hacc, h => by
    unfold elseAcc at h
    split at h
    · rename_i qs as hq
      have hs := hc p hp qs (Or.inl (by rw [hq]))
      simp only [Option.some.injEq] at h
      subst h
      refine ⟨separated_combine hacc hs, fun it hsk hna hcov => ?_⟩
      rw [combineOverlap_covers _ _ hacc.disjoint.ordered hs.disjoint.ordered] at hcov
      rcases hcov with h' | h'
      · exact hna h'
      · cases hsk with
        | startIf h1 h2 => rw [hq] at h1; cases h1; exact h2 h'
        | elseIf h1 h2 h3 => rw [hq] at h1; cases h1
    · rename_i qs q as hq
      have hs := hc p hp qs (Or.inr (by rw [hq]))
      have hqs : q < size := hcl p hp q (by rw [hq]; simp)
      have key : ∀ it, Skips nd it p → ¬ Covers acc it → ¬ Covers (combineOverlap acc qs) it := by
        intro it hsk hna hcov
        rw [combineOverlap_covers _ _ hacc.disjoint.ordered hs.disjoint.ordered] at hcov
        rcases hcov with h' | h'
        · exact hna h'
        · cases hsk with
          | startIf h1 h2 => rw [hq] at h1; cases h1
          | elseIf h1 h2 h3 => rw [hq] at h1; cases h1; exact h2 h'
      split at h
      · obtain ⟨i1, i2⟩ := elseAcc_ok hc hcl f q _ rs hqs (separated_combine hacc hs) h
        refine ⟨i1, fun it hsk hna => i2 it ?_ (key it hsk hna)⟩
        cases hsk with
        | startIf h1 h2 => rw [hq] at h1; cases h1
        | elseIf h1 h2 h3 => rw [hq] at h1; cases h1; exact h3
      · simp only [Option.some.injEq] at h
        subst h
        exact ⟨separated_combine hacc hs, key⟩
    · simp at h

/-- the ranges of a branch contain all iterations in which it is taken -/
theorem branchRanges_ok {nd : Nat → Node} {size : Nat} (hc : Conds nd size) (hcl : ∀ n < size, ∀ a ∈ (nd n).args, a < size)
    {f b : Nat} {rs : List (Nat × Nat)} (hb : b < size) (h : branchRanges nd f b = some rs) :
    SeparatedRanges rs ∧ ∀ it ≤ sizeMax, Taken nd it b → Covers rs it := by
  unfold branchRanges at h
  split at h
  · rename_i qs as hq
    simp only [Option.some.injEq] at h
    subst h
    refine ⟨hc b hb qs (Or.inl (by rw [hq])), fun it _ ht => ?_⟩
    cases ht with
    | startIf h1 h2 => rw [hq] at h1; cases h1; exact h2
    | elseIf h1 h2 h3 => rw [hq] at h1; cases h1
    | els h1 h2 => rw [hq] at h1; cases h1
  · rename_i qs as hq
    simp only [Option.some.injEq] at h
    subst h
    refine ⟨hc b hb qs (Or.inr (by rw [hq])), fun it _ ht => ?_⟩
    cases ht with
    | startIf h1 h2 => rw [hq] at h1; cases h1
    | elseIf h1 h2 h3 => rw [hq] at h1; cases h1; exact h2
    | els h1 h2 => rw [hq] at h1; cases h1
  · rename_i p as hq
    rw [Option.map_eq_some_iff] at h
    obtain ⟨qs, h1, h2⟩ := h
    subst h2
    obtain ⟨i1, i2⟩ := elseAcc_ok hc hcl f p [] qs (hcl b hb p (by rw [hq]; simp)) ⟨List.Pairwise.nil, by simp⟩ h1
    refine ⟨separated_invert i1, fun it hit ht => ?_⟩
    rw [invert_covers _ i1.disjoint it hit]
    cases ht with
    | startIf h1 h2 => rw [hq] at h1; cases h1
    | elseIf h1 h2 h3 => rw [hq] at h1; cases h1
    | els h1 h2 => rw [hq] at h1; cases h1; exact i2 it h2 (covers_nil it)
  · simp at h

/-! ### scopes within scopes -/

theorem within_refl (P : Placed) (c : Nat) : P.Within c c := ⟨List.prefix_refl _, fun _ _ h => h⟩

theorem within_trans {P : Placed} {a b c : Nat} (h : P.Within a b) (h' : P.Within b c) : P.Within a c :=
  ⟨h'.1.trans h.1, fun it hit hr => h'.2 it hit (h.2 it hit hr)⟩

/-- scope `c` is the loop `L` or a branch in it -/
def InL (nd : Nat → Node) (path : Nat → List (Nat × Nat)) (L e c : Nat) : Prop :=
  path L = [(L, e)] ∧ (nd e).op = .loopEnd ∧ L ≠ 0 ∧
    (c = L ∨ (c ≠ L ∧ c ≠ 0 ∧ ∃ e', path c = [(L, e), (c, e')] ∧ (nd e').op.ends = true))

def PathOk (nd : Nat → Node) (path : Nat → List (Nat × Nat)) (c : Nat) : Prop :=
  (c = 0 ∧ path c = []) ∨ ∃ L e, InL nd path L e c

theorem ends_ne_loopEnd {o : Op} (h : o.ends = true) : o ≠ .loopEnd := by
  intro h'
  rw [h'] at h
  simp [Op.ends] at h

theorem loopEnd_ends {o : Op} (h : o = .loopEnd) : o.ends = false := by subst h; rfl

section
variable {P : Placed} {L e c d : Nat}

theorem InL.loops (h : InL P.nd P.path L e c) : P.loops c = [(L, e)] := by
  obtain ⟨h1, h2, _, h4⟩ := h
  rcases h4 with h4 | ⟨_, _, e', h4, h5⟩
  · subst h4
    simp [Placed.loops, h1, h2]
  · simp [Placed.loops, h4, h2, ends_ne_loopEnd h5]

theorem InL.ne (h : InL P.nd P.path L e c) : c ≠ 0 := by
  obtain ⟨_, _, h3, h4⟩ := h
  rcases h4 with h4 | h4
  · subst h4; exact h3
  · exact h4.2.1

theorem runs_loop (h : InL P.nd P.path L e c) (it : Nat) : P.Runs L it := by
  obtain ⟨h1, h2, _, _⟩ := h
  intro el hel hends
  rw [h1, List.mem_singleton] at hel
  subst hel
  rw [loopEnd_ends h2] at hends
  cases hends

theorem InL.self (h : InL P.nd P.path L e c) : InL P.nd P.path L e L := ⟨h.1, h.2.1, h.2.2.1, Or.inl rfl⟩

theorem InL.within (h : InL P.nd P.path L e c) : P.Within c L :=
  ⟨by rw [h.loops, h.self.loops]; exact List.prefix_refl _, fun it _ _ => runs_loop h it⟩

theorem within_zero (h : P.path d = []) : P.Within c d :=
  ⟨by simp [Placed.loops, h], fun it _ _ el hel => by rw [h] at hel; cases hel⟩

theorem within_head (h : InL P.nd P.path L e c) (hd : PathOk P.nd P.path d) (hw : P.Within c d) :
    d = 0 ∨ InL P.nd P.path L e d := by
  rcases hd with hd | ⟨L', e', hd⟩
  · exact Or.inl hd.1
  · right
    have := hw.1
    rw [h.loops, hd.loops] at this
    have := this.eq_of_length rfl
    simp only [List.cons.injEq, Prod.mk.injEq, and_true] at this
    rw [← this.1, ← this.2]
    exact hd

end

theorem common_in {st : St} {L e o u : Nat} (ho : InL st.nd st.path L e o) (hu : InL st.nd st.path L e u) (hne : o ≠ u) :
    st.common o u = L := by
  have hL := ho.1
  unfold St.common
  rcases ho.2.2.2 with h1 | ⟨h1, _, e1, h2, _⟩
  · subst h1
    rcases hu.2.2.2 with h3 | ⟨h3, _, e3, h4, _⟩
    · exact absurd h3.symm hne
    · simp [hL, h4, commonLen]
  · rcases hu.2.2.2 with h3 | ⟨h3, _, e3, h4, _⟩
    · subst h3
      simp [hL, h2, commonLen]
    · simp [h2, h4, commonLen, hne]

theorem common_zero {st : St} {u : Nat} (h : st.path 0 = []) : st.common 0 u = 0 := by
  unfold St.common
  rw [h]
  simp [commonLen]

theorem common_ne {st : St} {o u : Nat} (ho : PathOk st.nd st.path o) (hu : PathOk st.nd st.path u)
    (h : commonLen (st.path o) (st.path u) ≠ 0) : ∃ L e, InL st.nd st.path L e o ∧ InL st.nd st.path L e u := by
  rcases ho with ho | ⟨L, e, ho⟩
  · rw [ho.2] at h
    simp [commonLen] at h
  · rcases hu with hu | ⟨L', e', hu⟩
    · rw [hu.2] at h
      cases hp : st.path o <;> simp [hp, commonLen] at h
    · have h1 : ∃ t, st.path o = (L, e) :: t := by
        rcases ho.2.2.2 with h1 | ⟨_, _, e1, h2, _⟩
        · subst h1; exact ⟨[], ho.1⟩
        · exact ⟨_, h2⟩
      have h2 : ∃ t, st.path u = (L', e') :: t := by
        rcases hu.2.2.2 with h1 | ⟨_, _, e1, h2, _⟩
        · subst h1; exact ⟨[], hu.1⟩
        · exact ⟨_, h2⟩
      obtain ⟨t1, h1⟩ := h1
      obtain ⟨t2, h2⟩ := h2
      rw [h1, h2] at h
      have : L = L' := by
        by_contra hne
        simp [commonLen, hne] at h
      subst this
      have he : e = e' := by
        have := ho.1.symm.trans hu.1
        simpa using this
      subst he
      exact ⟨L, e, ho, hu⟩

theorem commonLen_prefix : ∀ a b : List (Nat × Nat), Innermost (a.map (·.1)) (b.map (·.1)) ((b.map (·.1)).take (commonLen a b))
  | [], b => ⟨by simp [commonLen], by simp [commonLen], fun q h _ => by simp [List.prefix_nil.1 h]⟩
  | a :: as, [] => ⟨by simp [commonLen], by simp [commonLen], fun q _ h => by simpa using h.length_le⟩
  | a :: as, b :: bs => by
    have ih := commonLen_prefix as bs
    unfold commonLen
    by_cases h : a.1 = b.1
    · simp only [h, if_true, List.map_cons, List.take_succ_cons]
      refine ⟨List.prefix_cons_inj _ |>.2 ih.first, List.prefix_cons_inj _ |>.2 ih.second, ?_⟩
      intro q h1 h2
      cases q with
      | nil => simp
      | cons x q =>
        have h1 := (List.cons_prefix_cons.1 h1).2
        have h2 := (List.cons_prefix_cons.1 h2).2
        simpa using ih.longest q h1 h2
    · simp only [h, if_false, List.map_cons, List.take_zero]
      refine ⟨List.nil_prefix, List.nil_prefix, ?_⟩
      intro q h1 h2
      cases q with
      | nil => simp
      | cons x q =>
        have h1 := (List.cons_prefix_cons.1 h1).1
        have h2 := (List.cons_prefix_cons.1 h2).1
        exact absurd (h1.symm.trans h2) h

theorem commonLen_le : ∀ a b : List (Nat × Nat), commonLen a b ≤ b.length
  | [], b => by simp [commonLen]
  | a :: as, [] => by simp [commonLen]
  | a :: as, b :: bs => by
    unfold commonLen
    have := commonLen_le as bs
    split <;> simp <;> omega

end Verif.Scopes
