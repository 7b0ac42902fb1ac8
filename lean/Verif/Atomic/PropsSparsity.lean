import Verif.Atomic.LemmasSparsity
/-
C51: the sparsity patterns atomic functions give are the products of their own patterns with the given ones.
-/
namespace Verif.Atomic
open Verif.Sparsity

/-! ### compiled models -/

/-- C51. `for_sparse_jac` of a compiled model. -/
theorem forSparseJac_spec {jac r s : Pattern} {m n q : Nat} (hj : Dims jac m n) (hs : Sorted jac) (hr : Dims r n q)
    (hl : m ≤ s.length) :
    ∃ s', forSparseJac jac m n q r s = some s' ∧ s'.length = s.length ∧
      ∀ i < m, ∀ c, Entry s' i c ↔ ForPattern (Entry jac) n r i c := by
  obtain ⟨s1, h1, h2, h3⟩ := clearRows_ok hl
  obtain ⟨s', h4, h5, _, h6⟩ := mult_spec hj hr (r := s1) (by rw [h2]; exact hl) hs
  refine ⟨s', by rw [forSparseJac, h1]; exact h4, h5.trans h2, fun i hi c => ?_⟩
  rw [h6, h3]
  constructor
  · rintro (⟨h, _⟩ | ⟨_, h⟩)
    · omega
    · exact h
  · intro h; exact .inr ⟨hi, h⟩

/-- C51. `rev_sparse_jac` of a compiled model. -/
theorem revSparseJac_spec {jac rT sT : Pattern} {m n q : Nat} (hj : Dims jac m n) (hr : Dims rT m q) (hrs : Sorted rT)
    (hl : n ≤ sT.length) :
    ∃ s', revSparseJac jac m n q rT sT = some s' ∧ s'.length = sT.length ∧
      ∀ j < n, ∀ c, Entry s' j c ↔ RevPattern (Entry jac) m rT j c := by
  obtain ⟨s1, h1, h2, h3⟩ := clearRows_ok hl
  obtain ⟨s', h4, h5, _, h6⟩ := multTrans_spec hj hr (r := s1) (by rw [h2]; exact hl) hrs
  refine ⟨s', by rw [revSparseJac, h1]; exact h4, h5.trans h2, fun j hj c => ?_⟩
  rw [h6, h3]
  constructor
  · rintro (⟨h, _⟩ | h)
    · omega
    · exact h
  · intro h; exact .inr h

/-- C51. `rev_sparse_hes` of a compiled model whose Hessian pattern is the union of the patterns of its results. Flags
`t` set before the call stay set. -/
theorem revSparseHes_spec {jac hesAll r u v : Pattern} {hes : Nat → Pattern} {m n q : Nat} {s t : List Bool}
    (hj : Dims jac m n) (hHall : Dims hesAll n n) (hHlen : hesAll.length = n) (hHs : Sorted hesAll)
    (hh : ∀ i < m, Dims (hes i) n n ∧ (hes i).length = n ∧ Sorted (hes i))
    (hunion : ∀ j k, Entry hesAll j k ↔ ∃ i, i < m ∧ Entry (hes i) j k)
    (hsl : m ≤ s.length) (htl : n ≤ t.length) (hr : Dims r n q) (hu : Dims u m q) (hus : Sorted u) (hv : n ≤ v.length) :
    ∃ t' v', revSparseHes jac hesAll hes m n q s t r u v = some (t', v') ∧
      (∀ j < n, ∀ c, Entry v' j c ↔ HesPattern (Entry jac) (fun i => Entry (hes i)) m n s r u j c) ∧
      ∀ j : Nat, t'[j]? = some true ↔ t[j]? = some true ∨ SelPattern (Entry jac) m s j := by
  obtain ⟨v1, h1, h2, h3⟩ := clearRows_ok hv
  obtain ⟨v2, h4, h5, _, h6⟩ := multTrans_spec hj hu (r := v1) (by rw [h2]; exact hv) hus
  obtain ⟨all, h7, h8⟩ := allSelected_ok (s := s) m 0 (by omega)
  obtain ⟨t', h9, _, h10⟩ := selectFlags_ok hsl hj htl
  have hlen2 : n ≤ v2.length := by rw [h5, h2]; exact hv
  cases ha : all with
  | true =>
    subst ha
    have hsel := h8.1 rfl
    obtain ⟨v3, h11, _, _, h13⟩ := mult_spec hHall hr (r := v2) hlen2 hHs
    refine ⟨t', v3, ?_, fun j hj c => ?_, h10⟩
    · simp only [revSparseHes, h1, h4, h7, resizeRows_eq hHlen, h11, h9, Option.bind_eq_bind, Option.bind_some, if_true]
      rfl
    · rw [h13, h6, h3, HesPattern]
      constructor
      · rintro ((⟨h, _⟩ | h) | ⟨_, k, hk, hE, hR⟩)
        · omega
        · exact .inl h
        · obtain ⟨i, hi, hE⟩ := (hunion j k).1 hE
          exact .inr ⟨i, k, hi, hk, hsel i (by omega) (by omega), hE, hR⟩
      · rintro (h | ⟨i, k, hi, hk, _, hE, hR⟩)
        · exact .inl (.inr h)
        · exact .inr ⟨hj, k, hk, (hunion j k).2 ⟨i, hi, hE⟩, hR⟩
  | false =>
    subst ha
    obtain ⟨h, g1, g2, g3, g4⟩ := sumHess_ok (hes := hes) (n := n) hsl (fun i hi => (hh i hi).2.1) fun i hi => (hh i hi).2.2
    have hd : Dims h n n := ⟨Nat.le_of_eq g2.symm, fun j k hjn hE => by
      obtain ⟨i, hi, _, hE⟩ := (g4 j k).1 hE
      exact (hh i hi).1.2 j k hjn hE⟩
    obtain ⟨v3, h11, _, _, h13⟩ := mult_spec hd hr (r := v2) hlen2 g3
    refine ⟨t', v3, ?_, fun j hj c => ?_, h10⟩
    · simp only [revSparseHes, h1, h4, h7, g1, h11, h9, Option.bind_eq_bind, Option.bind_some, Bool.false_eq_true,
        if_false]
      rfl
    · rw [h13, h6, h3, HesPattern]
      constructor
      · rintro ((⟨h, _⟩ | h) | ⟨_, k, hk, hE, hR⟩)
        · omega
        · exact .inl h
        · obtain ⟨i, hi, hs, hE⟩ := (g4 j k).1 hE
          exact .inr ⟨i, k, hi, hk, hs, hE, hR⟩
      · rintro (h | ⟨i, k, hi, hk, hs, hE, hR⟩)
        · exact .inl (.inr h)
        · exact .inr ⟨hj, k, hk, (g4 j k).2 ⟨i, hi, hs, hE⟩, hR⟩

/-! ### patterns restricted by the user -/

/-- C51. Restricting a pattern keeps exactly the elements given by the user. -/
theorem custom_spec {m n : Nat} {rows cols : List Nat} (h : ∀ e ∈ rows.zip cols, e.1 < m ∧ e.2 < n) {p : Pattern}
    (hl : p.length ≤ m) (hp : ∀ row ∈ p, ∀ j ∈ row, j < n) :
    ∃ c p', Custom.mk' m n rows cols = some c ∧ c.apply p = some p' ∧ p'.length = p.length ∧ (Sorted p → Sorted p') ∧
      ∀ i j, Entry p' i j ↔ Entry p i j ∧ (i, j) ∈ rows.zip cols := by
  obtain ⟨f, h1, h2, h3⟩ := custom_ok h
  obtain ⟨p', h4, h5, h6, h7⟩ := filterFrom_ok h2 p 0 (by omega) hp
  refine ⟨_, p', h1, h4, h5, h6, fun i j => ?_⟩
  rw [h7, Nat.zero_add, h3]

/-! ### recorded functions -/

/-- what the object remembers are the given patterns, restricted to the elements chosen by the user (`fj`, `fh`) -/
structure Remembers (J Hall : Pattern) (H : Nat → Pattern) (m : Nat) (cj ch : Custom) (J' Hall' : Pattern) (H' : Nat → Pattern)
    (b : Bridge) : Prop where
  jf : b.jac.filter = cj.filter
  hf : b.hes.filter = ch.filter
  jd : cj.apply J = some J'
  hd : ch.apply Hall = some Hall'
  hid : ∀ i < m, ch.apply (H i) = some (H' i)
  j : b.jac.full = .none ∨ b.jac.full = some J'
  h : b.hes.full = .none ∨ b.hes.full = some Hall'
  hi : ∀ g ∈ b.hess, g.1 < m → g.2 = H' g.1

theorem apply_congr {c d : Custom} (h : c.filter = d.filter) (p : Pattern) : c.apply p = d.apply p := by
  rw [Custom.apply, Custom.apply, h]

theorem load_ok {c d : Custom} {p e : Pattern} (hf : c.filter = d.filter) (hp : d.apply p = some e)
    (h : c.full = .none ∨ c.full = some e) : ∃ c', c.load p = some (c', e) ∧ c'.filter = d.filter ∧ c'.full = some e := by
  rcases h with h | h
  · exact ⟨⟨c.filter, some e⟩, by rw [Custom.load, h]; simp only; rw [apply_congr hf, hp], hf, rfl⟩
  · exact ⟨c, by rw [Custom.load, h], hf, h⟩

theorem oneHess_ok {J Hall : Pattern} {H : Nat → Pattern} {m : Nat} {cj ch : Custom} {J' Hall' : Pattern} {H' : Nat → Pattern}
    {b : Bridge} (hb : Remembers J Hall H m cj ch J' Hall' H' b) {i : Nat} (hi : i < m) :
    ∃ b', b.oneHess H i = some (b', H' i) ∧ Remembers J Hall H m cj ch J' Hall' H' b' := by
  rw [Bridge.oneHess]
  cases hg : b.hess.find? (·.1 == i) with
  | some g =>
    have hm := List.mem_of_find?_eq_some hg
    have he := List.find?_some hg
    simp only [beq_iff_eq] at he
    exact ⟨b, by simp only; rw [hb.hi g hm (by omega), he], hb⟩
  | none =>
    simp only
    rw [apply_congr hb.hf, hb.hid i hi]
    exact ⟨_, rfl, ⟨hb.jf, hb.hf, hb.jd, hb.hd, hb.hid, hb.j, hb.h, fun g hg hgm => by
      rcases List.mem_cons.1 hg with rfl | hg
      · rfl
      · exact hb.hi g hg hgm⟩⟩

theorem bridgeSum_ok {J Hall : Pattern} {H : Nat → Pattern} {m n : Nat} {cj ch : Custom} {J' Hall' : Pattern}
    {H' : Nat → Pattern} {b : Bridge} (hb : Remembers J Hall H m cj ch J' Hall' H' b) {s : List Bool} (hs : m ≤ s.length)
    (hlen : ∀ i < m, (H' i).length = n) (hsort : ∀ i < m, Sorted (H' i)) :
    ∃ b' h, b.sumHess H s m n = some (b', h) ∧ Remembers J Hall H m cj ch J' Hall' H' b' ∧ h.length = n ∧ Sorted h ∧
      ∀ j k, Entry h j k ↔ ∃ i, i < m ∧ s[i]? = some true ∧ Entry (H' i) j k := by
  rw [Bridge.sumHess]
  obtain ⟨⟨b', h⟩, h1, h2, h3, h4, h5⟩ := foldlM_range (fun (acc : Bridge × Pattern) i => do
    let f ← s[i]?
    if f then do
      let (b, h) ← acc.1.oneHess H i
      let a ← addMatrix h h.length acc.2
      pure (b, a)
    else pure acc)
    (fun l acc => Remembers J Hall H m cj ch J' Hall' H' acc.1 ∧ acc.2.length = n ∧ Sorted acc.2 ∧
      ∀ j k, Entry acc.2 j k ↔ ∃ i, i < l ∧ s[i]? = some true ∧ Entry (H' i) j k) m (by
    rintro i hi ⟨b1, acc⟩ ⟨hb1, ha, hb, hc⟩
    simp only at hb1 ha hb hc
    have hget : s[i]? = some s[i] := List.getElem?_eq_getElem (by omega)
    cases hsi : s[i] with
    | false =>
      refine ⟨(b1, acc), by rw [hget, hsi]; rfl, hb1, ha, hb, fun j k => (hc j k).trans ⟨?_, ?_⟩⟩
      · rintro ⟨l, h1, h2⟩; exact ⟨l, by omega, h2⟩
      · rintro ⟨l, h1, h2, h3⟩
        have : l ≠ i := by rintro rfl; rw [hget, hsi] at h2; cases h2
        exact ⟨l, by omega, h2, h3⟩
    | true =>
      obtain ⟨b2, ho, hb2⟩ := oneHess_ok hb1 hi
      obtain ⟨r, hr1, hr2, hr3, hr4⟩ := addMatrix_spec (a := H' i) (r := acc) (m := (H' i).length) (Nat.le_refl _)
        (Nat.le_of_eq ((hlen i hi).trans ha.symm)) (hsort i hi)
      refine ⟨(b2, r), by rw [hget, hsi]; simp only [Option.bind_eq_bind, Option.bind_some, if_true, ho, hr1]; rfl, hb2,
        hr2.trans ha, hr3 hb, fun j k => ?_⟩
      simp only
      rw [hr4, hc]
      constructor
      · rintro (⟨l, h1, h2⟩ | ⟨_, h⟩)
        · exact ⟨l, by omega, h2⟩
        · exact ⟨i, by omega, by rw [hget, hsi], h⟩
      · rintro ⟨l, h1, h2, h3⟩
        by_cases hl : l = i
        · subst hl; exact .inr ⟨entry_lt h3, h3⟩
        · exact .inl ⟨l, by omega, h2, h3⟩) (b, List.replicate n []) ⟨hb, by simp, sorted_replicate n, fun j k => by
      constructor
      · intro h; exact absurd h entry_replicate
      · rintro ⟨_, h, _⟩; omega⟩
  exact ⟨b', h, h1, h2, h3, h4, h5⟩

section
variable {J Hall : Pattern} {H : Nat → Pattern} {m n : Nat} {cj ch : Custom} {J' Hall' : Pattern} {H' : Nat → Pattern}
  {b : Bridge}

/-- C51. `for_sparse_jac` of a recorded function. -/
theorem bridge_forJac_spec (hb : Remembers J Hall H m cj ch J' Hall' H' b) {q : Nat} {r s : Pattern} (hj : Dims J' m n)
    (hs : Sorted J') (hr : Dims r n q) (hl : m ≤ s.length) :
    ∃ b' s', b.forJac J m n q r s = some (b', s') ∧ Remembers J Hall H m cj ch J' Hall' H' b' ∧
      ∀ i < m, ∀ c, Entry s' i c ↔ ForPattern (Entry J') n r i c := by
  obtain ⟨c, h1, h2, h3⟩ := load_ok hb.jf hb.jd hb.j
  obtain ⟨s', h4, _, _, h6⟩ := mult_spec hj hr (r := List.replicate s.length []) (by simpa using hl) hs
  refine ⟨{ b with jac := c }, s', ?_, ⟨h2, hb.hf, hb.jd, hb.hd, hb.hid, .inr h3, hb.h, hb.hi⟩, fun i hi c => ?_⟩
  · simp only [Bridge.forJac, h1, h4, Option.bind_eq_bind, Option.bind_some]; rfl
  · rw [h6]
    constructor
    · rintro (h | ⟨_, h⟩)
      · exact absurd h entry_replicate
      · exact h
    · intro h; exact .inr ⟨hi, h⟩

/-- C51. `rev_sparse_jac` of a recorded function. -/
theorem bridge_revJac_spec (hb : Remembers J Hall H m cj ch J' Hall' H' b) {q : Nat} {rt st : Pattern} (hj : Dims J' m n)
    (hr : Dims rt m q) (hl : n ≤ st.length) :
    ∃ b' s', b.revJac J m n q rt st = some (b', s') ∧ Remembers J Hall H m cj ch J' Hall' H' b' ∧
      ∀ j c, Entry s' j c ↔ RevPattern (Entry J') m rt j c := by
  obtain ⟨c, h1, h2, h3⟩ := load_ok hb.jf hb.jd hb.j
  obtain ⟨s', h4, _, _, h6⟩ := multT_spec hr hj (rT := List.replicate st.length []) (by simpa using hl)
  refine ⟨{ b with jac := c }, s', ?_, ⟨h2, hb.hf, hb.jd, hb.hd, hb.hid, .inr h3, hb.h, hb.hi⟩, fun j c => ?_⟩
  · simp only [Bridge.revJac, h1, h4, Option.bind_eq_bind, Option.bind_some]; rfl
  · rw [h6]
    constructor
    · rintro (h | ⟨i, hi, h1, h2⟩)
      · exact absurd h entry_replicate
      · exact ⟨i, hi, h2, h1⟩
    · rintro ⟨i, hi, h1, h2⟩; exact .inr ⟨i, hi, h2, h1⟩

/-- C51. `rev_sparse_hes` of a recorded function: the product is with the transposed Hessians, which makes no difference
for symmetric patterns. -/
theorem bridge_revHes_spec (hb : Remembers J Hall H m cj ch J' Hall' H' b) {q : Nat} {s t : List Bool} {r u v : Pattern}
    (hj : Dims J' m n) (hHall : Dims Hall' n n)
    (hh : ∀ i < m, Dims (H' i) n n ∧ (H' i).length = n ∧ Sorted (H' i))
    (hunion : ∀ j k, Entry Hall' j k ↔ ∃ i, i < m ∧ Entry (H' i) j k)
    (hsl : m ≤ s.length) (htl : n ≤ t.length) (hr : Dims r n q) (hrs : Sorted r) (hu : Dims u m q) (hus : Sorted u)
    (hv : n ≤ v.length) :
    ∃ b' t' v', b.revHes J Hall H m n q s t r u v = some (b', t', v') ∧ Remembers J Hall H m cj ch J' Hall' H' b' ∧
      (∀ j < n, ∀ c, Entry v' j c ↔ HesPattern (Entry J') (fun i j k => Entry (H' i) k j) m n s r u j c) ∧
      ∀ j : Nat, t'[j]? = some true ↔ t[j]? = some true ∨ SelPattern (Entry J') m s j := by
  obtain ⟨v1, h1, h2, h3⟩ := clearRows_ok hv
  obtain ⟨c, l1, l2, l3⟩ := load_ok hb.jf hb.jd hb.j
  have hb1 : Remembers J Hall H m cj ch J' Hall' H' { b with jac := c } :=
    ⟨l2, hb.hf, hb.jd, hb.hd, hb.hid, .inr l3, hb.h, hb.hi⟩
  obtain ⟨v2, h4, h5, _, h6⟩ := multTrans_spec hj hu (r := v1) (by rw [h2]; exact hv) hus
  obtain ⟨all, h7, h8⟩ := allSelected_ok (s := s) m 0 (by omega)
  obtain ⟨t', h9, _, h10⟩ := selectFlags_ok hsl hj htl
  have hlen2 : n ≤ v2.length := by rw [h5, h2]; exact hv
  cases ha : all with
  | true =>
    subst ha
    have hsel := h8.1 rfl
    obtain ⟨d, d1, d2, d3⟩ := load_ok hb1.hf hb1.hd hb1.h
    obtain ⟨v3, h11, _, _, h13⟩ := multTrans_spec hHall hr (r := v2) hlen2 hrs
    refine ⟨{ b with jac := c, hes := d }, t', v3, ?_, ⟨l2, d2, hb.jd, hb.hd, hb.hid, .inr l3, .inr d3, hb.hi⟩,
      fun j hj c => ?_, h10⟩
    · simp only at d1
      simp only [Bridge.revHes, h1, l1, h4, h7, d1, h11, h9, Option.bind_eq_bind, Option.bind_some, if_true, pure]
    · rw [h13, h6, h3, HesPattern]
      constructor
      · rintro ((⟨h, _⟩ | h) | ⟨k, hk, hE, hR⟩)
        · omega
        · exact .inl h
        · obtain ⟨i, hi, hE⟩ := (hunion k j).1 hE
          exact .inr ⟨i, k, hi, hk, hsel i (by omega) (by omega), hE, hR⟩
      · rintro (h | ⟨i, k, hi, hk, _, hE, hR⟩)
        · exact .inl (.inr h)
        · exact .inr ⟨k, hk, (hunion k j).2 ⟨i, hi, hE⟩, hR⟩
  | false =>
    subst ha
    obtain ⟨b2, h, g1, hb2, g2, g3, g4⟩ := bridgeSum_ok hb1 (n := n) hsl (fun i hi => (hh i hi).2.1)
      fun i hi => (hh i hi).2.2
    have hd : Dims h n n := ⟨Nat.le_of_eq g2.symm, fun j k hjn hE => by
      obtain ⟨i, hi, _, hE⟩ := (g4 j k).1 hE
      exact (hh i hi).1.2 j k hjn hE⟩
    obtain ⟨v3, h11, _, _, h13⟩ := multTrans_spec hd hr (r := v2) hlen2 hrs
    refine ⟨b2, t', v3, ?_, hb2, fun j hj c => ?_, h10⟩
    · simp only [Bridge.revHes, h1, l1, h4, h7, g1, h11, h9, Option.bind_eq_bind, Option.bind_some, Bool.false_eq_true,
        if_false, pure]
    · rw [h13, h6, h3, HesPattern]
      constructor
      · rintro ((⟨h, _⟩ | h) | ⟨k, hk, hE, hR⟩)
        · omega
        · exact .inl h
        · obtain ⟨i, hi, hs, hE⟩ := (g4 k j).1 hE
          exact .inr ⟨i, k, hi, hk, hs, hE, hR⟩
      · rintro (h | ⟨i, k, hi, hk, hs, hE, hR⟩)
        · exact .inl (.inr h)
        · exact .inr ⟨k, hk, (g4 k j).2 ⟨i, hi, hs, hE⟩, hR⟩

end

/-- a use whose vectors have the sizes CppAD gives them, for `m` results and `n` arguments -/
def Use.Ok (m n : Nat) : Use → Prop
  | .forJac q r s => Dims r n q ∧ m ≤ s.length
  | .revJac q rt st => Dims rt m q ∧ n ≤ st.length
  | .revHes q s t r u v => m ≤ s.length ∧ n ≤ t.length ∧ Dims r n q ∧ Sorted r ∧ Dims u m q ∧ Sorted u ∧ n ≤ v.length

/-- C51. After any sequence of uses the object still remembers the restricted patterns, so that `bridge_forJac_spec`,
`bridge_revJac_spec` and `bridge_revHes_spec` hold for the next. -/
theorem bridge_uses {J Hall : Pattern} {H : Nat → Pattern} {m n : Nat} {cj ch : Custom} {J' Hall' : Pattern}
    {H' : Nat → Pattern} (hj : Dims J' m n) (hs : Sorted J') (hHall : Dims Hall' n n)
    (hh : ∀ i < m, Dims (H' i) n n ∧ (H' i).length = n ∧ Sorted (H' i))
    (hunion : ∀ j k, Entry Hall' j k ↔ ∃ i, i < m ∧ Entry (H' i) j k) : ∀ (uses : List Use) (b : Bridge),
    Remembers J Hall H m cj ch J' Hall' H' b → (∀ u ∈ uses, u.Ok m n) →
    ∃ b', uses.foldlM (Bridge.use J Hall H m n) b = some b' ∧ Remembers J Hall H m cj ch J' Hall' H' b'
  | [], b, hb, _ => ⟨b, rfl, hb⟩
  | u :: uses, b, hb, hok => by
    have hu := hok u (by simp)
    have : ∃ b1, b.use J Hall H m n u = some b1 ∧ Remembers J Hall H m cj ch J' Hall' H' b1 := by
      cases u with
      | forJac q r s =>
        obtain ⟨b1, s', h1, h2, _⟩ := bridge_forJac_spec hb hj hs hu.1 hu.2
        exact ⟨b1, by simp only [Bridge.use, h1, Option.map_some], h2⟩
      | revJac q rt st =>
        obtain ⟨b1, s', h1, h2, _⟩ := bridge_revJac_spec hb hj hu.1 hu.2
        exact ⟨b1, by simp only [Bridge.use, h1, Option.map_some], h2⟩
      | revHes q s t r u v =>
        obtain ⟨k1, k2, k3, k4, k5, k6, k7⟩ := hu
        obtain ⟨b1, t', v', h1, h2, _⟩ := bridge_revHes_spec hb hj hHall hh hunion k1 k2 k3 k4 k5 k6 k7
        exact ⟨b1, by simp only [Bridge.use, h1, Option.map_some], h2⟩
    obtain ⟨b1, h1, h2⟩ := this
    obtain ⟨b2, h3, h4⟩ := bridge_uses hj hs hHall hh hunion uses b1 h2 fun u hu => hok u (List.mem_cons_of_mem _ hu)
    exact ⟨b2, by rw [List.foldlM_cons, h1]; exact h3, h4⟩

/-- a new object, without restrictions -/
theorem new_remembers (J Hall : Pattern) (H : Nat → Pattern) (m : Nat) :
    Remembers J Hall H m .none .none J Hall H Bridge.new :=
  ⟨rfl, rfl, rfl, rfl, fun _ _ => rfl, .inl rfl, .inl rfl, by simp [Bridge.new]⟩

/-- a new object for which the user chose elements of the Jacobian and of the Hessian -/
theorem custom_remembers {J Hall : Pattern} {H : Nat → Pattern} {m : Nat} {cj ch : Custom} {J' Hall' : Pattern}
    {H' : Nat → Pattern} (h0 : cj.full = .none) (h1 : ch.full = .none) (h2 : cj.apply J = some J')
    (h3 : ch.apply Hall = some Hall') (h4 : ∀ i < m, ch.apply (H i) = some (H' i)) :
    Remembers J Hall H m cj ch J' Hall' H' { Bridge.new with jac := cj, hes := ch } :=
  ⟨rfl, rfl, h2, h3, h4, .inl h0, .inl h1, by simp [Bridge.new]⟩

/-! ### the flags used when calls are recorded (C50) -/

/-- the rows of a vector given by flags, `r[j].insert(0)` -/
def flagRows (r : Nat → Bool) (k : Nat) : Pattern := (List.range k).map fun j => if r j then [0] else []

theorem entry_flagRows {r : Nat → Bool} {k j c : Nat} : Entry (flagRows r k) j c ↔ j < k ∧ r j = true ∧ c = 0 := by
  by_cases hj : j < k
  · have : (flagRows r k)[j]? = some (if r j then [0] else []) := by simp [flagRows, hj]
    rw [entry_of_get this]
    cases r j <;> simp [hj]
  · constructor
    · rintro ⟨row, h, _⟩
      rw [flagRows, List.getElem?_eq_none (by simp; omega)] at h
      cases h
    · intro h; omega

theorem dims_flagRows (r : Nat → Bool) (k : Nat) : Dims (flagRows r k) k 1 :=
  ⟨by simp [flagRows], fun i j _ h => by have := (entry_flagRows.1 h).2.2; omega⟩

theorem sorted_flagRows (r : Nat → Bool) (k : Nat) : Sorted (flagRows r k) := by
  intro row h
  obtain ⟨j, _, rfl⟩ := List.mem_map.1 h
  cases r j <;> simp

/-- `!s[i].empty()` -/
def nonempty (s : Option Pattern) (i : Nat) : Bool :=
  match s with
  | some s => !(s.getD i []).isEmpty
  | none => false

theorem nonempty_false {s : Pattern} {i c : Nat} (h : nonempty (some s) i = false) : ¬ Entry s i c := by
  rintro ⟨row, h1, h2⟩
  rw [nonempty, List.getD_eq_getElem?_getD, h1] at h
  simp at h
  subst h
  cases h2

/-- the sparsity functions meet what `forward_one`, `reverse_zero` and `reverse_one_partial` of C50 ask of them -/
theorem forSparseJac_flags {jac : Pattern} {m n : Nat} (hj : Dims jac m n) (hs : Sorted jac) (r : Nat → Bool) :
    ∀ i < m, nonempty (forSparseJac jac m n 1 (flagRows r n) (List.replicate m [])) i = false →
      ∀ j < n, Entry jac i j → r j = false := by
  intro i hi h j hjn hE
  obtain ⟨s', h1, _, h2⟩ := forSparseJac_spec hj hs (dims_flagRows r n) (s := List.replicate m []) (by simp)
  rw [h1] at h
  cases hr : r j with
  | false => rfl
  | true => exact absurd ((h2 i hi 0).2 ⟨j, hjn, hE, entry_flagRows.2 ⟨hjn, hr, rfl⟩⟩) (nonempty_false h)

theorem revSparseJac_flags {jac : Pattern} {m n : Nat} (hj : Dims jac m n) (r : Nat → Bool) :
    ∀ j < n, nonempty (revSparseJac jac m n 1 (flagRows r m) (List.replicate n [])) j = false →
      ∀ i < m, Entry jac i j → r i = false := by
  intro j hjn h i hi hE
  obtain ⟨s', h1, _, h2⟩ := revSparseJac_spec hj (dims_flagRows r m) (sorted_flagRows r m) (sT := List.replicate n []) (by simp)
  rw [h1] at h
  cases hr : r i with
  | false => rfl
  | true => exact absurd ((h2 j hjn 0).2 ⟨i, hi, hE, entry_flagRows.2 ⟨hi, hr, rfl⟩⟩) (nonempty_false h)

theorem revSparseHes_flags {jac hesAll : Pattern} {hes : Nat → Pattern} {m n : Nat}
    (hj : Dims jac m n) (hHall : Dims hesAll n n) (hHlen : hesAll.length = n) (hHs : Sorted hesAll)
    (hh : ∀ i < m, Dims (hes i) n n ∧ (hes i).length = n ∧ Sorted (hes i))
    (hunion : ∀ j k, Entry hesAll j k ↔ ∃ i, i < m ∧ Entry (hes i) j k) (s r : Nat → Bool) (t : List Bool)
    (ht : n ≤ t.length) :
    ∀ j < n, nonempty ((revSparseHes jac hesAll hes m n 1 ((List.range m).map s) t (flagRows r n) (List.replicate m [])
      (List.replicate n [])).map (·.2)) j = false →
      ∀ i < m, ∀ k < n, s i = true → r k = true → ¬ Entry (hes i) j k := by
  intro j hjn h i hi k hk hs hr hE
  obtain ⟨t', v', h1, h2, _⟩ := revSparseHes_spec hj hHall hHlen hHs hh hunion (s := (List.range m).map s) (by simp) ht
    (dims_flagRows r n) (u := List.replicate m []) ⟨by simp, fun _ _ _ h => absurd h entry_replicate⟩ (sorted_replicate m)
    (v := List.replicate n []) (by simp)
  rw [h1] at h
  exact nonempty_false h ((h2 j hjn 0).2 (.inr ⟨i, k, hi, hk, by simp [hi, hs], hE, entry_flagRows.2 ⟨hk, hr, rfl⟩⟩))

/-! ### what is wrong -/

/-- Flags `t` which were set before the call stay set, whatever is selected: one result which does not depend on its only
argument. -/
theorem revSparseHes_flags_counterexample :
    revSparseHes [[]] [[]] (fun _ => [[]]) 1 1 1 [true] [true] [[0]] [[]] [[]] = some ([true], [[]]) ∧
    ¬ SelPattern (Entry [[]]) 1 [true] 0 := by
  refine ⟨by decide, ?_⟩
  rintro ⟨i, hi, _, row, h1, h2⟩
  obtain rfl : i = 0 := by omega
  simp at h1
  subst h1
  cases h2

/-- Elements of the Hessian in one triangle, which the generators accept (C49), lose half of the pattern: for `f = x0 x1`
and the direction along `x1` the derivative with respect to `x0` has an element, which is missing if the user chose the
lower triangle. With the transposed product of a recorded function the upper triangle has the same effect. -/
theorem triangle_counterexample :
    (∃ t, revSparseHes [[0, 1]] [[], [0]] (fun _ => [[], [0]]) 1 2 1 [true] [false, false] [[], [0]] [[]] [[], []] =
      some (t, [[], []])) ∧
    (∃ t, revSparseHes [[0, 1]] [[1], [0]] (fun _ => [[1], [0]]) 1 2 1 [true] [false, false] [[], [0]] [[]] [[], []] =
      some (t, [[0], []])) ∧
    ∃ c b t, Custom.mk' 2 2 [0] [1] = some c ∧
      Bridge.revHes [[0, 1]] [[1], [0]] (fun _ => [[1], [0]]) { Bridge.new with hes := c } 1 2 1 [true] [false, false]
        [[], [0]] [[]] [[], []] = some (b, t, [[], []]) := by
  refine ⟨⟨[true, true], by decide⟩, ⟨[true, true], by decide⟩, _, _, _, rfl, rfl⟩

/-- Choosing elements of the Hessian after the object was used has no effect on the results whose Hessian was asked for
before: they are not forgotten. Result 0 of two is `x0 x0`, of which no element is wanted in the end. -/
theorem setHes_counterexample :
    ∃ b t v b2 b3 t' v' b4 t'' v'',
      Bridge.revHes [[0], []] [[0]] (fun i => if i = 0 then [[0]] else [[]]) .new 2 1 1 [true, false] [false] [[0]]
        [[], []] [[]] = some (b, t, v) ∧
      b.setHes 1 [] [] = some b2 ∧
      Bridge.revHes [[0], []] [[0]] (fun i => if i = 0 then [[0]] else [[]]) b2 2 1 1 [true, false] [false] [[0]]
        [[], []] [[]] = some (b3, t', v') ∧ v' = [[0]] ∧
      Bridge.revHes [[0], []] [[0]] (fun i => if i = 0 then [[0]] else [[]]) { b2 with hess := [] } 2 1 1 [true, false]
        [false] [[0]] [[], []] [[]] = some (b4, t'', v'') ∧ v'' = [[]] :=
  ⟨_, _, _, _, _, _, _, _, _, _, rfl, rfl, rfl, rfl, rfl, rfl⟩

/-! ### a case which meets the hypotheses -/

/-- `f = (x0 x1, 3 x1)` -/
example : Dims [[0, 1], [1]] 2 2 ∧ Sorted [[0, 1], [1]] ∧ Dims [[1], [0]] 2 2 ∧
    forSparseJac [[0, 1], [1]] 2 2 1 [[0], []] [[7], [7]] = some [[0], []] ∧
    revSparseJac [[0, 1], [1]] 2 2 1 [[], [0]] [[7], [7]] = some [[], [0]] ∧
    revSparseHes [[0, 1], [1]] [[1], [0]] (fun i => if i = 0 then [[1], [0]] else [[], []]) 2 2 1 [true, true]
      [false, false] [[0], []] [[], []] [[], []] = some ([true, true], [[], [0]]) ∧
    revSparseHes [[0, 1], [1]] [[1], [0]] (fun i => if i = 0 then [[1], [0]] else [[], []]) 2 2 1 [false, true]
      [false, false] [[0], []] [[], []] [[], []] = some ([false, true], [[], []]) := by
  have dims : ∀ p : Pattern, p.length = 2 → (∀ row ∈ p, ∀ j ∈ row, j < 2) → Dims p 2 2 := fun p hl h =>
    ⟨by omega, fun i j _ ⟨row, h1, h2⟩ => h row (List.mem_of_getElem? h1) j h2⟩
  exact ⟨dims _ rfl (by decide), by decide, dims _ rfl (by decide), by decide, by decide, by decide, by decide⟩

end Verif.Atomic
