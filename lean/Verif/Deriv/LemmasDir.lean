import Verif.Deriv.PropsTable
import Mathlib.Algebra.Ring.Defs
import Mathlib.Data.List.Perm.Subperm
/-
Lemmas about the products with directions.
-/
namespace Verif.Deriv

/-! ### which keys are used -/

theorem scan_spec (nz : Nat → Bool) (nnz : Nat → Nat) : ∀ (n : Nat),
    (scan nz nnz n).1 = (List.range n).filter (fun j => nz j && decide (0 < nnz j)) ∧
    ∀ j ∈ (scan nz nnz n).1, nnz j ≤ (scan nz nnz n).2
  | 0 => ⟨rfl, by simp [scan]⟩
  | n + 1 => by
    obtain ⟨h1, h2⟩ := scan_spec nz nnz n
    have hs : scan nz nnz (n + 1) = scanStep nz nnz (scan nz nnz n) n := by
      rw [scan, scan, List.range_succ, List.foldl_append]; rfl
    rw [hs, scanStep, List.range_succ, List.filter_append]
    cases hz : nz n with
    | false =>
      simp only [Bool.false_eq_true, if_false]
      exact ⟨by simpa [hz] using h1, h2⟩
    | true =>
      simp only [if_true]
      by_cases hgt : nnz n > (scan nz nnz n).2
      · simp only [if_pos hgt]
        refine ⟨?_, fun j hj => ?_⟩
        · have : 0 < nnz n := by omega
          simp [h1, hz, this]
        · rcases List.mem_append.1 hj with hj | hj
          · have := h2 j hj; omega
          · have : j = n := by simpa using hj
            rw [this]; exact Nat.le_refl _
      · simp only [if_neg hgt]
        by_cases h0 : nnz n = 0
        · simp only [if_pos h0]
          exact ⟨by simpa [hz, h0] using h1, h2⟩
        · simp only [if_neg h0]
          refine ⟨?_, fun j hj => ?_⟩
          · have : 0 < nnz n := by omega
            simp [h1, hz, this]
          · rcases List.mem_append.1 hj with hj | hj
            · exact h2 j hj
            · have : j = n := by simpa using hj
              rw [this]; omega

/-! ### adding the elements -/

theorem addAll_ok {V : Type} [Add V] {stride off : Nat} (hs : 0 < stride) (comp : Mem V) (g : Nat → V) :
    ∀ (pos : List Nat) (e : Nat) (out : Mem V), pos.Nodup →
      (∀ (k : Nat), ∀ p, pos[k]? = some p → comp[e + k]? = some (some (g p))) →
      (∀ p ∈ pos, ∃ v, out[p * stride + off]? = some (some v)) →
      ∃ out', addAll stride off comp pos e out = .ok out' ∧ out'.length = out.length ∧
        (∀ p ∈ pos, ∀ v, out[p * stride + off]? = some (some v) → out'[p * stride + off]? = some (some (v + g p))) ∧
        (∀ l, (∀ p ∈ pos, l ≠ p * stride + off) → out'[l]? = out[l]?)
  | [], _, out, _, _, _ => ⟨out, rfl, rfl, by simp, by simp⟩
  | p :: pos, e, out, hn, hc, ho => by
    obtain ⟨hnp, hn'⟩ := List.nodup_cons.1 hn
    obtain ⟨v, hv⟩ := ho p (by simp)
    have hc0 := hc 0 p (by simp)
    rw [Nat.add_zero] at hc0
    have hlt : p * stride + off < out.length := (List.getElem?_eq_some_iff.1 hv).1
    have hne : ∀ q ∈ pos, p * stride + off ≠ q * stride + off := by
      intro q hq h
      have h1 : p * stride = q * stride := by omega
      have : p = q := Nat.eq_of_mul_eq_mul_right hs h1
      exact hnp (this ▸ hq)
    obtain ⟨out', h1, h2, h3, h4⟩ := addAll_ok hs comp g pos (e + 1) (out.set (p * stride + off) (some (v + g p))) hn'
      (fun k q hk => by
        have := hc (k + 1) q (by simpa using hk)
        rw [← this]; congr 1; omega)
      (fun q hq => by
        obtain ⟨u, hu⟩ := ho q (by simp [hq])
        exact ⟨u, by rw [List.getElem?_set_ne (hne q hq)]; exact hu⟩)
    refine ⟨out', ?_, by rw [h2, List.length_set], fun q hq u hu => ?_, fun l hl => ?_⟩
    · rw [addAll, load, hv, load, hc0]
      simp only
      rw [store_ok _ hlt]
      exact h1
    · rcases List.mem_cons.1 hq with rfl | hq
      · rw [h4 _ fun r hr => hne r hr, List.getElem?_set_self hlt]
        rw [hv] at hu
        cases hu; rfl
      · exact h3 q hq u (by rw [List.getElem?_set_ne (hne q hq)]; exact hu)
    · rw [h4 l fun q hq => hl q (by simp [hq]), List.getElem?_set_ne (Ne.symm (hl p (by simp)))]

/-- the array holds the values `f` at the places of `0, ..., m - 1`, and is unchanged at the others -/
def Cells {V : Type} (stride off m : Nat) (out0 out : Mem V) (f : Nat → V) : Prop :=
  out.length = out0.length ∧ (∀ i < m, out[i * stride + off]? = some (some (f i))) ∧
  ∀ l, (∀ i < m, l ≠ i * stride + off) → out[l]? = out0[l]?

theorem zeros_ok {V : Type} [Zero V] {stride off m : Nat} {out : Mem V} (hlen : ∀ i < m, i * stride + off < out.length) :
    ∃ out', zeros stride off m out = .ok out' ∧ Cells stride off m out out' fun _ => 0 := by
  obtain ⟨out', h1, h2, h3⟩ := storeList_ok ((List.range m).map fun i => (i * stride + off, (0 : V))) out (fun w hw => by
    obtain ⟨i, hi, rfl⟩ := List.mem_map.1 hw
    exact hlen i (List.mem_range.1 hi))
  have h3 := h3 (fun _ => 0) (fun w hw => by obtain ⟨i, _, rfl⟩ := List.mem_map.1 hw; rfl)
  refine ⟨out', h1, h2, fun i hi => ?_, fun l hl => ?_⟩
  · exact (h3 _).1 ⟨_, List.mem_map.2 ⟨i, List.mem_range.2 hi, rfl⟩, rfl⟩
  · refine (h3 l).2 fun w hw => ?_
    obtain ⟨i, hi, rfl⟩ := List.mem_map.1 hw
    exact Ne.symm (hl i (List.mem_range.1 hi))

/-! ### the loop -/

/-- one step of the sum of a place -/
def addTerm {V : Type} [Add V] (req : List (Nat × Nat)) (gv : Nat × Args V → Nat → V) (i : Nat) (acc : V)
    (p : Nat × Args V) : V := if i ∈ grp req p.1 then acc + gv p i else acc

theorem any_groups {req : List (Nat × Nat)} {k : Nat} : (groups req).any (·.1 == k) = true ↔ grp req k ≠ [] := by
  rw [List.any_eq_true]
  constructor
  · rintro ⟨g, hg, e⟩
    have e : g.1 = k := by simpa using e
    have := (mem_groups (k := g.1) (vs := g.2)).1 hg
    rw [← e, ← this.1]
    exact this.2
  · intro h
    exact ⟨(k, grp req k), mem_groups.2 ⟨rfl, h⟩, by simp⟩

theorem accum_ok {V : Type} [Add V] {fn : Fun V} {req : List (Nat × Nat)} {stride off m : Nat} (hs : 0 < stride)
    (hn : req.Nodup) (hm : ∀ p ∈ req, p.2 < m) (gv : Nat × Args V → Nat → V) {out0 : Mem V} :
    ∀ (ts : List (Nat × Args V)) (comp out : Mem V) (f : Nat → V), (∀ t ∈ ts, grp req t.1 ≠ []) →
      (∀ t ∈ ts, fn t.1 t.2 = some ((grp req t.1).map (gv t))) → (∀ t ∈ ts, (grp req t.1).length ≤ comp.length) →
      Cells stride off m out0 out f →
      ∃ out', accum fn (groups req) stride off ts comp out = .ok (0, out') ∧
        Cells stride off m out0 out' fun i => ts.foldl (addTerm req gv i) (f i)
  | [], comp, out, f, _, _, _, hc => ⟨out, rfl, hc⟩
  | (j, a) :: ts, comp, out, f, hne, hf, hcl, hc => by
    have hj : grp req j ≠ [] := hne (j, a) (by simp)
    have hmem : ∀ i ∈ grp req j, i < m := fun i hi => hm _ (mem_grp.1 hi)
    obtain ⟨comp', hc1, hc2, hc3⟩ := storeAll_ok comp ((grp req j).map (gv (j, a)))
      (by rw [List.length_map]; exact hcl (j, a) (by simp))
    obtain ⟨out', ho1, ho2, ho3, ho4⟩ := addAll_ok (stride := stride) (off := off) hs comp' (gv (j, a)) (grp req j) 0 out
      (grp_nodup hn j)
      (fun k p hk => by rw [Nat.zero_add]; exact hc3 k _ (by simp [hk]))
      (fun p hp => ⟨_, hc.2.1 p (hmem p hp)⟩)
    have hcell : Cells stride off m out0 out' fun i => addTerm req gv i (f i) (j, a) := by
      refine ⟨ho2.trans hc.1, fun i hi => ?_, fun l hl => ?_⟩
      · simp only [addTerm]
        by_cases hij : i ∈ grp req j
        · rw [if_pos hij]
          exact ho3 i hij _ (hc.2.1 i hi)
        · rw [if_neg hij, ho4 _ fun p hp h => ?_]
          · exact hc.2.1 i hi
          · have h1 : i * stride = p * stride := by omega
            have : i = p := Nat.eq_of_mul_eq_mul_right hs h1
            exact hij (this ▸ hp)
      · rw [ho4 l fun p hp => hl p (hmem p hp)]
        exact hc.2.2 l hl
    obtain ⟨out'', h1, h2⟩ := accum_ok hs hn hm gv ts comp' out' _ (fun t ht => hne t (by simp [ht]))
      (fun t ht => hf t (by simp [ht])) (fun t ht => by rw [hc2]; exact hcl t (by simp [ht])) hcell
    refine ⟨out'', ?_, h2⟩
    rw [accum, if_pos (any_groups.2 hj), hf (j, a) (by simp)]
    simp only
    rw [hc1]
    simp only
    rw [((sparsity_of_position req).2 j).2]
    simp only
    have : List.map (fun x => x.2) (List.filter (fun x => x.1 == j) req) = grp req j := rfl
    rw [this, ho1]
    exact h1

/-! ### sums -/

theorem fold_terms {V : Type} [AddZeroClass V] {req : List (Nat × Nat)} {gv : Nat × Args V → Nat → V} {i : Nat} :
    ∀ (ts : List (Nat × Args V)) (acc : V), (∀ t ∈ ts, i ∉ grp req t.1 → gv t i = 0) →
      ts.foldl (addTerm req gv i) acc = ts.foldl (fun a t => a + gv t i) acc
  | [], _, _ => rfl
  | t :: ts, acc, h => by
    rw [List.foldl_cons, List.foldl_cons]
    have : addTerm req gv i acc t = acc + gv t i := by
      unfold addTerm
      by_cases hi : i ∈ grp req t.1
      · rw [if_pos hi]
      · rw [if_neg hi, h t (by simp) hi, add_zero]
    rw [this]
    exact fold_terms ts _ fun t ht => h t (by simp [ht])

/-- skipping the terms which are zero -/
theorem fold_filter {V : Type} [AddZeroClass V] (q : Nat → Bool) (g : Nat → V) : ∀ (n : Nat),
    (∀ j < n, q j = false → g j = 0) → ((List.range n).filter q).foldl (fun a j => a + g j) 0 = sumTo n g
  | 0, _ => rfl
  | n + 1, h => by
    rw [List.range_succ, List.filter_append, List.foldl_append, fold_filter q g n fun j hj => h j (by omega), sumTo]
    cases hq : q n with
    | true => simp [hq]
    | false => simp [hq, h n (by omega) hq]

theorem sumTo_congr {V : Type} [Zero V] [Add V] {f g : Nat → V} : ∀ {n : Nat}, (∀ j < n, f j = g j) → sumTo n f = sumTo n g
  | 0, _ => rfl
  | n + 1, h => by
    rw [sumTo, sumTo, sumTo_congr fun j hj => h j (by omega), h n (by omega)]

theorem sumTo_zero {V : Type} [AddZeroClass V] {f : Nat → V} : ∀ {n : Nat}, (∀ j < n, f j = 0) → sumTo n f = 0
  | 0, _ => rfl
  | n + 1, h => by
    rw [sumTo, sumTo_zero fun j hj => h j (by omega), h n (by omega), add_zero]

/-- a sum over the calls of the sparse methods -/
theorem fold_calls {V : Type} [AddZeroClass V] (gv : Nat × Args V → Nat → V) (i : Nat) (x tx1 : List V) (w : Args V) :
    ∀ (idx : List Nat) (e : Nat) (acc : V) (g : Nat → V),
      (∀ (k : Nat), ∀ j, idx[k]? = some j → gv (j, x :: tx1.drop (e + k) :: w) i = g (e + k)) → acc = sumTo e g →
      (calls x tx1 w idx e).foldl (fun a t => a + gv t i) acc = sumTo (e + idx.length) g
  | [], e, acc, g, _, ha => ha
  | j :: idx, e, acc, g, h, ha => by
    rw [calls, List.foldl_cons]
    have h0 := h 0 j (by simp)
    rw [Nat.add_zero] at h0
    rw [fold_calls gv i x tx1 w idx (e + 1) _ g (fun k j' hk => by
      have := h (k + 1) j' (by simpa using hk)
      rw [show e + 1 + k = e + (k + 1) by omega]; exact this) (by rw [sumTo, ha, h0])]
    rw [List.length_cons, show e + 1 + idx.length = e + (idx.length + 1) by omega]

theorem mem_calls {V : Type} {x tx1 : List V} {w : Args V} : ∀ {idx : List Nat} {e : Nat} {t : Nat × Args V},
    t ∈ calls x tx1 w idx e → ∃ k, idx[k]? = some t.1 ∧ t.2 = x :: tx1.drop (e + k) :: w
  | [], _, _, h => by cases h
  | j :: idx, e, t, h => by
    rw [calls] at h
    rcases List.mem_cons.1 h with rfl | h
    · exact ⟨0, by simp, rfl⟩
    · obtain ⟨k, h1, h2⟩ := mem_calls h
      exact ⟨k + 1, by simpa using h1, by rw [h2, show e + 1 + k = e + (k + 1) by omega]⟩

/-- the elements of a key, all different and in range, fit in the local array -/
theorem grp_length {req : List (Nat × Nat)} (hn : req.Nodup) {m : Nat} (hm : ∀ p ∈ req, p.2 < m) (k : Nat) :
    (grp req k).length ≤ m := by
  have hsub : grp req k ⊆ List.range m := fun i hi => List.mem_range.2 (hm _ (mem_grp.1 hi))
  have := (List.subperm_of_subset (grp_nodup hn k) hsub).length_le
  rwa [List.length_range] at this

theorem drop_getD {V : Type} [Zero V] (l : List V) (k : Nat) (h : k < l.length) : l.drop k = l.getD k 0 :: l.drop (k + 1) := by
  rw [List.drop_eq_getElem_cons h, List.getD_eq_getElem?_getD, List.getElem?_eq_getElem h]
  rfl

end Verif.Deriv
