import Verif.Colors.LemmasStore
import Mathlib.Algebra.BigOperators.Ring.Finset

/- Helper lemmas: the sorted arrays hold the request; results of one color. -/
namespace Verif.Colors

/-- the entries are those of the request: `Q k j o` means that element `k` has the key `j` and is found at `o` -/
structure Rep (n : Nat) (l : List Entry) (Q : Nat → Nat → Nat → Prop) : Prop where
  ok : EntriesOk n l
  last : ∃ e ∈ l, e.key = n
  mem : ∀ e ∈ l, e.key < n → ∀ o k, e.data = some (o, k) → Q k e.key o
  all : ∀ k j o, Q k j o → j < n ∧ ∃ e ∈ l, e.key = j ∧ e.data = some (o, k)

theorem range_lt (n : Nat) : (List.range n).Pairwise (· < ·) := List.pairwise_lt_range

theorem pass_ok {n c : Nat} {color : List Nat} {l : List Entry} {Q : Nat → Nat → Nat → Prop} (hc : color.length = n) (hr : Rep n l Q) :
    ∃ b l', firstUse color c (List.range n) l = some (b, l') ∧ (b = true ↔ ∃ k j o, Q k j o ∧ color[j]? = some c) ∧
      ∀ {R : Type} (v : Nat → Option R) (out : List R),
        (∀ k j o, Q k j o → color[j]? = some c → (∃ x, v o = some x) ∧ k < out.length) → b = true →
        ∃ out', extract color c v (List.range n) l' out = some out' ∧ out'.length = out.length ∧
          (∀ k j o, Q k j o → color[j]? = some c → out'[k]? = v o) ∧
          ∀ k, (∀ j o, Q k j o → color[j]? ≠ some c) → out'[k]? = out[k]? := by
  obtain ⟨b, l', h1, h2, h3, h4, h5⟩ := firstUse_ok (c := c) hc (List.range n) l hr.ok.sorted (range_lt n) (fun j hj => by simpa using hj) hr.last
  have takes : ∀ e ∈ l, Takes color c (List.range n) e → e.key < n ∧ color[e.key]? = some c := fun e _ h => ⟨by simpa using h.1, h.2⟩
  refine ⟨b, l', h1, ?_, ?_⟩
  · rw [h5]
    constructor
    · rintro ⟨e, he, ht⟩
      obtain ⟨h6, h7⟩ := takes e he ht
      obtain ⟨o, k, hd⟩ := hr.ok.data e he h6
      exact ⟨k, e.key, o, hr.mem e he h6 o k hd, h7⟩
    · rintro ⟨k, j, o, hq, hcj⟩
      obtain ⟨hj, e, he, rfl, hd⟩ := hr.all k j o hq
      exact ⟨e, he, by simpa using hj, hcj⟩
  · intro R v out hv hb
    obtain ⟨out', t1, t2, t3, t4⟩ := extract_ok (c := c) (v := v) hc (List.range n) l' out (hr.ok.sub h2) (range_lt n) (fun j hj => by simpa using hj) h3
      (fun e he ht o k hd => by
        obtain ⟨h6, h7⟩ := takes e (h2.subset he) ht
        exact hv k e.key o (hr.mem e (h2.subset he) h6 o k hd) h7)
    refine ⟨out', t1, t2, ?_, ?_⟩
    · intro k j o hq hcj
      obtain ⟨hj, e, he, rfl, hd⟩ := hr.all k j o hq
      have ht : Takes color c (List.range n) e := ⟨by simpa using hj, hcj⟩
      exact t3 e (h4 hb e he ht) ht o k hd
    · intro k hk
      refine t4 k fun e he ht o hd => ?_
      obtain ⟨h6, h7⟩ := takes e (h2.subset he) ht
      exact hk e.key o (hr.mem e (h2.subset he) h6 o k hd) h7

theorem requested_lt {row col : List Nat} {k i j : Nat} (h : Requested row col k i j) : k < row.length :=
  (List.getElem?_eq_some_iff.1 h.1).1

theorem requested_of_lt {row col : List Nat} (hs : row.length = col.length) {k : Nat} (hk : k < row.length) :
    Requested row col k (row.getD k 0) (col.getD k 0) := by
  have hk' : k < col.length := by omega
  simp [Requested, hk, hk']

theorem requested_getD {row col : List Nat} {k i j : Nat} (h : Requested row col k i j) : row.getD k 0 = i ∧ col.getD k 0 = j := by
  obtain ⟨h1, h2⟩ := h
  simp [List.getD_eq_getElem?_getD, h1, h2]

theorem getD_append_left {l : List Nat} {x k : Nat} (h : k < l.length) : (l ++ [x]).getD k 0 = l.getD k 0 := by
  simp [List.getD_eq_getElem?_getD, List.getElem?_append_left h]

theorem getD_append_last {l : List Nat} {x : Nat} : (l ++ [x]).getD l.length 0 = x := by
  simp [List.getD_eq_getElem?_getD]

theorem getD_mem {l : List Nat} {k : Nat} (h : k < l.length) : l.getD k 0 ∈ l := by
  have e : l.getD k 0 = l[k] := by simp [List.getD_eq_getElem?_getD, h]
  rw [e]
  exact List.getElem_mem h

def freshJac (sort : List Nat → List Nat) (m n : Nat) (row col : List Nat) : WorkJac := ⟨row ++ [m], col ++ [n], sort (col ++ [n]), row.length⟩

def freshHes (sort : List Nat → List Nat) (n : Nat) (row col : List Nat) : WorkHes :=
  ⟨(sort row).map (row.getD · 0) ++ [n], (sort row).map (col.getD · 0), sort row, row.length⟩

section
variable {sort : List Nat → List Nat} (hsort : SortsPositions sort) {m n : Nat} {p : List (List Nat)} {row col : List Nat}
  (hv : ValidRequest m n p row col)
include hsort hv

theorem jac_rep : Rep n (jacEntries (freshJac sort m n row col)) fun k j o => Requested row col k o j := by
  obtain ⟨hp, hs⟩ := hsort (col ++ [n])
  have hsz := hv.size
  have hmem : ∀ s, s ∈ sort (col ++ [n]) ↔ s < col.length + 1 := by
    intro s
    rw [hp.mem_iff]
    simp
  have hkey : ∀ s, s < col.length → (col ++ [n]).getD s 0 < n := by
    intro s h
    rw [getD_append_left h]
    exact hv.cols _ (getD_mem h)
  refine ⟨⟨?_, ?_, ?_⟩, ?_, ?_, ?_⟩
  · exact List.pairwise_map.2 hs
  · intro e he _
    obtain ⟨s, _, rfl⟩ := List.mem_map.1 he
    exact ⟨_, _, rfl⟩
  · intro e he e' he' _ _ o o' k hd hd'
    obtain ⟨s, _, rfl⟩ := List.mem_map.1 he
    obtain ⟨s', _, rfl⟩ := List.mem_map.1 he'
    cases hd
    cases hd'
    exact ⟨rfl, rfl⟩
  · exact ⟨_, List.mem_map.2 ⟨col.length, (hmem _).2 (by omega), rfl⟩, getD_append_last⟩
  · intro e he hlt o k hd
    obtain ⟨s, hs1, rfl⟩ := List.mem_map.1 he
    cases hd
    have hs2 := (hmem _).1 hs1
    replace hlt : (col ++ [n]).getD k 0 < n := hlt
    have hkc : k < col.length := by
      by_cases h : k < col.length
      · exact h
      · have : k = col.length := by omega
        rw [this, getD_append_last] at hlt
        omega
    have := requested_of_lt hsz (k := k) (by omega)
    show Requested row col k ((row ++ [m]).getD k 0) ((col ++ [n]).getD k 0)
    rw [getD_append_left hkc, getD_append_left (by omega)]
    exact this
  · intro k j o hq
    have hk := requested_lt hq
    obtain ⟨h1, h2⟩ := requested_getD hq
    refine ⟨?_, _, List.mem_map.2 ⟨k, (hmem k).2 (by omega), rfl⟩, ?_, ?_⟩
    · rw [← h2, ← getD_append_left (x := n) (by omega)]
      exact hkey k (by omega)
    · show (col ++ [n]).getD k 0 = j
      rw [getD_append_left (by omega), h2]
    · show some ((row ++ [m]).getD k 0, k) = some (o, k)
      rw [getD_append_left hk, h1]

/-- the first positions in the order are those of the request -/
theorem jac_take {s : Nat} : s ∈ (sort (col ++ [n])).take row.length ↔ s < row.length := by
  obtain ⟨hp, hs⟩ := hsort (col ++ [n])
  have hsz := hv.size
  have hlen : (sort (col ++ [n])).length = row.length + 1 := by
    rw [hp.length_eq]
    simp [hsz]
  have hnd : (sort (col ++ [n])).Nodup := hp.nodup_iff.2 List.nodup_range
  have hmem : ∀ s, s ∈ sort (col ++ [n]) ↔ s < row.length + 1 := by
    intro s
    rw [hp.mem_iff]
    simp [hsz]
  generalize sort (col ++ [n]) = l at *
  have hsplit : l = l.take row.length ++ [l[row.length]] := by
    rw [List.take_append_getElem, List.take_of_length_le (by omega)]
  have hlast : l[row.length] = row.length := by
    have h1 : l[row.length] ∈ l := List.getElem_mem _
    have h2 := (hmem _).1 h1
    have h3 : row.length ∈ l := (hmem _).2 (by omega)
    rw [hsplit] at h3
    rcases List.mem_append.1 h3 with h3 | h3
    · rw [hsplit] at hs
      have h4 := (List.pairwise_append.1 hs).2.2 _ h3 _ (List.mem_singleton.2 rfl)
      by_cases h5 : l[row.length] = row.length
      · exact h5
      · have h6 : l[row.length] < col.length := by omega
        have h7 : (col ++ [n]).getD row.length 0 = n := by rw [hsz, getD_append_last]
        rw [getD_append_left h6, h7] at h4
        have := hv.cols _ (getD_mem h6)
        omega
    · exact (List.mem_singleton.1 h3).symm
  constructor
  · intro h
    have h1 := (hmem s).1 (List.mem_of_mem_take h)
    have h2 : s ≠ row.length := by
      intro e
      rw [hsplit, hlast] at hnd
      exact (List.nodup_append.1 hnd).2.2 s h row.length (List.mem_singleton.2 rfl) e
    omega
  · intro h
    have h1 := (hmem s).2 (by omega)
    rw [hsplit] at h1
    rcases List.mem_append.1 h1 with h1 | h1
    · exact h1
    · rw [hlast, List.mem_singleton] at h1
      omega

theorem jac_used {i j : Nat} : (i, j) ∈ ((sort (col ++ [n])).take row.length).map (fun s => ((row ++ [m]).getD s 0, (col ++ [n]).getD s 0)) ↔
    ∃ k, Requested row col k i j := by
  have hsz := hv.size
  simp only [List.mem_map, jac_take hsort hv, Prod.mk.injEq]
  constructor
  · rintro ⟨k, hk, rfl, rfl⟩
    refine ⟨k, ?_⟩
    rw [getD_append_left hk, getD_append_left (by omega)]
    exact requested_of_lt hsz hk
  · rintro ⟨k, hq⟩
    have hk := requested_lt hq
    obtain ⟨h1, h2⟩ := requested_getD hq
    exact ⟨k, hk, by rw [getD_append_left hk, h1], by rw [getD_append_left (by omega), h2]⟩

omit hv in
theorem hes_entries : hesEntries (freshHes sort n row col) =
    (sort row).map (fun s => (⟨row.getD s 0, some (col.getD s 0, s)⟩ : Entry)) ++ [⟨n, none⟩] := by
  apply List.ext_getElem
  · simp [hesEntries, freshHes]
  · intro k h1 h2
    simp only [hesEntries, freshHes, List.getElem_map, List.getElem_zipIdx]
    have hk : k < (sort row).length + 1 := by simpa using h2
    by_cases h : k < (sort row).length
    · rw [List.getElem_append_left (by simpa using h), List.getElem_append_left (by simpa using h)]
      simp [h]
    · have : k = (sort row).length := by omega
      subst this
      simp

theorem hes_rep (hmn : m = n) : Rep n (hesEntries (freshHes sort n row col)) fun k j o => Requested row col k j o := by
  obtain ⟨hp, hs⟩ := hsort row
  have hsz := hv.size
  rw [hes_entries hsort]
  have hmem : ∀ s, s ∈ sort row ↔ s < row.length := by
    intro s
    rw [hp.mem_iff]
    simp
  have hkey : ∀ s, s < row.length → row.getD s 0 < n := fun s h => hmn ▸ hv.rows _ (getD_mem h)
  -- entries are those of the request, and the last one
  have hcases : ∀ e ∈ (sort row).map (fun s => (⟨row.getD s 0, some (col.getD s 0, s)⟩ : Entry)) ++ [⟨n, none⟩], e.key < n →
      ∃ s < row.length, e = ⟨row.getD s 0, some (col.getD s 0, s)⟩ := by
    intro e he hlt
    rcases List.mem_append.1 he with he | he
    · obtain ⟨s, h1, rfl⟩ := List.mem_map.1 he
      exact ⟨s, (hmem s).1 h1, rfl⟩
    · rw [List.mem_singleton.1 he] at hlt
      exact absurd hlt (Nat.lt_irrefl _)
  refine ⟨⟨?_, ?_, ?_⟩, ⟨⟨n, none⟩, by simp, rfl⟩, ?_, ?_⟩
  · refine List.pairwise_append.2 ⟨List.pairwise_map.2 hs, List.pairwise_singleton _ _, ?_⟩
    intro a ha b hb
    obtain ⟨s, h1, rfl⟩ := List.mem_map.1 ha
    rw [List.mem_singleton.1 hb]
    exact Nat.le_of_lt (hkey s ((hmem s).1 h1))
  · intro e he hlt
    obtain ⟨s, _, rfl⟩ := hcases e he hlt
    exact ⟨_, _, rfl⟩
  · intro e he e' he' h1 h2 o o' k hd hd'
    obtain ⟨s, _, rfl⟩ := hcases e he h1
    obtain ⟨s', _, rfl⟩ := hcases e' he' h2
    cases hd
    cases hd'
    exact ⟨rfl, rfl⟩
  · intro e he hlt o k hd
    obtain ⟨s, h1, rfl⟩ := hcases e he hlt
    cases hd
    exact requested_of_lt hsz h1
  · intro k j o hq
    have hk := requested_lt hq
    obtain ⟨h1, h2⟩ := requested_getD hq
    refine ⟨by rw [← h1]; exact hkey k hk, _, List.mem_append.2 (.inl (List.mem_map.2 ⟨k, (hmem k).2 hk, rfl⟩)), h1, ?_⟩
    show some (col.getD k 0, k) = some (o, k)
    rw [h2]

theorem hes_used {i j : Nat} : (i, j) ∈ (List.range row.length).map (fun k => (((sort row).map (row.getD · 0) ++ [n]).getD k 0,
    ((sort row).map (col.getD · 0)).getD k 0)) ↔ ∃ k, Requested row col k i j := by
  obtain ⟨hp, hs⟩ := hsort row
  have hsz := hv.size
  have hlen : (sort row).length = row.length := by
    rw [hp.length_eq]
    simp
  have hmem : ∀ s, s ∈ sort row ↔ s < row.length := by
    intro s
    rw [hp.mem_iff]
    simp
  have hget : ∀ k, (hk : k < (sort row).length) → ((sort row).map (row.getD · 0) ++ [n]).getD k 0 = row.getD (sort row)[k] 0 ∧
      ((sort row).map (col.getD · 0)).getD k 0 = col.getD (sort row)[k] 0 := by
    intro k hk
    constructor
    · rw [getD_append_left (by simpa using hk)]
      simp [List.getD_eq_getElem?_getD, hk]
    · simp [List.getD_eq_getElem?_getD, hk]
  simp only [List.mem_map, List.mem_range, Prod.mk.injEq]
  constructor
  · rintro ⟨k, hk, rfl, rfl⟩
    have hk' : k < (sort row).length := by omega
    rw [(hget k hk').1, (hget k hk').2]
    exact ⟨_, requested_of_lt hsz ((hmem _).1 (List.getElem_mem hk'))⟩
  · rintro ⟨s, hq⟩
    obtain ⟨h1, h2⟩ := requested_getD hq
    obtain ⟨k, hk, hks⟩ := List.getElem_of_mem ((hmem s).2 (requested_lt hq))
    exact ⟨k, by omega, by rw [(hget k hk).1, hks, h1], by rw [(hget k hk).2, hks, h2]⟩

end

open Finset

theorem sum_color {R : Type} [CommSemiring R] {n j c : Nat} {color : List Nat} {A : Nat → R} (hj : j < n) (hcj : color.getD j 0 = c)
    (h : ∀ j' < n, j' ≠ j → color.getD j' 0 = c → A j' = 0) :
    ∑ i ∈ range n, A i * ((List.range n).map fun j => if color.getD j 0 = c then (1 : R) else 0).getD i 0 = A j := by
  have hget : ∀ i < n, ((List.range n).map fun j => if color.getD j 0 = c then (1 : R) else 0).getD i 0 = if color.getD i 0 = c then 1 else 0 := by
    intro i hi
    simp [List.getD_eq_getElem?_getD, hi]
  rw [Finset.sum_eq_single j]
  · rw [hget j hj, if_pos hcj, mul_one]
  · intro i hi hne
    rw [Finset.mem_range] at hi
    rw [hget i hi]
    by_cases hci : color.getD i 0 = c
    · rw [h i hi hne hci, zero_mul]
    · rw [if_neg hci, mul_zero]
  · intro hn
    exact absurd (Finset.mem_range.2 hj) hn

end Verif.Colors
