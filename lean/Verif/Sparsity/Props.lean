import Verif.Sparsity.LemmasMult
/-
Properties C26 and C27: the sparsity helpers compute boolean matrix algebra, and the index lists
describe exactly the pattern they were made from.

`Dims p m n` (Spec.lean): the first `m` rows exist, with non-zeros in columns below `n`. Results keep
the number of rows and the rows stay sets (`Sorted`).
-/
namespace Verif.Sparsity

/-- example patterns -/
def exA : Pattern := [[0, 2], [1], []]
def exB : Pattern := [[1], [0, 1], [3]]
def exR : Pattern := [[], [5], []]

/-! ### C26 -/

/-- C26. `R += A` -/
theorem addMatrix_spec {a r : Pattern} {m : Nat} (h1 : m ≤ a.length) (h2 : m ≤ r.length) (hs : Sorted a) :
    ∃ r', addMatrix a m r = some r' ∧ r'.length = r.length ∧ (Sorted r → Sorted r') ∧
      ∀ i j, Entry r' i j ↔ Entry r i j ∨ (i < m ∧ Entry a i j) :=
  adds_addMatrix h1 h2 hs r rfl

/-- The precondition of `addMatrixSparsity` is asserted the wrong way round (util.hpp l.122,
`a.size() <= mRows`): an `a` with fewer rows passes the assertion and is read out of bounds. -/
theorem addMatrix_assert_counterexample :
    ([[0]] : Pattern).length ≤ 2 ∧ addMatrix [[0]] 2 [[], []] = none := by decide

/-- C26. `R += A^T` -/
theorem addTrans_spec {a r : Pattern} {m : Nat} (ha : Dims a m r.length) :
    ∃ r', addTrans a m r = some r' ∧ r'.length = r.length ∧ (Sorted r → Sorted r') ∧
      ∀ i j, Entry r' i j ↔ Entry r i j ∨ (j < m ∧ Entry a j i) :=
  adds_addTrans ha r rfl

/-- C26. Transposing. -/
theorem transpose_correct {p : Pattern} {m n : Nat} (h : Dims p m n) :
    ∃ t, transpose p m n = some t ∧ t.length = n ∧ Sorted t ∧
      ∀ i j, Entry t i j ↔ j < m ∧ Entry p j i := transpose_spec h

/-- C26. `R += A * B` -/
theorem mult_spec {a b r : Pattern} {m n q : Nat} (ha : Dims a m n) (hb : Dims b n q)
    (hr : m ≤ r.length) (hsa : Sorted a) :
    ∃ r', mult a b r m n q = some r' ∧ r'.length = r.length ∧ (Sorted r → Sorted r') ∧
      ∀ i j, Entry r' i j ↔ Entry r i j ∨ (i < m ∧ Prod (Entry a) (Entry b) n i j) :=
  adds_mult ha hb hr hsa r rfl

/-- C26. `R += A^T * B` -/
theorem multTrans_spec {a b r : Pattern} {m n q : Nat} (ha : Dims a m n) (hb : Dims b m q)
    (hr : n ≤ r.length) (hsb : Sorted b) :
    ∃ r', multTrans a b r m n q = some r' ∧ r'.length = r.length ∧ (Sorted r → Sorted r') ∧
      ∀ i j, Entry r' i j ↔ Entry r i j ∨ Prod (fun i k => Entry a k i) (Entry b) m i j :=
  adds_multTrans ha hb hr hsb r rfl

/-- C26. `(R += A * B)^T`, given `A^T` -/
theorem multT_spec {aT b rT : Pattern} {m n q : Nat} (ha : Dims aT m q) (hb : Dims b m n)
    (hr : n ≤ rT.length) :
    ∃ r', multT aT b rT m n q = some r' ∧ r'.length = rT.length ∧ (Sorted rT → Sorted r') ∧
      ∀ j i, Entry r' j i ↔ Entry rT j i ∨ Prod (fun i k => Entry aT k i) (Entry b) m i j :=
  adds_multT ha hb hr rT rfl

/-- The two ways of computing a product agree: `(A^T)^T * B` and the transposed product. -/
theorem multT_transposes {aT b : Pattern} {m n q : Nat} (ha : Dims aT m q) (hb : Dims b m n)
    (hsb : Sorted b) :
    ∃ r rT, multTrans aT b (List.replicate q []) m q n = some r ∧
      multT aT b (List.replicate n []) m n q = some rT ∧ ∀ i j, Entry r i j ↔ Entry rT j i := by
  obtain ⟨r, h1, _, _, h2⟩ := multTrans_spec ha hb (r := List.replicate q []) (by simp) hsb
  obtain ⟨rT, h3, _, _, h4⟩ := multT_spec ha hb (rT := List.replicate n []) (by simp)
  refine ⟨r, rT, h1, h3, fun i j => ?_⟩
  rw [h2, h4]
  simp [entry_replicate]

example : Dims exA 3 3 ∧ Dims exB 3 4 ∧ Sorted exA ∧ Sorted exB := by
  refine ⟨⟨by decide, ?_⟩, ⟨by decide, ?_⟩, by decide, by decide⟩ <;>
  · intro i j hi ⟨row, h, hj⟩
    match i, hi with
    | 0, _ | 1, _ | 2, _ => cases h; revert j; decide
example : mult exA exB exR 3 3 4 = some [[1, 3], [0, 1, 5], []] := by decide
example : multTrans exA exB exR 3 3 4 = some [[1], [0, 1, 5], [1]] := by decide
example : multT exA exB [[], [], [], []] 3 4 3 = some [[1], [0, 1, 2], [], []] := by decide
/-- shortcut for an identity -/
example : mult exA [[0], [1], [2]] exR 3 3 3 = some [[0, 2], [1, 5], []] := by decide

/-- `intersects` answers whether two sets have a common element. -/
theorem intersects_iff {a b : List Nat} (ha : a.Pairwise (· < ·)) (hb : b.Pairwise (· < ·)) :
    intersects a b = true ↔ ∃ k, k ∈ a ∧ k ∈ b := intersects_spec ha hb

example : intersects [1, 4, 9] [2, 4] = true ∧ intersects [1, 4, 9] [2, 5] = false := by decide

/-! ### C27 -/

/-- C27. The lists have one entry per non-zero, are ordered by rows and within a row by columns
without duplicates, and list exactly the non-zeros. -/
theorem indexes_spec {p : Pattern} (hs : Sorted p) :
    (indexes p).1.length = nnz p ∧ (indexes p).2.length = nnz p ∧
    ((indexes p).1.zip (indexes p).2).Pairwise (fun u v => u.1 < v.1 ∨ (u.1 = v.1 ∧ u.2 < v.2)) ∧
    ∀ i j, (i, j) ∈ (indexes p).1.zip (indexes p).2 ↔ Entry p i j := indexes_correct hs

/-- C27. Going back from the lists to sets gives the pattern. -/
theorem generateSet_indexes {p : Pattern} (hs : Sorted p) :
    generateSet (indexes p).1 (indexes p).2 (List.replicate p.length []) = some p :=
  roundtrip hs

/-- C27. From any lists with rows in range the pattern has exactly the listed entries, and listing
these again gives back the lists if they were ordered. -/
theorem indexes_generateSet {row col : List Nat} {m : Nat} (hl : row.length = col.length)
    (hr : ∀ i ∈ row, i < m) :
    ∃ p, generateSet row col (List.replicate m []) = some p ∧ p.length = m ∧ Sorted p ∧
      (∀ i j, Entry p i j ↔ (i, j) ∈ row.zip col) ∧
      ((row.zip col).Pairwise (fun u v => u.1 < v.1 ∨ (u.1 = v.1 ∧ u.2 < v.2)) →
        indexes p = (row, col)) := roundtrip' hl hr

/-- C27. The variant for a flag per element lists the elements set, in the same order. -/
theorem indexesBool_spec {s : List Bool} {m n : Nat} (h : s.length = m * n) :
    ∃ row col, indexesBool s m n = some (row, col) ∧ row.length = s.count true ∧ col.length = s.count true ∧
      (row.zip col).Pairwise (fun u v => u.1 < v.1 ∨ (u.1 = v.1 ∧ u.2 < v.2)) ∧
      ∀ i j, (i, j) ∈ row.zip col ↔ i < m ∧ j < n ∧ s[i * n + j]? = some true := indexesBool_correct h

example : indexes exA = ([0, 0, 1], [0, 2, 1]) ∧ Sorted exA ∧
    generateSet [0, 0, 1] [0, 2, 1] [[], [], []] = some exA := by
  refine ⟨by decide, by decide, by decide⟩
example : indexesBool [true, false, true, false, true, true] 2 3 = some ([0, 0, 1, 1], [0, 2, 1, 2]) := by
  decide

end Verif.Sparsity
