import Verif.Index.Print
import Verif.Index.Lemmas
import Std.Data.String.ToNat
import Mathlib.Data.List.Nodup
import Mathlib.Data.List.Perm.Subperm
import Mathlib.Tactic.Ring

namespace Verif.Index

/-! ### arrays -/

theorem fill_get {pts : List (Nat × Nat)} (hs : Sorted pts) : ∀ (v : List Nat) (k : Nat), k < v.length →
    (pts.foldl (fun v p => v.set p.1 p.2) v)[k]? = some (((pts.find? fun q => decide (q.1 = k)).map (·.2)).getD (v[k]?.getD 0)) := by
  induction pts with
  | nil => intro v k hk; simp [List.getElem?_eq_getElem hk]
  | cons a rest ih =>
    obtain ⟨y, z⟩ := a
    obtain ⟨ha, hr⟩ := List.pairwise_cons.mp hs
    intro v k hk
    rw [List.foldl_cons, ih hr _ k (by simpa using hk)]
    congr 1
    by_cases h : y = k
    · subst h
      have hn : rest.find? (fun q => decide (q.1 = y)) = none := by
        rw [List.find?_eq_none]
        intro q hq
        have := ha q hq
        simp only at this
        simp
        omega
      simp [hn, hk]
    · simp [h]

theorem fill_length (n : Nat) (pts : List (Nat × Nat)) : (fillVec n pts).length = n := by
  have : ∀ (v : List Nat), (pts.foldl (fun v p => v.set p.1 p.2) v).length = v.length := by
    induction pts with
    | nil => intro v; rfl
    | cons a rest ih => intro v; rw [List.foldl_cons, ih]; simp
  rw [fillVec, this]
  simp

theorem readElems_array (v : Nat) (rest : List Nat) :
    readElems (.num v :: (rest.flatMap fun w => [DTok.comma, DTok.num w]) ++ [.close]) = some (v :: rest, []) := by
  induction rest generalizing v with
  | nil => rfl
  | cons w rest ih =>
    have := ih w
    simp only [List.flatMap_cons, List.cons_append, List.nil_append, readElems]
    simp only [List.cons_append] at this
    rw [this]

theorem array_at (vs : List Nat) (k : Nat) (hk : k < vs.length) : arrayAt vs.length (arrayToks vs) k = some (vs[k]?.getD 0) := by
  cases vs with
  | nil => simp at hk
  | cons v rest =>
    simp only [arrayToks, arrayAt, List.cons_append]
    have := readElems_array v rest
    simp only [List.cons_append] at this
    rw [this]
    simp only
    rw [if_pos ⟨Nat.le_refl _, hk⟩]

theorem declare1_at {pts : List (Nat × Nat)} (hs : Sorted pts) (k : Nat) (hk : k < (declare1 pts).1) :
    arrayAt (declare1 pts).1 (declare1 pts).2 k = some (((pts.find? fun q => decide (q.1 = k)).map (·.2)).getD 0) := by
  simp only [declare1] at hk ⊢
  rw [array_at _ _ hk]
  rw [fill_length] at hk
  rw [fillVec, fill_get hs _ k (by simpa using hk)]
  simp [hk]

theorem keyEnd_lt {β : Type} {pts : List (Nat × β)} (hs : Sorted pts) {q : Nat × β} (hq : q ∈ pts) : q.1 < keyEnd pts := by
  have hne : pts ≠ [] := List.ne_nil_of_mem hq
  obtain ⟨i, hi⟩ := List.getElem?_of_mem hq
  have hlt := (List.getElem?_eq_some_iff.mp hi).1
  have hl : pts[pts.length - 1]? = some (pts.getLast hne) := by
    rw [List.getLast_eq_getElem, List.getElem?_eq_getElem]
  unfold keyEnd
  rw [List.getLast?_eq_some_getLast hne]
  simp only
  by_cases h : i = pts.length - 1
  · rw [h, hl] at hi
    obtain rfl := Option.some.inj hi
    omega
  · have := sorted_get hs (by omega : i < pts.length - 1) hi hl
    omega

/-! ### matrices -/

/-- elements of a row from column `y` on -/
def rowList : List (Nat × Nat) → Nat → List Nat
  | [], _ => []
  | (k, z) :: rest, y => List.replicate (k - y) 0 ++ [z] ++ rowList rest (k + 1)

theorem zeros_read (d : Nat) (r : List DTok) (acc : List Nat) :
    readRows ((List.replicate d [DTok.num 0, DTok.comma]).flatten ++ r) (.val acc) = readRows r (.val (acc ++ List.replicate d 0)) := by
  induction d generalizing acc with
  | zero => simp
  | succ d ih =>
    rw [List.replicate_succ, List.flatten_cons, List.append_assoc, List.cons_append, List.cons_append, List.nil_append]
    simp only [readRows]
    rw [ih]
    congr 2
    simp [List.replicate_succ]

theorem keyEnd_cons {β : Type} (a b : Nat × β) (rest : List (Nat × β)) : keyEnd (a :: b :: rest) = keyEnd (b :: rest) := by
  simp [keyEnd, List.getLast?_cons_cons]

theorem row_read (r : List DTok) : ∀ (row : List (Nat × Nat)) (y : Nat) (acc : List Nat), Sorted row →
    readRows (rowToks (keyEnd row - 1) row y ++ .close :: r) (.val acc) = (readRows r .after).map ((acc ++ rowList row y) :: ·)
  | [], y, acc, _ => by simp [rowToks, rowList, readRows]
  | [(k, z)], y, acc, _ => by
    have : keyEnd [(k, z)] - 1 = k := by simp [keyEnd]
    simp only [this, rowToks, rowList, ne_eq, not_true_eq_false, if_false, List.append_assoc, List.nil_append, List.append_nil, List.cons_append]
    rw [zeros_read]
    simp only [readRows, List.append_assoc]
  | (k, z) :: (k', z') :: rest, y, acc, hs => by
    have hr := (List.pairwise_cons.mp hs).2
    have hk : k < keyEnd ((k', z') :: rest) - 1 := by
      have h1 := (List.pairwise_cons.mp hs).1 (k', z') (by simp)
      have h2 := keyEnd_lt hr (q := (k', z')) (by simp)
      simp only at h1 h2
      omega
    have ih := row_read r ((k', z') :: rest) (k + 1) (acc ++ List.replicate (k - y) 0 ++ [z]) hr
    rw [keyEnd_cons]
    rw [rowToks, rowList, if_pos (by omega)]
    simp only [List.append_assoc, List.cons_append, List.nil_append] at ih ⊢
    rw [zeros_read]
    simp only [readRows, List.append_assoc]
    exact ih

/-- rows from `x` on -/
def rowsList : List (Nat × List (Nat × Nat)) → Nat → List (List Nat)
  | [], _ => []
  | (k, row) :: rest, x => List.replicate (k - x) [] ++ [rowList row 0] ++ rowsList rest (k + 1)

theorem empties_read (d : Nat) (r : List DTok) :
    readRows ((List.replicate d [DTok.open_, DTok.close, DTok.comma]).flatten ++ r) .row = (readRows r .row).map (List.replicate d [] ++ ·) := by
  induction d with
  | zero => simp
  | succ d ih =>
    rw [List.replicate_succ, List.flatten_cons, List.append_assoc]
    simp only [List.cons_append, List.nil_append, readRows]
    rw [ih, Option.map_map]
    congr 1

theorem rows_read : ∀ (pts : List (Nat × List (Nat × Nat))) (x : Nat), Sorted pts → (∀ q ∈ pts, Sorted q.2) →
    readRows (rowsToks (keyEnd pts - 1) pts x ++ [.close]) .row = some (rowsList pts x)
  | [], x, _, _ => by simp [rowsToks, rowsList, readRows]
  | [(k, row)], x, _, hr => by
    have : keyEnd [(k, row)] - 1 = k := by simp [keyEnd]
    simp only [this, rowsToks, rowsList, ne_eq, not_true_eq_false, if_false, List.append_assoc, List.nil_append, List.append_nil, List.cons_append]
    rw [empties_read]
    simp only [readRows]
    rw [row_read _ row 0 [] (hr (k, row) (by simp))]
    simp [readRows]
  | (k, row) :: (k', row') :: rest, x, hs, hr => by
    have hrs := (List.pairwise_cons.mp hs).2
    have hk : k < keyEnd ((k', row') :: rest) - 1 := by
      have h1 := (List.pairwise_cons.mp hs).1 (k', row') (by simp)
      have h2 := keyEnd_lt hrs (q := (k', row')) (by simp)
      simp only at h1 h2
      omega
    have ih := rows_read ((k', row') :: rest) (k + 1) hrs (fun q hq => hr q (by simp [hq]))
    rw [keyEnd_cons, rowsToks, rowsList, if_pos (by omega)]
    simp only [List.append_assoc, List.cons_append, List.nil_append] at ih ⊢
    rw [empties_read]
    simp only [readRows]
    rw [row_read _ row 0 [] (hr (k, row) (by simp))]
    simp only [readRows]
    rw [ih]
    simp

theorem rowList_get : ∀ (row : List (Nat × Nat)) (y : Nat), Sorted row → (∀ q ∈ row, y ≤ q.1) → ∀ l, y ≤ l →
    (rowList row y)[l - y]?.getD 0 = ((row.find? fun q => decide (q.1 = l)).map (·.2)).getD 0
  | [], y, _, _, l, _ => by simp [rowList]
  | (k, z) :: rest, y, hs, hy, l, hl => by
    obtain ⟨ha, hr⟩ := List.pairwise_cons.mp hs
    have hky : y ≤ k := hy (k, z) (by simp)
    unfold rowList
    by_cases h1 : l < k
    · rw [List.append_assoc, List.getElem?_append_left (by simp; omega), List.getElem?_replicate, if_pos (by omega)]
      have hn : ((k, z) :: rest).find? (fun q => decide (q.1 = l)) = none := by
        rw [List.find?_eq_none]
        intro q hq
        rcases List.mem_cons.mp hq with rfl | hq
        · simp; omega
        · have := ha q hq; simp only at this; simp; omega
      rw [hn]
      rfl
    · by_cases h2 : l = k
      · subst h2
        rw [List.append_assoc, List.getElem?_append_right (by simp)]
        simp
      · rw [List.getElem?_append_right (by simp; omega)]
        have e : l - y - (List.replicate (k - y) 0 ++ [z]).length = l - (k + 1) := by simp; omega
        rw [e, rowList_get rest (k + 1) hr (fun q hq => by have := ha q hq; simp only at this; omega) l (by omega)]
        have : ¬ k = l := fun e => h2 e.symm
        simp [this]

theorem rowList_length : ∀ (row : List (Nat × Nat)) (y : Nat), Sorted row → (∀ q ∈ row, y ≤ q.1) → row ≠ [] →
    (rowList row y).length + y = keyEnd row
  | [], _, _, _, h => absurd rfl h
  | [(k, z)], y, _, hy, _ => by
    have : y ≤ k := hy (k, z) (by simp)
    simp [rowList, keyEnd]; omega
  | (k, z) :: (k', z') :: rest, y, hs, hy, _ => by
    obtain ⟨ha, hr⟩ := List.pairwise_cons.mp hs
    have h1 : y ≤ k := hy (k, z) (by simp)
    have ih := rowList_length ((k', z') :: rest) (k + 1) hr (fun q hq => by have := ha q hq; simp only at this; omega) (by simp)
    rw [keyEnd_cons, ← ih]
    rw [rowList]
    simp only [List.length_append, List.length_replicate, List.length_cons, List.length_nil]
    omega

theorem rowsList_length : ∀ (pts : List (Nat × List (Nat × Nat))) (x : Nat), Sorted pts → (∀ q ∈ pts, x ≤ q.1) → pts ≠ [] →
    (rowsList pts x).length + x = keyEnd pts
  | [], _, _, _, h => absurd rfl h
  | [(k, z)], y, _, hy, _ => by
    have : y ≤ k := hy (k, z) (by simp)
    simp [rowsList, keyEnd]; omega
  | (k, z) :: (k', z') :: rest, y, hs, hy, _ => by
    obtain ⟨ha, hr⟩ := List.pairwise_cons.mp hs
    have h1 : y ≤ k := hy (k, z) (by simp)
    have ih := rowsList_length ((k', z') :: rest) (k + 1) hr (fun q hq => by have := ha q hq; simp only at this; omega) (by simp)
    rw [keyEnd_cons, ← ih]
    rw [rowsList]
    simp only [List.length_append, List.length_replicate, List.length_cons, List.length_nil]
    omega

theorem rowsList_get : ∀ (pts : List (Nat × List (Nat × Nat))) (x : Nat), Sorted pts → (∀ q ∈ pts, x ≤ q.1) → ∀ k, x ≤ k →
    (rowsList pts x)[k - x]?.getD [] = ((pts.find? fun q => decide (q.1 = k)).map (fun q => rowList q.2 0)).getD []
  | [], y, _, _, l, _ => by simp [rowsList]
  | (k, z) :: rest, y, hs, hy, l, hl => by
    obtain ⟨ha, hr⟩ := List.pairwise_cons.mp hs
    have hky : y ≤ k := hy (k, z) (by simp)
    unfold rowsList
    by_cases h1 : l < k
    · rw [List.append_assoc, List.getElem?_append_left (by simp; omega), List.getElem?_replicate, if_pos (by omega)]
      have hn : ((k, z) :: rest).find? (fun q => decide (q.1 = l)) = none := by
        rw [List.find?_eq_none]
        intro q hq
        rcases List.mem_cons.mp hq with rfl | hq
        · simp; omega
        · have := ha q hq; simp only at this; simp; omega
      rw [hn]
      rfl
    · by_cases h2 : l = k
      · subst h2
        rw [List.append_assoc, List.getElem?_append_right (by simp)]
        simp
      · rw [List.getElem?_append_right (by simp; omega)]
        have e : l - y - (List.replicate (k - y) [] ++ [rowList z 0]).length = l - (k + 1) := by simp; omega
        rw [e, rowsList_get rest (k + 1) hr (fun q hq => by have := ha q hq; simp only at this; omega) l (by omega)]
        have : ¬ k = l := fun e => h2 e.symm
        simp [this]

theorem rowsList_mem : ∀ (pts : List (Nat × List (Nat × Nat))) (x : Nat) (r : List Nat), r ∈ rowsList pts x →
    r = [] ∨ ∃ q ∈ pts, r = rowList q.2 0
  | [], _, _, h => by simp [rowsList] at h
  | (k, row) :: rest, x, r, h => by
    unfold rowsList at h
    rcases List.mem_append.mp h with h | h
    · rcases List.mem_append.mp h with h | h
      · exact .inl (List.eq_of_mem_replicate h)
      · simp at h
        exact .inr ⟨(k, row), by simp, h⟩
    · rcases rowsList_mem rest (k + 1) r h with h | ⟨q, hq, e⟩
      · exact .inl h
      · exact .inr ⟨q, by simp [hq], e⟩

theorem foldl_max_le (l : List Nat) : ∀ (n : Nat), n ≤ l.foldl max n ∧ ∀ a ∈ l, a ≤ l.foldl max n := by
  induction l with
  | nil => intro n; simp
  | cons b l ih =>
    intro n
    obtain ⟨i1, i2⟩ := ih (max n b)
    refine ⟨by simp only [List.foldl_cons]; omega, ?_⟩
    intro a ha
    simp only [List.foldl_cons]
    rcases List.mem_cons.mp ha with rfl | ha
    · omega
    · exact i2 a ha

theorem declare2_at {pts : List (Nat × List (Nat × Nat))} (hs : Sorted pts) (hr : ∀ q ∈ pts, Sorted q.2) (k l : Nat)
    (hk : k < (declare2 pts).1) (hl : l < (declare2 pts).2.1) :
    matrixAt (declare2 pts).1 (declare2 pts).2.1 (declare2 pts).2.2 k l =
      some ((((((pts.find? fun q => decide (q.1 = k)).map (·.2)).getD []).find? fun q => decide (q.1 = l)).map (·.2)).getD 0) := by
  have hne : pts ≠ [] := by rintro rfl; simp [declare2, keyEnd] at hk
  simp only [declare2] at hk hl ⊢
  simp only [matrixAt, List.cons_append, rows_read pts 0 hs hr]
  have hlen := rowsList_length pts 0 hs (by simp) hne
  have hrows : ∀ row ∈ rowsList pts 0, row.length ≤ (pts.map fun r => keyEnd r.2).foldl max 0 := by
    intro row hrow
    rcases rowsList_mem pts 0 row hrow with rfl | ⟨q, hq, rfl⟩
    · simp
    · by_cases hq2 : q.2 = []
      · rw [hq2]; simp [rowList]
      · have := rowList_length q.2 0 (hr q hq) (by simp) hq2
        have h2 := (foldl_max_le (pts.map fun r => keyEnd r.2) 0).2 (keyEnd q.2) (List.mem_map.mpr ⟨q, hq, rfl⟩)
        omega
  rw [if_pos ⟨by omega, hrows, hk, hl⟩]
  congr 1
  have := rowsList_get pts 0 hs (by simp) k (by omega)
  rw [Nat.sub_zero] at this
  rw [this]
  cases hf : pts.find? (fun q => decide (q.1 = k)) with
  | none => simp
  | some q =>
    have hq := List.mem_of_find?_eq_some hf
    have := rowList_get q.2 0 (hr q hq) (by simp) l (by omega)
    simpa using this

/-! ### names -/

theorem tableName_inj {pre : String} {c d : Nat} (h : tableName pre c = tableName pre d) : c = d := by
  unfold tableName at h
  have : Nat.repr c = Nat.repr d := by
    have h1 := congrArg String.toList h
    rw [String.toList_append, String.toList_append, List.append_cancel_left_eq] at h1
    exact String.toList_inj.mp h1
  exact Nat.repr_injective this

theorem freshIndex_spec (pre : String) (used : List String) : ∀ (fuel c : Nat),
    c ≤ freshIndex pre used fuel c ∧
    (tableName pre (freshIndex pre used fuel c) ∈ used → ∀ j, j ≤ fuel → tableName pre (c + j) ∈ used) := by
  intro fuel
  induction fuel with
  | zero =>
    intro c
    refine ⟨Nat.le_refl _, ?_⟩
    intro h j hj
    obtain rfl : j = 0 := by omega
    exact h
  | succ fuel ih =>
    intro c
    unfold freshIndex
    by_cases h : tableName pre c ∈ used
    · rw [if_pos h]
      obtain ⟨i1, i2⟩ := ih (c + 1)
      refine ⟨by omega, ?_⟩
      intro hm j hj
      cases j with
      | zero => exact h
      | succ j =>
        have := i2 hm j (by omega)
        rwa [show c + 1 + j = c + (j + 1) by omega] at this
    · rw [if_neg h]
      exact ⟨Nat.le_refl _, fun hm => absurd hm h⟩

theorem freshIndex_free (pre : String) (used : List String) (c : Nat) :
    tableName pre (freshIndex pre used used.length c) ∉ used := by
  intro h
  have hall := (freshIndex_spec pre used used.length c).2 h
  have hnd : ((List.range (used.length + 1)).map fun j => tableName pre (c + j)).Nodup := by
    refine List.Nodup.map ?_ List.nodup_range
    intro a b e
    have := tableName_inj e
    omega
  have hsub : ((List.range (used.length + 1)).map fun j => tableName pre (c + j)) ⊆ used := by
    intro s hs
    obtain ⟨j, hj, rfl⟩ := List.mem_map.mp hs
    exact hall j (by have := List.mem_range.mp hj; omega)
  have := (hnd.subperm hsub).length_le
  simp at this

theorem nameLoop_length (pre : String) (used : List String) : ∀ (names : List String) (c : Nat),
    (nameLoop pre used names c).length = names.length := by
  intro names
  induction names with
  | nil => intro c; rfl
  | cons n rest ih =>
    intro c
    unfold nameLoop
    split <;> simp [ih]

/-- a new name: number from `c` on and free -/
theorem nameLoop_get (pre : String) (used : List String) : ∀ (names : List String) (c i : Nat) (n : String), names[i]? = some n →
    ∃ m, (nameLoop pre used names c)[i]? = some m ∧ (n ≠ "" → m = n) ∧
      (n = "" → ∃ d, c ≤ d ∧ m = tableName pre d ∧ m ∉ used) := by
  intro names
  induction names with
  | nil => intro c i n h; simp at h
  | cons a rest ih =>
    intro c i n h
    unfold nameLoop
    cases i with
    | zero =>
      simp at h
      subst h
      by_cases ha : a = ""
      · rw [if_pos ha]
        exact ⟨_, by simp, fun h => absurd ha h, fun _ => ⟨_, (freshIndex_spec pre used _ c).1, rfl, freshIndex_free pre used c⟩⟩
      · rw [if_neg ha]
        exact ⟨_, by simp, fun _ => rfl, fun h => absurd h ha⟩
    | succ i =>
      simp at h
      by_cases ha : a = ""
      · rw [if_pos ha]
        obtain ⟨m, h1, h2, h3⟩ := ih (freshIndex pre used used.length c + 1) i n h
        refine ⟨m, by simpa using h1, h2, ?_⟩
        intro hn
        obtain ⟨d, hd, e⟩ := h3 hn
        have := (freshIndex_spec pre used used.length c).1
        exact ⟨d, by omega, e⟩
      · rw [if_neg ha]
        obtain ⟨m, h1, h2, h3⟩ := ih c i n h
        exact ⟨m, by simpa using h1, h2, h3⟩

/-- two new names differ -/
theorem nameLoop_new_ne (pre : String) (used : List String) : ∀ (names : List String) (c i j : Nat) (m m' : String), i < j →
    names[i]? = some "" → names[j]? = some "" →
    (nameLoop pre used names c)[i]? = some m → (nameLoop pre used names c)[j]? = some m' → m ≠ m' := by
  intro names
  induction names with
  | nil => intro c i j m m' _ h; simp at h
  | cons a rest ih =>
    intro c i j m m' hij hi hj hm hm'
    obtain ⟨j, rfl⟩ : ∃ j', j = j' + 1 := ⟨j - 1, by omega⟩
    unfold nameLoop at hm hm'
    cases i with
    | zero =>
      simp at hi
      subst hi
      rw [if_pos rfl] at hm hm'
      simp at hm hm' hj
      subst hm
      obtain ⟨m2, h1, _, h3⟩ := nameLoop_get pre used rest (freshIndex pre used used.length c + 1) j "" hj
      rw [hm'] at h1
      obtain rfl := Option.some.inj h1
      obtain ⟨d, hd, e, _⟩ := h3 rfl
      rw [e]
      intro e2
      have := tableName_inj e2
      omega
    | succ i =>
      simp at hi hj
      by_cases ha : a = ""
      · rw [if_pos ha] at hm hm'
        simp at hm hm'
        exact ih _ i j m m' (by omega) hi hj hm hm'
      · rw [if_neg ha] at hm hm'
        simp at hm hm'
        exact ih _ i j m m' (by omega) hi hj hm hm'

/-! ### offsets -/

variable {R : Type} [CommRing R] [DecidableEq R]

theorem linOffset_eval {p q : Lin R} {o : R} (h : linOffset p q o = true) (x : Nat) : p.eval x = q.eval x + o := by
  simp only [linOffset, decide_eq_true_eq] at h
  obtain ⟨h1, h2, h3, h4⟩ := h
  simp only [Lin.eval, ← h1, ← h2, ← h3, ← h4]
  ring

theorem secOffset_lookup {o : R} (x : Nat) : ∀ {s r : List (Nat × Lin R)}, s.length = r.length → secOffsetLoop s r o = true →
    (∃ p q, lookup s x = some p ∧ lookup r x = some q ∧ p.eval x = q.eval x + o) ∨ (lookup s x = none ∧ lookup r x = none)
  | [], [], _, _ => .inr ⟨rfl, rfl⟩
  | (a, p) :: s, (b, q) :: r, hl, h => by
    unfold secOffsetLoop at h
    split at h
    · simp at h
    · rename_i hab
      split at h
      · simp at h
      · rename_i hpq
        obtain rfl : b = a := by simpa using hab
        have hpq' : linOffset p q o = true := by simpa using hpq
        have ih := secOffset_lookup x (by simpa using hl) h
        simp only [lookup]
        by_cases hx : b ≤ x
        · rw [if_pos hx, if_pos hx]
          left
          rcases ih with ⟨p', q', e1, e2, e3⟩ | ⟨e1, e2⟩
          · rw [e1, e2]; exact ⟨p', q', rfl, rfl, e3⟩
          · rw [e1, e2]; exact ⟨p, q, rfl, rfl, linOffset_eval hpq' x⟩
        · rw [if_neg hx, if_neg hx]
          right; exact ⟨rfl, rfl⟩

theorem lookup_map (g : Lin R → Lin R) (x : Nat) : ∀ s : List (Nat × Lin R),
    lookup (s.map fun q => (q.1, g q.2)) x = (lookup s x).map g
  | [] => rfl
  | (a, p) :: s => by
    simp only [List.map_cons, lookup, lookup_map g x s]
    split
    · match lookup s x with
      | none => rfl
      | some _ => rfl
    · rfl

end Verif.Index
