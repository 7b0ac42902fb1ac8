import Verif.Library.LemmasCall
import Mathlib.Tactic.Ring

/-
Sparse matrices, sparsity patterns and temporary arrays in the evaluation of compiled models.
-/
namespace Verif.Library.Call

variable {R α β : Type}

theorem position_lt {i j nr nc : Nat} (hi : i < nr) (hj : j < nc) : i * nc + j < nr * nc := by
  calc i * nc + j < i * nc + nc := by omega
    _ = (i + 1) * nc := by ring
    _ ≤ nr * nc := Nat.mul_le_mul_right _ hi

theorem position_inj {i j i' j' nc : Nat} (hj : j < nc) (hj' : j' < nc) (h : i * nc + j = i' * nc + j') : i = i' ∧ j = j' := by
  have h1 : (i * nc + j) / nc = (i' * nc + j') / nc := by rw [h]
  have h2 : (i * nc + j) % nc = (i' * nc + j') % nc := by rw [h]
  have hn : 0 < nc := by omega
  rw [Nat.add_comm, Nat.add_mul_div_right _ _ hn, Nat.div_eq_of_lt hj, Nat.add_comm, Nat.add_comm (i' * nc), Nat.add_mul_div_right _ _ hn,
    Nat.div_eq_of_lt hj'] at h1
  rw [Nat.add_comm, Nat.add_mul_mod_self_right, Nat.mod_eq_of_lt hj, Nat.add_comm (i' * nc), Nat.add_mul_mod_self_right,
    Nat.mod_eq_of_lt hj'] at h2
  exact ⟨by omega, h2⟩

theorem Table.Ok.entry {t : Table} {nr nc : Nat} (h : t.Ok nr nc) {e : Nat} (he : e < t.rows.length) :
    ∃ i j, t.rows[e]? = some i ∧ t.cols[e]? = some j ∧ i < nr ∧ j < nc := by
  have h1 := List.getElem?_eq_getElem he
  have h2 := List.getElem?_eq_getElem (l := t.cols) (i := e) (by rw [h.size]; exact he)
  exact ⟨_, _, h1, h2, h.rows _ (List.mem_of_getElem? h1), h.cols _ (List.mem_of_getElem? h2)⟩

theorem scatter_ok [Zero R] {t : Table} {nr nc : Nat} (ht : t.Ok nr nc) {vals : List R} (hv : vals.length = t.rows.length) :
    ∀ {e : Nat}, e ≤ t.rows.length → ∃ mat, scatter t nc vals e (List.replicate (nr * nc) 0) = some mat ∧ mat.length = nr * nc ∧
      ∀ i j, i < nr → j < nc → (∀ e', e' < e → t.At e' i j → mat[i * nc + j]? = vals[e']?) ∧
        ((∀ e', e' < e → ¬ t.At e' i j) → mat[i * nc + j]? = some 0)
  | 0, _ => ⟨_, rfl, by simp, fun i j hi hj => ⟨fun _ h => absurd h (Nat.not_lt_zero _), fun _ => by
      rw [List.getElem?_replicate, if_pos (position_lt hi hj)]⟩⟩
  | e + 1, he => by
    obtain ⟨mat, h1, h2, h3⟩ := scatter_ok (e := e) ht hv (by omega)
    obtain ⟨a, b, ha, hb, ha', hb'⟩ := ht.entry (e := e) (by omega)
    have hve : vals[e]? = some (vals[e]'(by omega)) := List.getElem?_eq_getElem _
    have hp := position_lt ha' hb'
    refine ⟨mat.set (a * nc + b) (vals[e]'(by omega)), ?_, by rw [List.length_set, h2], fun i j hi hj => ⟨fun e' he' hat => ?_, fun hno => ?_⟩⟩
    · simp only [scatter, h1, ha, hb, hve, h2, if_pos hp]
    · by_cases hee : e' = e
      · subst hee
        obtain ⟨h4, h5⟩ := hat
        rw [ha, Option.some_inj] at h4
        rw [hb, Option.some_inj] at h5
        subst h4 h5
        rw [List.getElem?_set_self (by omega), hve]
      · rw [List.getElem?_set_ne, (h3 i j hi hj).1 e' (by omega) hat]
        intro hc
        obtain ⟨rfl, rfl⟩ := position_inj hb' hj hc
        exact hee (ht.single _ _ _ _ hat ⟨ha, hb⟩)
    · rw [List.getElem?_set_ne, (h3 i j hi hj).2 fun e' he' => hno e' (by omega)]
      intro hc
      obtain ⟨rfl, rfl⟩ := position_inj hb' hj hc
      exact hno e (by omega) ⟨ha, hb⟩

theorem at_lt {t : Table} {e i j : Nat} (h : t.At e i j) : e < t.rows.length := (List.getElem?_eq_some_iff.1 h.1).1

theorem scatter_dense [Zero R] {t : Table} {nr nc : Nat} (ht : t.Ok nr nc) {vals : List R} (hv : vals.length = t.rows.length) :
    ∃ mat, scatter t nc vals t.rows.length (List.replicate (nr * nc) 0) = some mat ∧ Dense t vals nr nc mat := by
  obtain ⟨mat, h1, h2, h3⟩ := scatter_ok ht hv (Nat.le_refl _)
  exact ⟨mat, h1, h2, fun i j hi hj => ⟨fun e he => (h3 i j hi hj).1 e (at_lt he) he, fun h => (h3 i j hi hj).2 fun e _ => h e⟩⟩

theorem createDense_ok [Zero R] {t : Table} {nr nc : Nat} (ht : t.Ok nr nc) {vals : List R} (hv : vals.length = t.rows.length) {s : St R} {p : Ptr}
    (hp : Holds s.heap p vals) {mat : View} (hm : mat.Exists s.heap) (hs : mat.size = nr * nc) :
    ∃ H' l, createDense p nr nc t t.rows.length mat s = .ok () { s with heap := H' } ∧ Dense t vals nr nc l ∧ Holds H' mat.data l ∧
      OnlyIn mat s.heap H' := by
  obtain ⟨l, h1, h2⟩ := scatter_dense ht hv
  obtain ⟨old, h3, h4⟩ := holds_of_view hm
  obtain ⟨H', h5, h6, h7⟩ := write_of_exists (vs := l) hm (h2.1.trans hs.symm)
  refine ⟨H', l, ?_, h2, h6, h7⟩
  rw [createDense, known_bind, if_pos (by simpa using hs), get_bind]
  have h8 := read_of_holds hp
  have h9 := read_of_holds h4
  rw [hv] at h8
  rw [h3] at h9
  rw [hs] at h9 ⊢
  simp only [h8, h9, h1, store, h5]

theorem createDense_error [Zero R] {t : Table} {nr nc nnz : Nat} {s : St R} {p : Ptr} {mat : View} (hs : mat.size ≠ nr * nc) :
    createDense p nr nc t nnz mat s = .error s := by
  rw [createDense, known_bind, if_neg (by simpa using hs)]

/-! ### sparsity -/

theorem loadBool_ok {t : Table} {nr nc : Nat} (ht : t.Ok nr nc) : ∀ {e : Nat}, e ≤ t.rows.length →
    ∃ l, loadBool t nr nc e = some l ∧ l.length = nr * nc ∧
      ∀ i j, i < nr → j < nc → (l[i * nc + j]? = some true ↔ ∃ e', e' < e ∧ t.At e' i j)
  | 0, _ => ⟨_, rfl, by simp, fun i j hi hj => by
      rw [List.getElem?_replicate, if_pos (position_lt hi hj)]; simp⟩
  | e + 1, he => by
    obtain ⟨l, h1, h2, h3⟩ := loadBool_ok (e := e) ht (by omega)
    obtain ⟨a, b, ha, hb, ha', hb'⟩ := ht.entry (e := e) (by omega)
    have hp := position_lt ha' hb'
    refine ⟨l.set (a * nc + b) true, by simp only [loadBool, h1, ha, hb, h2, if_pos hp], by rw [List.length_set, h2], fun i j hi hj => ?_⟩
    by_cases hc : a * nc + b = i * nc + j
    · obtain ⟨rfl, rfl⟩ := position_inj hb' hj hc
      rw [List.getElem?_set_self (by omega)]
      exact ⟨fun _ => ⟨e, by omega, ha, hb⟩, fun _ => rfl⟩
    · rw [List.getElem?_set_ne hc, h3 i j hi hj]
      constructor
      · rintro ⟨e', h4, h5⟩; exact ⟨e', by omega, h5⟩
      · rintro ⟨e', h4, h5⟩
        refine ⟨e', ?_, h5⟩
        by_contra h6
        obtain rfl : e' = e := by omega
        have h7 := h5.1
        have h8 := h5.2
        rw [ha, Option.some_inj] at h7
        rw [hb, Option.some_inj] at h8
        subst h7 h8
        exact hc rfl

theorem mem_insertSet {j k : Nat} : ∀ {l : List Nat}, k ∈ insertSet j l ↔ k = j ∨ k ∈ l
  | [] => by simp [insertSet]
  | a :: l => by
    simp only [insertSet]
    split
    · simp
    · split
      · rename_i h; subst h; simp
      · simp only [List.mem_cons, mem_insertSet (l := l)]
        constructor <;> (rintro (h | h | h) <;> simp [h])

theorem sorted_insertSet {j : Nat} : ∀ {l : List Nat}, l.Pairwise (· < ·) → (insertSet j l).Pairwise (· < ·)
  | [], _ => by simp [insertSet]
  | a :: l, h => by
    obtain ⟨h1, h2⟩ := List.pairwise_cons.1 h
    simp only [insertSet]
    split
    · rename_i hj
      exact List.pairwise_cons.2 ⟨fun k hk => by
        rcases List.mem_cons.1 hk with rfl | hk
        · exact hj
        · have := h1 k hk; omega, h⟩
    · split
      · exact h
      · refine List.pairwise_cons.2 ⟨fun k hk => ?_, sorted_insertSet h2⟩
        rcases mem_insertSet.1 hk with rfl | hk
        · omega
        · exact h1 k hk

theorem loadSet_ok {t : Table} {nr nc : Nat} (ht : t.Ok nr nc) : ∀ {e : Nat}, e ≤ t.rows.length →
    ∃ l, loadSet t nr e = some l ∧ l.length = nr ∧
      ∀ i c, l[i]? = some c → c.Pairwise (· < ·) ∧ ∀ j, j ∈ c ↔ ∃ e', e' < e ∧ t.At e' i j
  | 0, _ => ⟨_, rfl, by simp, fun i c hc => by
      rw [List.getElem?_replicate] at hc
      split at hc
      · cases hc; simp
      · cases hc⟩
  | e + 1, he => by
    obtain ⟨l, h1, h2, h3⟩ := loadSet_ok (e := e) ht (by omega)
    obtain ⟨a, b, ha, hb, ha', hb'⟩ := ht.entry (e := e) (by omega)
    have hla : l[a]? = some (l[a]'(by omega)) := List.getElem?_eq_getElem _
    refine ⟨l.set a (insertSet b (l[a]'(by omega))), by simp only [loadSet, h1, ha, hb, hla], by rw [List.length_set, h2], fun i c hc => ?_⟩
    by_cases hi : i = a
    · subst hi
      rw [List.getElem?_set_self (by omega), Option.some_inj] at hc
      subst hc
      obtain ⟨h4, h5⟩ := h3 i _ hla
      refine ⟨sorted_insertSet h4, fun j => ?_⟩
      rw [mem_insertSet, h5]
      constructor
      · rintro (rfl | ⟨e', h6, h7⟩)
        · exact ⟨e, by omega, ha, hb⟩
        · exact ⟨e', by omega, h7⟩
      · rintro ⟨e', h6, h7⟩
        by_cases hee : e' = e
        · subst hee
          have := h7.2
          rw [hb, Option.some_inj] at this
          exact .inl this.symm
        · exact .inr ⟨e', by omega, h7⟩
    · rw [List.getElem?_set_ne (Ne.symm hi)] at hc
      obtain ⟨h4, h5⟩ := h3 i c hc
      refine ⟨h4, fun j => ?_⟩
      rw [h5]
      constructor
      · rintro ⟨e', h6, h7⟩; exact ⟨e', by omega, h7⟩
      · rintro ⟨e', h6, h7⟩
        refine ⟨e', ?_, h7⟩
        by_contra h8
        obtain rfl : e' = e := by omega
        have := h7.1
        rw [ha, Option.some_inj] at this
        exact hi this.symm

theorem anyVariable_ok {vx : List Bool} : ∀ {js : List Nat}, (∀ j ∈ js, j < vx.length) →
    ∃ b, anyVariable vx js = some b ∧ (b = true ↔ ∃ j ∈ js, vx[j]? = some true)
  | [], _ => ⟨false, rfl, by simp⟩
  | j :: js, h => by
    have hj : vx[j]? = some (vx[j]'(h j (by simp))) := List.getElem?_eq_getElem _
    cases hv : vx[j]'(h j (by simp)) with
    | true =>
      rw [hv] at hj
      exact ⟨true, by simp only [anyVariable, hj], by simp [hj]⟩
    | false =>
      rw [hv] at hj
      obtain ⟨b, h1, h2⟩ := anyVariable_ok (js := js) fun k hk => h k (by simp [hk])
      exact ⟨b, by simp only [anyVariable, hj, h1], by simp [h2, hj]⟩

theorem markVariables_ok {rows : List (List Nat)} {vx vy : List Bool} (hr : ∀ r ∈ rows, ∀ j ∈ r, j < vx.length) : ∀ {i : Nat}, i ≤ rows.length →
    i ≤ vy.length → ∃ vy', markVariables rows vx i vy = some vy' ∧ vy'.length = vy.length ∧
      ∀ k, k < vy.length → (vy'[k]? = some true ↔ vy[k]? = some true ∨ k < i ∧ ∃ r, rows[k]? = some r ∧ ∃ j ∈ r, vx[j]? = some true)
  | 0, _, _ => ⟨vy, rfl, rfl, fun k _ => by simp⟩
  | i + 1, h, h' => by
    obtain ⟨vy', h1, h2, h3⟩ := markVariables_ok (i := i) (vy := vy) hr (by omega) (by omega)
    have hi : rows[i]? = some (rows[i]'(by omega)) := List.getElem?_eq_getElem _
    obtain ⟨b, h4, h5⟩ := anyVariable_ok (js := rows[i]'(by omega)) (vx := vx) (hr _ (List.mem_of_getElem? hi))
    have key : ∀ k, k < vy.length → k ≠ i → (vy[k]? = some true ∨ k < i ∧ (∃ r, rows[k]? = some r ∧ ∃ j ∈ r, vx[j]? = some true) ↔
        vy[k]? = some true ∨ k < i + 1 ∧ ∃ r, rows[k]? = some r ∧ ∃ j ∈ r, vx[j]? = some true) := by
      intro k _ hk
      have : k < i + 1 ↔ k < i := by omega
      rw [this]
    cases b with
    | true =>
      refine ⟨vy'.set i true, by simp only [markVariables, h1, hi, h4]; rw [if_pos (by omega)], by rw [List.length_set, h2], fun k hk => ?_⟩
      by_cases hk' : k = i
      · subst hk'
        rw [List.getElem?_set_self (by omega)]
        exact ⟨fun _ => .inr ⟨by omega, _, hi, h5.1 rfl⟩, fun _ => rfl⟩
      · rw [List.getElem?_set_ne (Ne.symm hk'), h3 k hk]
        exact key k hk hk'
    | false =>
      refine ⟨vy', by simp only [markVariables, h1, hi, h4], h2, fun k hk => ?_⟩
      by_cases hk' : k = i
      · subst hk'
        rw [h3 k hk]
        constructor
        · rintro (h | h)
          · exact .inl h
          · exact absurd h.1 (by omega)
        · rintro (h | ⟨-, r, h6, h7⟩)
          · exact .inl h
          · rw [hi, Option.some_inj] at h6
            subst h6
            exact absurd (h5.2 h7) (by simp)
      · rw [h3 k hk]
        exact key k hk hk'

end Verif.Library.Call
