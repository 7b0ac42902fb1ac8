import Verif.Deriv.LemmasDir
import Verif.Deriv.Props
/-
C46: products with directions. `J x i j` is the derivative of equation `i` with respect to variable `j`, `H x w` the Hessian
of the sum of the equations with the weights `w`. The values are a semiring, so rounding is excluded; sums are taken in the
order of the indexes.
-/
namespace Verif.Deriv

theorem firstFn_call {V : Type} [Zero V] [Mul V] (atomics : Bool) (D : List V → Nat → Nat → V) {req : List (Nat × Nat)}
    (hn : req.Nodup) {k : Nat} (hk : grp req k ≠ []) (x : List V) (dx : V) (t : List V) :
    firstFn atomics D req k [x, dx :: t] = some ((grp req k).map fun i => D x k i * dx) := by
  have hg : (k, grp req k) ∈ groups req := mem_groups.2 ⟨rfl, hk⟩
  cases atomics with
  | true =>
    show firstOrderAtomics D req k _ = _
    unfold firstOrderAtomics
    rw [find_groups hg]
  | false =>
    show firstOrder D req k _ = _
    unfold firstOrder
    rw [find_groups hg]
    simp only [organize_ok hn (D x) hg, List.map_map]
    rfl

theorem secondFn_call {V : Type} [Zero V] [Mul V] (atomics : Bool) (H : List V → List V → Nat → Nat → V) (m : Nat)
    {req : List (Nat × Nat)} (hn : req.Nodup) {k : Nat} (hk : grp req k ≠ []) (x : List V) (dx : V) (t w : List V)
    (hw : m ≤ w.length) :
    secondFn atomics H m req k [x, dx :: t, w] = some ((grp req k).map fun i => H x (w.take m) k i * dx) := by
  have hg : (k, grp req k) ∈ groups req := mem_groups.2 ⟨rfl, hk⟩
  cases atomics with
  | true =>
    show secondOrderAtomics H m req k _ = _
    unfold secondOrderAtomics
    rw [find_groups hg]
    simp only [if_pos hw]
  | false =>
    show secondOrder H m req k _ = _
    unfold secondOrder
    rw [find_groups hg]
    simp only [if_pos hw, organize_ok hn (H x (w.take m)) hg, List.map_map]
    rfl

theorem grp_nil {req : List (Nat × Nat)} {k i : Nat} (h : grp req k = []) : (k, i) ∉ req := by
  intro hm
  have := mem_grp.2 hm
  rw [h] at this; cases this

/-- the common part of the generated products -/
theorem product_ok {V : Type} [NonUnitalNonAssocSemiring V] [DecidableEq V] {fn : Fun V} {req : List (Nat × Nat)}
    {stride off size n : Nat} (hs : 0 < stride) (hn : req.Nodup) (hm : ∀ p ∈ req, p.2 < size) (d : Nat → V)
    (args : Nat → Args V) (D : Nat → Nat → V)
    (hfn : ∀ k < n, grp req k ≠ [] → fn k (args k) = some ((grp req k).map fun i => D k i * d k))
    (hD : ∀ k < n, ∀ i < size, (k, i) ∉ req → D k i = 0) {out0 out : Mem V}
    (hc : Cells stride off size out0 out fun _ => 0) (s : List Nat × Nat)
    (hsc : s = scan (fun j => d j != 0) (fun j => ((gen1D (groups req)).lookup j).2) n) :
    ∃ out', (if s.1.isEmpty then .ok (0, out) else
        accum fn (groups req) stride off (s.1.map fun j => (j, args j)) (List.replicate s.2 none) out) = .ok (0, out') ∧
      Cells stride off size out0 out' fun i => sumTo n fun j => D j i * d j := by
  have hnnz : ∀ j, ((gen1D (groups req)).lookup j).2 = (grp req j).length := by
    intro j
    rw [((sparsity_of_position req).2 j).1, grp, List.length_map]
  obtain ⟨h1, h2⟩ := scan_spec (fun j => d j != 0) (fun j => ((gen1D (groups req)).lookup j).2) n
  rw [← hsc] at h1 h2
  have hmem : ∀ j ∈ s.1, j < n ∧ grp req j ≠ [] := by
    intro j hj
    rw [h1, List.mem_filter, Bool.and_eq_true, decide_eq_true_eq] at hj
    refine ⟨List.mem_range.1 hj.1, fun e => ?_⟩
    rw [hnnz, e] at hj
    exact absurd hj.2.2 (by simp)
  have hmem' : ∀ t ∈ s.1.map (fun j => (j, args j)), t.1 ∈ s.1 ∧ t.2 = args t.1 := by
    intro t ht
    obtain ⟨j, hj, rfl⟩ := List.mem_map.1 ht
    exact ⟨hj, rfl⟩
  obtain ⟨out', ha, hcell⟩ := accum_ok (fn := fn) (out0 := out0) hs hn hm (fun t i => D t.1 i * d t.1)
    (s.1.map fun j => (j, args j)) (List.replicate s.2 none) out _
    (fun t ht => (hmem _ (hmem' t ht).1).2)
    (fun t ht => by
      rw [(hmem' t ht).2]
      exact hfn t.1 (hmem _ (hmem' t ht).1).1 (hmem _ (hmem' t ht).1).2)
    (fun t ht => by
      rw [List.length_replicate, ← hnnz]
      exact h2 _ (hmem' t ht).1) hc
  refine ⟨out', ?_, hcell.1, fun i hi => ?_, hcell.2.2⟩
  · by_cases he : s.1.isEmpty = true
    · rw [if_pos he]
      rw [List.isEmpty_iff.1 he] at ha
      exact ha
    · rw [if_neg he]; exact ha
  · rw [hcell.2.1 i hi]
    congr 2
    show List.foldl (addTerm req (fun t i => D t.1 i * d t.1) i) 0 _ = sumTo n fun j => D j i * d j
    rw [fold_terms (req := req) (gv := fun t i => D t.1 i * d t.1) (i := i) _ _ fun t ht hi' => by
      show D t.1 i * d t.1 = 0
      rw [hD t.1 (hmem _ (hmem' t ht).1).1 i hi fun h => hi' (mem_grp.2 h), zero_mul]]
    rw [List.foldl_map, h1]
    refine fold_filter _ (fun j => D j i * d j) n fun j hj hq => ?_
    rw [Bool.and_eq_false_iff] at hq
    rcases hq with hq | hq
    · have : d j = 0 := by simpa using hq
      rw [this, mul_zero]
    · have : grp req j = [] := by
        rw [hnnz] at hq
        simpa using hq
      rw [hD j hj i hi (grp_nil this), zero_mul]

/-! ### the generated functions -/

/-- `forward_one` returns 0 and stores the product of the Jacobian with the direction; the values of order zero and the rest
of the array are not changed. -/
theorem forward_one_partial {V : Type} [NonUnitalNonAssocSemiring V] [DecidableEq V] (atomics : Bool)
    (J : List V → Nat → Nat → V) {els : List (Nat × Nat)} (hn : els.Nodup) {n m : Nat} (hm : ∀ p ∈ els, p.1 < m)
    {tx : List V} (htx : 2 * n ≤ tx.length) {ty : Mem V} (hty : 2 * m ≤ ty.length)
    {x : List V} (hx : x = (List.range n).map fun j => tx.getD (j * 2) 0)
    (hJ : ∀ i < m, ∀ j < n, (i, j) ∉ els → J x i j = 0) :
    ∃ ty', forwardOne (firstFn atomics (byKey true J) (keyed true els)) (groups (keyed true els)) n m tx ty = .ok (0, ty') ∧
      ty'.length = ty.length ∧
      (∀ i < m, ty'[i * 2 + 1]? = some (some (sumTo n fun j => J x i j * tx.getD (j * 2 + 1) 0))) ∧
      ∀ l, (∀ i < m, l ≠ i * 2 + 1) → ty'[l]? = ty[l]? := by
  replace hx : x = evens n tx := hx
  subst hx
  have hn' := keyed_nodup (forward := true) hn
  obtain ⟨ty1, hz, hc⟩ := zeros_ok (stride := 2) (off := 1) (m := m) (out := ty) (fun i hi => by omega)
  have hmem : ∀ {j i}, (j, i) ∈ keyed true els ↔ (i, j) ∈ els := by
    intro j i
    simp only [keyed, if_true, List.mem_map, Prod.mk.injEq]
    constructor
    · rintro ⟨p, hp, rfl, rfl⟩; exact hp
    · intro h; exact ⟨(i, j), h, rfl, rfl⟩
  obtain ⟨ty', h1, h2⟩ := product_ok (fn := firstFn atomics (byKey true J) (keyed true els)) (req := keyed true els)
    (stride := 2) (off := 1) (size := m) (n := n) (by omega) hn'
    (fun p hp => hm _ ((hmem (j := p.1) (i := p.2)).1 hp)) (fun j => tx.getD (j * 2 + 1) 0)
    (fun j => [evens n tx, tx.drop (j * 2 + 1)]) (fun j i => J (evens n tx) i j)
    (fun k hk hg => by
      rw [drop_getD tx (k * 2 + 1) (by omega)]
      exact firstFn_call atomics (byKey true J) hn' hg _ _ _)
    (fun k hk i hi hno => hJ i hi k hk fun h => hno (hmem.2 h)) hc _ rfl
  refine ⟨ty', ?_, h2⟩
  rw [forwardOne, if_neg (by omega), hz]
  exact h1

/-- `reverse_one` returns 0 and stores the product of the weights with the Jacobian. -/
theorem reverse_one_partial {V : Type} [NonUnitalNonAssocSemiring V] [DecidableEq V] (atomics : Bool)
    (J : List V → Nat → Nat → V) {els : List (Nat × Nat)} (hn : els.Nodup) {n m : Nat} (hm : ∀ p ∈ els, p.2 < n)
    (x : List V) {px : Mem V} (hpx : n ≤ px.length) {py : List V} (hpy : m ≤ py.length)
    (hJ : ∀ i < m, ∀ j < n, (i, j) ∉ els → J x i j = 0) :
    ∃ px', reverseOne (firstFn atomics J els) (groups els) n m x px py = .ok (0, px') ∧ px'.length = px.length ∧
      (∀ j < n, px'[j]? = some (some (sumTo m fun i => J x i j * py.getD i 0))) ∧
      ∀ l, n ≤ l → px'[l]? = px[l]? := by
  obtain ⟨px1, hz, hc⟩ := zeros_ok (stride := 1) (off := 0) (m := n) (out := px) (fun i hi => by omega)
  obtain ⟨px', h1, h2, h3, h4⟩ := product_ok (fn := firstFn atomics J els) (req := els)
    (stride := 1) (off := 0) (size := n) (n := m) (by omega) hn hm (fun i => py.getD i 0)
    (fun i => [x, py.drop i]) (fun i j => J x i j)
    (fun k hk hg => by
      rw [drop_getD py k (by omega)]
      exact firstFn_call atomics J hn hg _ _ _)
    (fun k hk i hi hno => hJ k hk i hi hno) hc _ rfl
  refine ⟨px', ?_, h2, fun j hj => ?_, fun l hl => h4 l fun i hi => by omega⟩
  · rw [reverseOne, if_neg (by omega), hz]
    exact h1
  · have := h3 j hj
    simpa using this

/-- `reverse_two` returns 0 and stores the product of the Hessian of the weighted sum with the direction, in the places of
order zero; the others are not changed. `H` is zero outside of the elements and for weights which are all zero. -/
theorem reverse_two_partial {V : Type} [NonUnitalNonAssocSemiring V] [DecidableEq V] (atomics : Bool)
    (H : List V → List V → Nat → Nat → V) {els : List (Nat × Nat)} (hn : els.Nodup) {n m : Nat} (hm : ∀ p ∈ els, p.2 < n)
    {tx : List V} (htx : 2 * n ≤ tx.length) {px : Mem V} (hpx : 2 * n ≤ px.length) {py : List V} (hpy : 2 * m ≤ py.length)
    {x : List V} (hx : x = (List.range n).map fun j => tx.getD (j * 2) 0)
    (hz : ∀ i < m, py.getD (i * 2) 0 = 0) {w : List V} (hw : w = (List.range m).map fun i => py.getD (i * 2 + 1) 0)
    (hH : ∀ k < n, ∀ j < n, (k, j) ∉ els → H x w k j = 0)
    (hH0 : (∀ a ∈ w, a = 0) → ∀ k j, H x w k j = 0) :
    ∃ px', reverseTwo (secondFn atomics H m els) (groups els) n m tx px py = .ok (0, px') ∧ px'.length = px.length ∧
      (∀ j < n, px'[j * 2]? = some (some (sumTo n fun k => H x w k j * tx.getD (k * 2 + 1) 0))) ∧
      ∀ l, (∀ j < n, l ≠ j * 2) → px'[l]? = px[l]? := by
  replace hx : x = evens n tx := hx
  subst hx
  obtain ⟨px1, hz1, hc⟩ := zeros_ok (stride := 2) (off := 0) (m := n) (out := px) (fun i hi => by omega)
  have hwl : w.length = m := by rw [hw]; simp
  have hany : ((List.range m).any fun i => py.getD (i * 2) 0 != 0) = false := by
    rw [List.any_eq_false]
    intro i hi
    rw [hz i (List.mem_range.1 hi)]; simp
  have hred : reverseTwo (secondFn atomics H m els) (groups els) n m tx px py =
      (if w.all (· == 0) then .ok (0, px1) else
        (let s := scan (fun j => tx.getD (j * 2 + 1) 0 != 0) (fun j => ((gen1D (groups els)).lookup j).2) n
        if s.1.isEmpty then .ok (0, px1)
        else accum (secondFn atomics H m els) (groups els) 2 0
          (s.1.map fun j => (j, [evens n tx, tx.drop (j * 2 + 1), w])) (List.replicate s.2 none) px1)) := by
    rw [reverseTwo, if_neg (by omega), if_neg (by rw [hany]; simp), hz1, hw]
  rw [hred]
  by_cases h0 : w.all (· == 0) = true
  · rw [if_pos h0]
    have h0' : ∀ a ∈ w, a = 0 := fun a ha => by simpa using List.all_eq_true.1 h0 a ha
    refine ⟨px1, rfl, hc.1, fun j hj => ?_, fun l hl => hc.2.2 l fun i hi => by simpa using hl i hi⟩
    have := hc.2.1 j hj
    rw [Nat.add_zero] at this
    rw [this, sumTo_zero fun k _ => by rw [hH0 h0', zero_mul]]
  · rw [if_neg h0]
    obtain ⟨px', h1, h2, h3, h4⟩ := product_ok (fn := secondFn atomics H m els) (req := els)
      (stride := 2) (off := 0) (size := n) (n := n) (by omega) hn hm (fun j => tx.getD (j * 2 + 1) 0)
      (fun j => [evens n tx, tx.drop (j * 2 + 1), w]) (fun k j => H (evens n tx) w k j)
      (fun k hk hg => by
        rw [drop_getD tx (k * 2 + 1) (by omega)]
        have := secondFn_call atomics H m hn hg (evens n tx) (tx.getD (k * 2 + 1) 0) (tx.drop (k * 2 + 1 + 1)) w
          (Nat.le_of_eq hwl.symm)
        rwa [List.take_of_length_le (Nat.le_of_eq hwl)] at this)
      (fun k hk i hi hno => hH k hk i hi hno) hc _ rfl
    exact ⟨px', h1, h2, fun j hj => by simpa using h3 j hj, fun l hl => h4 l fun i hi => by simpa using hl i hi⟩

/-- `reverse_two` returns 1 without any change when a weight of order zero is given. -/
theorem reverse_two_rejects {V : Type} [NonUnitalNonAssocSemiring V] [DecidableEq V] (fn : Fun V)
    (elements : List (Nat × List Nat)) {n m : Nat} {tx : List V} (htx : 2 * n ≤ tx.length) (px : Mem V) {py : List V}
    (hpy : 2 * m ≤ py.length) {i : Nat} (hi : i < m) (hne : py.getD (i * 2) 0 ≠ 0) :
    reverseTwo fn elements n m tx px py = .ok (1, px) := by
  rw [reverseTwo, if_neg (by omega), if_pos]
  rw [List.any_eq_true]
  exact ⟨i, List.mem_range.2 hi, by simpa using hne⟩

/-! ### the methods which take the indexes of a sparse direction -/

theorem sparseProduct_ok {V : Type} [NonUnitalNonAssocSemiring V] {fn : Fun V} {req : List (Nat × Nat)} {size k : Nat}
    (hn : req.Nodup) (hm : ∀ p ∈ req, p.2 < size) (hk : size ≤ k) (x : List V) {idx : List Nat} {tx1 : List V} (w : Args V)
    (htx : idx.length ≤ tx1.length) (D : Nat → Nat → V) (hidx : ∀ j ∈ idx, grp req j ≠ [])
    (hfn : ∀ j ∈ idx, ∀ dx t, fn j (x :: (dx :: t) :: w) = some ((grp req j).map fun i => D j i * dx))
    (hD : ∀ j ∈ idx, ∀ i < size, (j, i) ∉ req → D j i = 0) {out : Mem V} (hout : size ≤ out.length) :
    ∃ out', sparseProduct fn (groups req) size k x idx tx1 w out = .ok out' ∧ out'.length = out.length ∧
      (∀ i < size, out'[i]? = some (some (sumTo idx.length fun e => D (idx.getD e 0) i * tx1.getD e 0))) ∧
      ∀ l, size ≤ l → out'[l]? = out[l]? := by
  obtain ⟨out1, hz, hc⟩ := zeros_ok (stride := 1) (off := 0) (m := size) (out := out) (fun i hi => by omega)
  have hcall : ∀ t ∈ calls x tx1 w idx 0, t.1 ∈ idx ∧ ∃ e < tx1.length, t.2 = x :: (tx1.getD e 0 :: tx1.drop (e + 1)) :: w := by
    intro t ht
    obtain ⟨e, h1, h2⟩ := mem_calls ht
    have he := (List.getElem?_eq_some_iff.1 h1).1
    refine ⟨List.mem_of_getElem? h1, e, by omega, ?_⟩
    rw [h2, Nat.zero_add, drop_getD tx1 e (by omega)]
  let gv : Nat × Args V → Nat → V := fun t i => D t.1 i * ((t.2.getD 1 []).getD 0 0)
  obtain ⟨out', ha, hcell⟩ := accum_ok (fn := fn) (out0 := out) (stride := 1) (off := 0) (by omega) hn hm gv
    (calls x tx1 w idx 0) (List.replicate k none) out1 _
    (fun t ht => hidx _ (hcall t ht).1)
    (fun t ht => by
      obtain ⟨h1, e, _, h2⟩ := hcall t ht
      rw [h2, hfn t.1 h1]
      congr 2
      funext i
      simp only [gv, h2]
      rfl)
    (fun t ht => by rw [List.length_replicate]; exact Nat.le_trans (grp_length hn hm _) hk) hc
  refine ⟨out', ?_, hcell.1, fun i hi => ?_, fun l hl => hcell.2.2 l fun i hi => by omega⟩
  · rw [sparseProduct, hz]
    simp only
    rw [ha]
    rfl
  · have := hcell.2.1 i hi
    rw [Nat.mul_one, Nat.add_zero] at this
    rw [this]
    congr 2
    show List.foldl (addTerm req gv i) 0 _ = _
    rw [fold_terms (req := req) (gv := gv) (i := i) _ _ fun t ht hi' => by
      show D t.1 i * _ = 0
      rw [hD t.1 (hcall t ht).1 i hi fun h => hi' (mem_grp.2 h), zero_mul]]
    have := fold_calls gv i x tx1 w idx 0 0 (fun e => D (idx.getD e 0) i * tx1.getD e 0) (fun e j he => by
      have hlt := (List.getElem?_eq_some_iff.1 he).1
      rw [Nat.zero_add, drop_getD tx1 e (by omega)]
      simp only [gv, List.getD_eq_getElem?_getD, he]
      rfl) rfl
    rw [Nat.zero_add] at this
    exact this

/-- `ForwardOne` with a sparse direction, if every column it names has elements. -/
theorem sparse_forward_one_partial {V : Type} [NonUnitalNonAssocSemiring V] (atomics : Bool) (J : List V → Nat → Nat → V)
    {els : List (Nat × Nat)} (hn : els.Nodup) {m : Nat} (hm : ∀ p ∈ els, p.1 < m) (x : List V) {idx : List Nat}
    {tx1 : List V} (htx : idx.length ≤ tx1.length) (hidx : ∀ j ∈ idx, ∃ i, (i, j) ∈ els)
    (hJ : ∀ j ∈ idx, ∀ i < m, (i, j) ∉ els → J x i j = 0) {ty : Mem V} (hty : m ≤ ty.length) :
    ∃ ty', sparseProduct (firstFn atomics (byKey true J) (keyed true els)) (groups (keyed true els)) m m x idx tx1 [] ty =
        .ok ty' ∧ ty'.length = ty.length ∧
      (∀ i < m, ty'[i]? = some (some (sumTo idx.length fun e => J x i (idx.getD e 0) * tx1.getD e 0))) ∧
      ∀ l, m ≤ l → ty'[l]? = ty[l]? := by
  have hn' := keyed_nodup (forward := true) hn
  have hmem : ∀ {j i}, (j, i) ∈ keyed true els ↔ (i, j) ∈ els := by
    intro j i
    simp only [keyed, if_true, List.mem_map, Prod.mk.injEq]
    constructor
    · rintro ⟨p, hp, rfl, rfl⟩; exact hp
    · intro h; exact ⟨(i, j), h, rfl, rfl⟩
  have hg : ∀ j ∈ idx, grp (keyed true els) j ≠ [] := fun j hj => by
    obtain ⟨i, hi⟩ := hidx j hj
    exact List.ne_nil_of_mem (mem_grp.2 (hmem.2 hi))
  exact sparseProduct_ok hn' (fun p hp => hm _ ((hmem (j := p.1) (i := p.2)).1 hp)) (Nat.le_refl _) x [] htx
    (fun j i => J x i j) hg (fun j hj dx t => firstFn_call atomics (byKey true J) hn' (hg j hj) _ _ _)
    (fun j hj i hi hno => hJ j hj i hi fun h => hno (hmem.2 h)) hty

/-- `ReverseOne` with sparse weights, if every row they name has elements. -/
theorem sparse_reverse_one_partial {V : Type} [NonUnitalNonAssocSemiring V] (atomics : Bool) (J : List V → Nat → Nat → V)
    {els : List (Nat × Nat)} (hn : els.Nodup) {n : Nat} (hm : ∀ p ∈ els, p.2 < n) (x : List V) {idx : List Nat}
    {py : List V} (hpy : idx.length ≤ py.length) (hidx : ∀ i ∈ idx, ∃ j, (i, j) ∈ els)
    (hJ : ∀ i ∈ idx, ∀ j < n, (i, j) ∉ els → J x i j = 0) {px : Mem V} (hpx : n ≤ px.length) :
    ∃ px', sparseProduct (firstFn atomics J els) (groups els) n n x idx py [] px = .ok px' ∧ px'.length = px.length ∧
      (∀ j < n, px'[j]? = some (some (sumTo idx.length fun e => J x (idx.getD e 0) j * py.getD e 0))) ∧
      ∀ l, n ≤ l → px'[l]? = px[l]? := by
  have hg : ∀ i ∈ idx, grp els i ≠ [] := fun i hi => by
    obtain ⟨j, hj⟩ := hidx i hi
    exact List.ne_nil_of_mem (mem_grp.2 hj)
  exact sparseProduct_ok hn hm (Nat.le_refl _) x [] hpy (fun i j => J x i j) hg
    (fun i hi dx t => firstFn_call atomics J hn (hg i hi) _ _ _) hJ hpx

/-- `ReverseTwo` with a sparse direction, if every row it names has elements. -/
theorem sparse_reverse_two_partial {V : Type} [NonUnitalNonAssocSemiring V] (atomics : Bool)
    (H : List V → List V → Nat → Nat → V) {els : List (Nat × Nat)} (hn : els.Nodup) {n : Nat} (hm : ∀ p ∈ els, p.2 < n)
    (x w : List V) {idx : List Nat} {tx1 : List V} (htx : idx.length ≤ tx1.length) (hidx : ∀ k ∈ idx, ∃ j, (k, j) ∈ els)
    (hH : ∀ k ∈ idx, ∀ j < n, (k, j) ∉ els → H x w k j = 0) {px : Mem V} (hpx : n ≤ px.length) :
    ∃ px', sparseProduct (secondFn atomics H w.length els) (groups els) n n x idx tx1 [w] px = .ok px' ∧
      px'.length = px.length ∧
      (∀ j < n, px'[j]? = some (some (sumTo idx.length fun e => H x w (idx.getD e 0) j * tx1.getD e 0))) ∧
      ∀ l, n ≤ l → px'[l]? = px[l]? := by
  have hg : ∀ i ∈ idx, grp els i ≠ [] := fun i hi => by
    obtain ⟨j, hj⟩ := hidx i hi
    exact List.ne_nil_of_mem (mem_grp.2 hj)
  refine sparseProduct_ok hn hm (Nat.le_refl _) x [w] htx (fun k j => H x w k j) hg (fun k hk dx t => ?_) hH hpx
  have := secondFn_call atomics H w.length hn (hg k hk) x dx t w (Nat.le_refl _)
  rwa [List.take_length] at this

/-! ### what is wrong -/

/-- A direction which names a column without elements makes `ForwardOne` fail, although the product is defined: the Jacobian
[[1, 0]] and the direction (0, 3), whose product is 0. The generated `forward_one` gives 0. -/
theorem sparse_forward_one_counterexample :
    sparseProduct (firstFn (V := Int) false (byKey true fun _ _ j => if j = 0 then 1 else 0) (keyed true [(0, 0)]))
      (groups (keyed true [(0, 0)])) 1 1 [5, 5] [1] [3] [] [none] = .error .exception ∧
    forwardOne (firstFn (V := Int) false (byKey true fun _ _ j => if j = 0 then 1 else 0) (keyed true [(0, 0)]))
      (groups (keyed true [(0, 0)])) 2 1 [5, 0, 5, 3] [none, none] = .ok (0, [none, some 0]) := by decide +kernel

/-- An element requested twice is added twice by the functions generated when atomic functions are used: 2 instead of 1. -/
theorem forward_one_repeated_counterexample :
    forwardOne (firstFn (V := Int) true (byKey true fun _ _ _ => 1) (keyed true [(0, 0), (0, 0)]))
      (groups (keyed true [(0, 0), (0, 0)])) 1 1 [5, 1] [none, none] = .ok (0, [none, some 2]) := by decide +kernel

/-- An element requested twice is written after the end of the local array of `ForwardOne`. -/
theorem sparse_forward_one_bounds_counterexample :
    sparseProduct (firstFn (V := Int) false (byKey true fun _ _ _ => 1) (keyed true [(0, 0), (0, 0)]))
      (groups (keyed true [(0, 0), (0, 0)])) 1 1 [5] [0] [1] [] [none] = .error .ub := by decide +kernel

/-! ### non-vacuity -/

/-- the Jacobian [[1, 2, 0], [0, 0, 6]] -/
def jac23 : List Int → Nat → Nat → Int := fun _ i j => if (i, j) ∈ [(0, 0), (0, 1), (1, 2)] then 3 * i + j + 1 else 0

example : ∃ ty', forwardOne (firstFn false (byKey true jac23) (keyed true [(1, 2), (0, 0), (0, 1)]))
      (groups (keyed true [(1, 2), (0, 0), (0, 1)])) 3 2 [7, 10, 7, 0, 7, 100] [some 4, none, none, none] = .ok (0, ty') ∧
    ty'.length = 4 ∧ (∀ i < 2, ty'[i * 2 + 1]? = some (some (sumTo 3 fun j =>
      jac23 [7, 7, 7] i j * ([7, 10, 7, 0, 7, 100] : List Int).getD (j * 2 + 1) 0))) ∧
    ∀ l, (∀ i < 2, l ≠ i * 2 + 1) → ty'[l]? = ([some 4, none, none, none] : Mem Int)[l]? :=
  forward_one_partial false jac23 (by decide) (by decide) (by decide) (by decide) rfl (by decide)

example : forwardOne (firstFn true (byKey true jac23) (keyed true [(1, 2), (0, 0), (0, 1)]))
      (groups (keyed true [(1, 2), (0, 0), (0, 1)])) 3 2 [7, 10, 7, 0, 7, 100] [some 4, none, none, none] =
    .ok (0, [some 4, some 10, none, some 600]) := by decide +kernel

example : reverseOne (firstFn false jac23 [(1, 2), (0, 0), (0, 1)]) (groups [(1, 2), (0, 0), (0, 1)]) 3 2 [7, 7, 7]
      [none, none, none] [10, 100] = .ok (0, [some 10, some 20, some 600]) := by decide +kernel

example : reverseTwo (secondFn false hes2 2 [(0, 0), (0, 1), (1, 0)]) (groups [(0, 0), (0, 1), (1, 0)]) 2 2 [7, 1, 7, 10]
      [none, none, none, some 9] [0, 5, 0, 6] = .ok (0, [some 62, none, some 5, some 9]) := by decide +kernel

example : ∃ px', reverseTwo (secondFn false hes2 2 [(0, 0), (0, 1), (1, 0)]) (groups [(0, 0), (0, 1), (1, 0)]) 2 2
      [7, 1, 7, 10] [none, none, none, some 9] [0, 5, 0, 6] = .ok (0, px') ∧ px'.length = 4 ∧
      (∀ j < 2, px'[j * 2]? = some (some (sumTo 2 fun k => hes2 [7, 7] [5, 6] k j *
        ([7, 1, 7, 10] : List Int).getD (k * 2 + 1) 0))) ∧
      ∀ l, (∀ j < 2, l ≠ j * 2) → px'[l]? = ([none, none, none, some 9] : Mem Int)[l]? :=
  reverse_two_partial false hes2 (by decide) (by decide) (by decide) (by decide) (by decide) rfl (by decide) rfl (by decide)
    (fun h => absurd (h 5 (by decide)) (by decide))

example : sparseProduct (firstFn false (byKey true jac23) (keyed true [(1, 2), (0, 0), (0, 1)]))
      (groups (keyed true [(1, 2), (0, 0), (0, 1)])) 2 2 [7, 7, 7] [2, 0] [100, 10] [] [none, none] =
    .ok [some 10, some 600] := by decide +kernel

end Verif.Deriv
