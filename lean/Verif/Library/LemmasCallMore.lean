import Verif.Library.LemmasCallRes

/-
The Hessian of one equation, the marks of variables, and sparsity patterns.
-/
namespace Verif.Library.Call

variable {R α β : Type}

theorem store_new {H : Heap R} {l : List R} {i : Nat} (hi : i < l.length) (v : R) {s : St R} (hs : s.heap = H ++ [l]) {g : Unit → M R β} :
    (store ⟨⟨H.length, i⟩, 1⟩ [v] >>= g) s = g () { s with heap := H ++ [l.set i v] } := by
  have h1 : write s.heap ⟨H.length, i⟩ [v] = some (H ++ [l.set i v]) := by
    rw [hs]
    simp only [write, List.getElem?_append_right (Nat.le_refl _), Nat.sub_self, List.getElem?_cons_zero, List.length_singleton]
    rw [if_pos (by omega), List.set_append_right _ _ (Nat.le_refl _), Nat.sub_self, List.set_cons_zero, Option.some_inj]
    congr 2
    rw [List.set_eq_take_append_cons_drop, if_pos hi]
    simp
  rw [bind_eq]
  simp only [store, h1]

theorem unit_eq [Zero R] [One R] {m i : Nat} {junk : Nat → R} (hj : ∀ k, junk k = 0) : ((List.range m).map junk).set i 1 = unit m i := by
  apply List.ext_getElem?
  intro k
  by_cases hk : k < m
  · rw [unit, List.getElem?_map, List.getElem?_range hk, Option.map_some]
    by_cases hki : k = i
    · subst hki
      rw [List.getElem?_set_self (by simpa using hk), if_pos rfl]
    · rw [List.getElem?_set_ne (Ne.symm hki), List.getElem?_map, List.getElem?_range hk, Option.map_some, if_neg hki, hj]
  · rw [List.getElem?_eq_none (by simp; omega), List.getElem?_eq_none (by simp [unit]; omega)]

section
variable {L : Lib R} (hL : L.Ok) {s : St R} (hs : s.Fits L)
include hL hs

/-- the multipliers are those found in new memory, with a one at the position of the equation -/
theorem hessianOf_gives [One R] {x hess : View} {i : Nat} {xs : List R} (hx : Holds s.heap x.data xs) (hxs : xs.length = x.size)
    (hd : hess.Exists s.heap) :
    Gives s (hessianOf L x i hess s) (i < L.m ∧ s.Usable ∧ L.OneArray ∧ L.hess.isSome ∧ x.size = L.n ∧ hess.size = L.n * L.n) fun _ H' =>
      (∀ f, L.hess = some f → Holds H' hess.data (f.val [xs, ((List.range L.m).map s.junk).set i 1])) ∧ OnlyIn hess s.heap H' := by
  by_cases hi : i < L.m
  · have hs1 : St.Fits L { s with heap := s.heap ++ [((List.range L.m).map s.junk).set i 1] } := ⟨hs.inp, hs.inHess, hs.out⟩
    have hw : Holds (s.heap ++ [((List.range L.m).map s.junk).set i 1]) ⟨s.heap.length, 0⟩ (((List.range L.m).map s.junk).set i 1) :=
      ⟨((List.range L.m).map s.junk).set i 1, by simp, by simp, fun k _ => by simp⟩
    have hg := hessian_gives (s := { s with heap := s.heap ++ [((List.range L.m).map s.junk).set i 1] }) (x := x) (hess := hess)
      (w := ⟨⟨s.heap.length, 0⟩, L.m⟩) hL hs1 (holds_append hx _) hxs hw (by simp) (exists_append hd _)
    have hbody : ∀ {r}, hessian L x ⟨⟨s.heap.length, 0⟩, L.m⟩ hess { s with heap := s.heap ++ [((List.range L.m).map s.junk).set i 1] } = r →
        (store ⟨⟨s.heap.length, i⟩, 1⟩ [1] >>= fun _ => hessian L x ⟨⟨s.heap.length, 0⟩, L.m⟩ hess)
          { s with heap := s.heap ++ [(List.range L.m).map s.junk] } = r := by
      intro r hr
      rw [store_new (l := (List.range L.m).map s.junk) (by simpa using hi) 1 rfl]
      exact hr
    constructor
    · rintro ⟨-, ⟨h1, h2⟩, h3, h4, h5, h6⟩
      obtain ⟨a, s', k1, ⟨k2, k3⟩, k4⟩ := hg.ok ⟨⟨h1, h2⟩, h3, h4, h5, rfl, h6⟩
      refine ⟨(), { s' with heap := s'.heap.take s.heap.length }, ?_, ⟨fun f hf => holds_take (k2 f hf) (view_buf_lt hd), ?_⟩,
        ⟨k4.ready, k4.missing, k4.junk, k4.inp, k4.inHess, k4.out⟩⟩
      · simp only [hessianOf, known_bind, hi, decide_true, if_true]
        exact withArray_ok (hbody k1)
      · have := onlyIn_take k3 s.heap.length
        simpa using this
    · intro h
      obtain ⟨s', k1, k2, k4⟩ := hg.error fun h' => h ⟨hi, h'.1, h'.2.1, h'.2.2.1, h'.2.2.2.1, h'.2.2.2.2.2⟩
      refine ⟨{ s' with heap := s'.heap.take s.heap.length }, ?_, by simp [k2],
        ⟨k4.ready, k4.missing, k4.junk, k4.inp, k4.inHess, k4.out⟩⟩
      simp only [hessianOf, known_bind, hi, decide_true, if_true]
      exact withArray_error (hbody k1)
  · constructor
    · intro h; exact absurd h.1 hi
    · intro _
      refine ⟨s, ?_, rfl, .refl s⟩
      simp only [hessianOf, known_bind, hi, decide_false]
      rfl

omit hL hs in
theorem sparsitySet_ok {t : Table} {nr nc : Nat} (ht : t.Ok nr nc) (hr : s.ready = true) : ∃ l, sparsitySet (some t) nr s = .ok l s ∧ l.length = nr ∧
    ∀ i c, l[i]? = some c → c.Pairwise (· < ·) ∧ ∀ j, j ∈ c ↔ ∃ e, t.At e i j := by
  obtain ⟨l, h1, h2, h3⟩ := loadSet_ok ht (Nat.le_refl _)
  refine ⟨l, ?_, h2, fun i c hc => ⟨(h3 i c hc).1, fun j => ?_⟩⟩
  · simp only [sparsitySet, get_bind, known_bind, defined_bind, hr, if_true, h1]
    rfl
  · rw [(h3 i c hc).2 j]
    exact ⟨fun ⟨e, _, h⟩ => ⟨e, h⟩, fun ⟨e, h⟩ => ⟨e, at_lt h, h⟩⟩

omit hL hs in
theorem sparsityBool_ok {t : Table} {nr nc : Nat} (ht : t.Ok nr nc) (hr : s.ready = true) : ∃ l, sparsityBool (some t) nr nc s = .ok l s ∧
    l.length = nr * nc ∧ ∀ i j, i < nr → j < nc → (l[i * nc + j]? = some true ↔ ∃ e, t.At e i j) := by
  obtain ⟨l, h1, h2, h3⟩ := loadBool_ok ht (Nat.le_refl _)
  refine ⟨l, ?_, h2, fun i j hi hj => ?_⟩
  · simp only [sparsityBool, get_bind, known_bind, defined_bind, hr, if_true, h1]
    rfl
  · rw [h3 i j hi hj]
    exact ⟨fun ⟨e, _, h⟩ => ⟨e, h⟩, fun ⟨e, h⟩ => ⟨e, at_lt h, h⟩⟩

/-- the values are computed before the marks -/
theorem forwardZeroVars_ok {vx vy : List Bool} {x dep : View} {xs : List R} (hx : Holds s.heap x.data xs) (hxs : xs.length = x.size)
    (hd : dep.Exists s.heap) (hu : s.Usable) (h1 : L.OneArray) {f : Fn R} (hf : L.zero = some f) (hn : x.size = L.n) (hm : dep.size = L.m) :
    ∃ s', Holds s'.heap dep.data (f.val [xs]) ∧ OnlyIn dep s.heap s'.heap ∧ Keeps s s' ∧
      (vx = [] → forwardZeroVars L vx vy x dep s = .ok vy s') ∧
      (vx ≠ [] → ¬ (L.n ≤ vx.length ∧ L.m ≤ vy.length ∧ L.jsp.isSome) → forwardZeroVars L vx vy x dep s = .error s') ∧
      (∀ t, vx ≠ [] → L.n ≤ vx.length → L.m ≤ vy.length → L.jsp = some t → ∃ vy', forwardZeroVars L vx vy x dep s = .ok vy' s' ∧
        vy'.length = vy.length ∧ ∀ k, k < vy.length → (vy'[k]? = some true ↔ vy[k]? = some true ∨ k < L.m ∧ ∃ e j, t.At e k j ∧ vx[j]? = some true)) := by
  obtain ⟨s', k1, k2, k3, -, k5⟩ := call_one hL hs h1 (hL.zero f hf) hx hxs hn hd hm
  have hi : s.inp.length = 1 := hs.inp.trans h1
  obtain ⟨hu1, hu2⟩ := hu
  have hr : s'.ready = true := k3.ready.trans hu1
  have hrun : forwardZeroVars L vx vy x dep s = marks L vx vy s' := by
    refine Eq.trans ?_ (k5 fun _ => marks L vx vy)
    simp only [forwardZeroVars, get_bind, known_bind, defined_bind, hf, hu1, hu2, hn, hm, hi, beq_self_eq_true, if_true]
  rw [hrun]
  refine ⟨s', k1, k2, k3, fun h0 => ?_, fun h0 hno => ?_, fun t h0 hvx hvy ht => ?_⟩
  · subst h0
    rfl
  · have h0' : 0 < vx.length := List.length_pos_of_ne_nil h0
    simp only [marks, gt_iff_lt, h0', if_true, known_bind]
    by_cases hvx : L.n ≤ vx.length
    · by_cases hvy : L.m ≤ vy.length
      · have hj : L.jsp = none := by
          cases hj : L.jsp with
          | none => rfl
          | some t => exact absurd ⟨hvx, hvy, by rw [hj]; rfl⟩ hno
        simp only [hvx, hvy, decide_true, if_true, hj]
        apply bind_error
        simp only [sparsitySet, get_bind, known_bind, defined_bind, hr, if_true]
      · simp only [hvx, hvy, decide_true, decide_false, if_true]
        rfl
    · simp only [hvx, decide_false]
      rfl
  · have h0' : 0 < vx.length := List.length_pos_of_ne_nil h0
    obtain ⟨rows, r1, r2, r3⟩ := sparsitySet_ok (s := s') (hL.jsp t ht) hr
    have hrows : ∀ r ∈ rows, ∀ j ∈ r, j < vx.length := by
      intro r hr j hj
      obtain ⟨i, hi⟩ := List.getElem?_of_mem hr
      obtain ⟨e, he⟩ := ((r3 i r hi).2 j).1 hj
      exact Nat.lt_of_lt_of_le ((hL.jsp t ht).cols j (List.mem_of_getElem? he.2)) hvx
    obtain ⟨vy', v1, v2, v3⟩ := markVariables_ok (vy := vy) (vx := vx) hrows (i := L.m) (by omega) hvy
    refine ⟨vy', ?_, v2, fun k hk => ?_⟩
    · simp only [marks, gt_iff_lt, h0', if_true, known_bind, hvx, hvy, decide_true]
      rw [ht, bind_ok r1]
      simp only [v1]
      rfl
    · rw [v3 k hk]
      constructor
      · rintro (h | ⟨h, r, h2, j, h3, h4⟩)
        · exact .inl h
        · obtain ⟨e, he⟩ := ((r3 k r h2).2 j).1 h3
          exact .inr ⟨h, e, j, he, h4⟩
      · rintro (h | ⟨h, e, j, h2, h3⟩)
        · exact .inl h
        · have hr : rows[k]? = some (rows[k]'(by omega)) := List.getElem?_eq_getElem _
          exact .inr ⟨h, _, hr, j, ((r3 k _ hr).2 j).2 ⟨e, h2⟩, h3⟩

end

end Verif.Library.Call
