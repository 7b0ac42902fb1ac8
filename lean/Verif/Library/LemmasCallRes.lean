import Verif.Library.LemmasCallMain

/-
The results of the calls of the interface of a compiled model.
-/
namespace Verif.Library.Call

variable {R α β : Type}

/-- the checks of a call which failed -/
syntax "failed" : tactic
macro_rules
  | `(tactic| failed) => `(tactic| (
      repeat' split
      all_goals first
        | rfl
        | (exfalso; simp_all [St.Usable, Lib.OneArray])))

section
variable {L : Lib R} (hL : L.Ok) {s : St R} (hs : s.Fits L)
include hL hs

theorem forwardZero_gives {x dep : View} {xs : List R} (hx : Holds s.heap x.data xs) (hxs : xs.length = x.size) (hd : dep.Exists s.heap) :
    Gives s (forwardZero L x dep s) (s.Usable ∧ L.OneArray ∧ L.zero.isSome ∧ x.size = L.n ∧ dep.size = L.m) fun _ H' =>
      (∀ f, L.zero = some f → Holds H' dep.data (f.val [xs])) ∧ OnlyIn dep s.heap H' := by
  constructor
  · rintro ⟨⟨h1, h2⟩, h3, h4, h5, h6⟩
    obtain ⟨f, hf⟩ := Option.isSome_iff_exists.1 h4
    obtain ⟨s', k1, k2, k3, k4, -⟩ := call_one hL hs h3 (hL.zero f hf) hx hxs h5 hd h6
    have hi : s.inp.length = 1 := hs.inp.trans h3
    refine ⟨(), s', Eq.trans ?_ k4, ⟨fun f' hf' => by rw [hf, Option.some_inj] at hf'; subst hf'; exact k1, k2⟩, k3⟩
    simp only [forwardZero, get_bind, known_bind, defined_bind, hf, h1, h2, h5, h6, hi, beq_self_eq_true, if_true]
  · intro h
    refine ⟨s, ?_, rfl, .refl s⟩
    have := hs.inp
    simp only [forwardZero, get_bind, known_bind, defined_bind]
    failed

theorem forwardZeroArrays_gives {x : List Ptr} {dep : View} {xs : List (List R)} (hx : Given L s.heap x xs) (hd : dep.Exists s.heap) :
    Gives s (forwardZeroArrays L x dep s) (s.Usable ∧ x.length = L.arrays.length ∧ L.zero.isSome ∧ dep.size = L.m) fun _ H' =>
      (∀ f, L.zero = some f → Holds H' dep.data (f.val xs)) ∧ OnlyIn dep s.heap H' := by
  constructor
  · rintro ⟨⟨h1, h2⟩, h3, h4, h6⟩
    obtain ⟨f, hf⟩ := Option.isSome_iff_exists.1 h4
    obtain ⟨s', k1, k2, k3, k4, -⟩ := call_arrays hs (hL.zero f hf) (hx h3).1 (hx h3).2 hd h6
    have hi : s.inp.length = x.length := hs.inp.trans h3.symm
    refine ⟨(), s', Eq.trans ?_ k4, ⟨fun f' hf' => by rw [hf, Option.some_inj] at hf'; subst hf'; exact k1, k2⟩, k3⟩
    simp only [forwardZeroArrays, get_bind, known_bind, defined_bind, hf, h1, h2, h6, hi, beq_self_eq_true, if_true]
  · intro h
    refine ⟨s, ?_, rfl, .refl s⟩
    have := hs.inp
    simp only [forwardZeroArrays, get_bind, known_bind, defined_bind]
    failed

theorem jacobian_gives {x jac : View} {xs : List R} (hx : Holds s.heap x.data xs) (hxs : xs.length = x.size) (hd : jac.Exists s.heap) :
    Gives s (jacobian L x jac s) (s.Usable ∧ L.OneArray ∧ L.jac.isSome ∧ x.size = L.n ∧ jac.size = L.m * L.n) fun _ H' =>
      (∀ f, L.jac = some f → Holds H' jac.data (f.val [xs])) ∧ OnlyIn jac s.heap H' := by
  constructor
  · rintro ⟨⟨h1, h2⟩, h3, h4, h5, h6⟩
    obtain ⟨f, hf⟩ := Option.isSome_iff_exists.1 h4
    obtain ⟨s', k1, k2, k3, k4, -⟩ := call_one hL hs h3 (hL.jac f hf) hx hxs h5 hd h6
    have hi : s.inp.length = 1 := hs.inp.trans h3
    refine ⟨(), s', Eq.trans ?_ k4, ⟨fun f' hf' => by rw [hf, Option.some_inj] at hf'; subst hf'; exact k1, k2⟩, k3⟩
    simp only [jacobian, get_bind, known_bind, defined_bind, hf, h1, h2, h5, h6, hi, beq_self_eq_true, if_true]
  · intro h
    refine ⟨s, ?_, rfl, .refl s⟩
    have := hs.inp
    simp only [jacobian, get_bind, known_bind, defined_bind]
    failed

theorem hessian_gives {x w hess : View} {xs ws : List R} (hx : Holds s.heap x.data xs) (hxs : xs.length = x.size) (hw : Holds s.heap w.data ws)
    (hws : ws.length = w.size) (hd : hess.Exists s.heap) :
    Gives s (hessian L x w hess s) (s.Usable ∧ L.OneArray ∧ L.hess.isSome ∧ x.size = L.n ∧ w.size = L.m ∧ hess.size = L.n * L.n) fun _ H' =>
      (∀ f, L.hess = some f → Holds H' hess.data (f.val [xs, ws])) ∧ OnlyIn hess s.heap H' := by
  constructor
  · rintro ⟨⟨h1, h2⟩, h3, h4, h5, h6, h7⟩
    obtain ⟨f, hf⟩ := Option.isSome_iff_exists.1 h4
    obtain ⟨s', k1, k2, k3, k4, -⟩ := call_two hL hs h3 (hL.hess f hf) hx hxs h5 hw hws h6 hd h7
    have hi : s.inp.length = 1 := hs.inp.trans h3
    refine ⟨(), s', Eq.trans ?_ k4, ⟨fun f' hf' => by rw [hf, Option.some_inj] at hf'; subst hf'; exact k1, k2⟩, k3⟩
    simp only [hessian, get_bind, known_bind, defined_bind, hf, h1, h2, h5, h6, h7, hi, beq_self_eq_true, if_true]
  · intro h
    refine ⟨s, ?_, rfl, .refl s⟩
    have := hs.inp
    simp only [hessian, get_bind, known_bind, defined_bind]
    failed

/-! ### sparse Jacobian -/

theorem sparseJacobianView_gives {x jac : View} {xs : List R} (hx : Holds s.heap x.data xs) (hxs : xs.length = x.size) (hd : jac.Exists s.heap) :
    Gives s (sparseJacobianView L x jac s) (s.Usable ∧ L.OneArray ∧ L.sjac.isSome ∧ x.size = L.n ∧ ∀ t, L.jsp = some t → jac.size = t.rows.length) fun rc H' =>
      (∀ f t, L.sjac = some f → L.jsp = some t → rc = (t.rows, t.cols) ∧ Holds H' jac.data (f.val [xs])) ∧ OnlyIn jac s.heap H' := by
  constructor
  · rintro ⟨⟨h1, h2⟩, h3, h4, h5, h6⟩
    obtain ⟨f, hf⟩ := Option.isSome_iff_exists.1 h4
    obtain ⟨t, ht, hft⟩ := hL.sjac f hf
    have hi : s.inp.length = 1 := hs.inp.trans h3
    have h7 := h6 t ht
    have uniq : ∀ f' t', L.sjac = some f' → L.jsp = some t' → f' = f ∧ t' = t := fun f' t' h h' => by
      rw [hf, Option.some_inj] at h; rw [ht, Option.some_inj] at h'; exact ⟨h.symm, h'.symm⟩
    by_cases h0 : t.rows.length > 0
    · obtain ⟨s', k1, k2, k3, -, k5⟩ := call_one hL hs h3 hft hx hxs h5 hd h7
      refine ⟨(t.rows, t.cols), s', Eq.trans ?_ (k5 fun _ => pure (t.rows, t.cols)), ⟨fun f' t' h h' => ?_, k2⟩, k3⟩
      · simp only [sparseJacobianView, get_bind, known_bind, defined_bind, hf, ht, h1, h2, h5, h7, hi, beq_self_eq_true, if_true, h0]
      · obtain ⟨rfl, rfl⟩ := uniq f' t' h h'; exact ⟨rfl, k1⟩
    · refine ⟨(t.rows, t.cols), s, ?_, ⟨fun f' t' h h' => ?_, onlyIn_refl _ _⟩, .refl s⟩
      · simp only [sparseJacobianView, get_bind, known_bind, defined_bind, hf, ht, h1, h2, h5, h7, hi, beq_self_eq_true, if_true, h0, if_false]
        rfl
      · obtain ⟨rfl, rfl⟩ := uniq f' t' h h'
        obtain ⟨l, h8, h9⟩ := hd
        exact ⟨rfl, l, h8, by rw [hft.size]; omega, fun k hk => by rw [hft.size] at hk; omega⟩
  · intro h
    refine ⟨s, ?_, rfl, .refl s⟩
    have := hs.inp
    cases hf : L.sjac with
    | none =>
      simp only [sparseJacobianView, get_bind, known_bind, defined_bind, hf]
      failed
    | some f =>
      obtain ⟨t, ht, -⟩ := hL.sjac f hf
      simp only [sparseJacobianView, get_bind, known_bind, defined_bind, hf, ht]
      failed

theorem sparseJacobianArrays_gives {x : List Ptr} {jac : View} {xs : List (List R)} (hx : Given L s.heap x xs) (hd : jac.Exists s.heap) :
    Gives s (sparseJacobianArrays L x jac s) (s.Usable ∧ x.length = L.arrays.length ∧ L.sjac.isSome ∧ ∀ t, L.jsp = some t → jac.size = t.rows.length) fun rc H' =>
      (∀ f t, L.sjac = some f → L.jsp = some t → rc = (t.rows, t.cols) ∧ Holds H' jac.data (f.val xs)) ∧ OnlyIn jac s.heap H' := by
  constructor
  · rintro ⟨⟨h1, h2⟩, h3, h4, h6⟩
    obtain ⟨f, hf⟩ := Option.isSome_iff_exists.1 h4
    obtain ⟨t, ht, hft⟩ := hL.sjac f hf
    have hi : s.inp.length = x.length := hs.inp.trans h3.symm
    have h7 := h6 t ht
    have uniq : ∀ f' t', L.sjac = some f' → L.jsp = some t' → f' = f ∧ t' = t := fun f' t' h h' => by
      rw [hf, Option.some_inj] at h; rw [ht, Option.some_inj] at h'; exact ⟨h.symm, h'.symm⟩
    by_cases h0 : t.rows.length > 0
    · obtain ⟨s', k1, k2, k3, -, k5⟩ := call_arrays hs hft (hx h3).1 (hx h3).2 hd h7
      refine ⟨(t.rows, t.cols), s', Eq.trans ?_ (k5 fun _ => pure (t.rows, t.cols)), ⟨fun f' t' h h' => ?_, k2⟩, k3⟩
      · simp only [sparseJacobianArrays, get_bind, known_bind, defined_bind, hf, ht, h1, h2, h7, hi, beq_self_eq_true, if_true, h0]
      · obtain ⟨rfl, rfl⟩ := uniq f' t' h h'; exact ⟨rfl, k1⟩
    · refine ⟨(t.rows, t.cols), s, ?_, ⟨fun f' t' h h' => ?_, onlyIn_refl _ _⟩, .refl s⟩
      · simp only [sparseJacobianArrays, get_bind, known_bind, defined_bind, hf, ht, h1, h2, h7, hi, beq_self_eq_true, if_true, h0, if_false]
        rfl
      · obtain ⟨rfl, rfl⟩ := uniq f' t' h h'
        obtain ⟨l, h8, h9⟩ := hd
        exact ⟨rfl, l, h8, by rw [hft.size]; omega, fun k hk => by rw [hft.size] at hk; omega⟩
  · intro h
    refine ⟨s, ?_, rfl, .refl s⟩
    have := hs.inp
    cases hf : L.sjac with
    | none =>
      simp only [sparseJacobianArrays, get_bind, known_bind, defined_bind, hf]
      failed
    | some f =>
      obtain ⟨t, ht, -⟩ := hL.sjac f hf
      simp only [sparseJacobianArrays, get_bind, known_bind, defined_bind, hf, ht]
      failed

/-- the new array of `sparseJacobianDense` -/
theorem sparseJacobianDense_new [Zero R] {x jac : View} {xs : List R} (hx : Holds s.heap x.data xs) (hxs : xs.length = x.size) {jac : View} {f : Fn R} {t : Table} (h3 : L.OneArray) (h5 : x.size = L.n)
    (hft : f.Ok L.arrays t.rows.length) :
    ∃ s2 : St R, Holds s2.heap ⟨s.heap.length, 0⟩ (f.val [xs]) ∧ OnlyIn ⟨⟨s.heap.length, 0⟩, t.rows.length⟩ (s.heap ++ [(List.range t.rows.length).map s.junk]) s2.heap ∧
      Keeps s s2 ∧ (do
          if t.rows.length > 0 then do
            setIn 0 x.data
            setOut ⟨s.heap.length, 0⟩
            let s ← get
            call f s.inp s.out
          createDense ⟨s.heap.length, 0⟩ L.m L.n t t.rows.length jac : M R Unit) { s with heap := s.heap ++ [(List.range t.rows.length).map s.junk] } =
        createDense ⟨s.heap.length, 0⟩ L.m L.n t t.rows.length jac s2 := by
  have hs1 : St.Fits L { s with heap := s.heap ++ [(List.range t.rows.length).map s.junk] } := ⟨hs.inp, hs.inHess, hs.out⟩
  have hloc : (⟨⟨s.heap.length, 0⟩, t.rows.length⟩ : View).Exists (s.heap ++ [(List.range t.rows.length).map s.junk]) := by
    simpa using exists_new s.heap ((List.range t.rows.length).map s.junk)
  by_cases h0 : t.rows.length > 0
  · obtain ⟨s2, k1, k2, k3, -, k5⟩ := call_one hL hs1 h3 hft (holds_append hx _) hxs h5 hloc rfl
    refine ⟨s2, k1, k2, ⟨k3.ready, k3.missing, k3.junk, k3.inp, k3.inHess, k3.out⟩, ?_⟩
    simp only [h0, if_true]
    exact k5 _
  · refine ⟨{ s with heap := s.heap ++ [(List.range t.rows.length).map s.junk] }, ?_, onlyIn_refl _ _, ⟨rfl, rfl, rfl, rfl, rfl, rfl⟩, ?_⟩
    · obtain ⟨l, h8, h9⟩ := hloc
      exact ⟨l, h8, by rw [hft.size]; simpa using h9, fun k hk => by rw [hft.size] at hk; omega⟩
    · simp only [h0, if_false]

theorem sparseJacobianDense_gives [Zero R] {x jac : View} {xs : List R} (hx : Holds s.heap x.data xs) (hxs : xs.length = x.size) (hd : jac.Exists s.heap) :
    Gives s (sparseJacobianDense L x jac s) (s.Usable ∧ L.OneArray ∧ L.sjac.isSome ∧ x.size = L.n ∧ jac.size = L.m * L.n) fun _ H' =>
      (∀ f t, L.sjac = some f → L.jsp = some t → ∃ mat, Holds H' jac.data mat ∧ Dense t (f.val [xs]) L.m L.n mat) ∧ OnlyIn jac s.heap H' := by
  constructor
  · rintro ⟨⟨h1, h2⟩, h3, h4, h5, h7⟩
    obtain ⟨f, hf⟩ := Option.isSome_iff_exists.1 h4
    obtain ⟨t, ht, hft⟩ := hL.sjac f hf
    have hi : s.inp.length = 1 := hs.inp.trans h3
    obtain ⟨s2, k1, k2, k3, k4⟩ := sparseJacobianDense_new hL hs hx hxs (jac := jac) h3 h5 hft
    obtain ⟨H', l, j1, j2, j3, j4⟩ := createDense_ok (hL.jsp t ht) (hft.size _) k1 (onlyIn_exists k2 (exists_append hd _)) h7
    refine ⟨(), { s2 with heap := H'.take s.heap.length }, ?_, ⟨fun f' t' h h' => ?_, ?_⟩, ⟨k3.ready, k3.missing, k3.junk, k3.inp, k3.inHess, k3.out⟩⟩
    · simp only [sparseJacobianDense, get_bind, known_bind, defined_bind, hf, ht, h1, h2, h5, h7, hi, beq_self_eq_true, if_true]
      exact withArray_ok (s' := { s2 with heap := H' }) (k4.trans j1)
    · rw [hf, Option.some_inj] at h
      rw [ht, Option.some_inj] at h'
      subst h h'
      exact ⟨l, holds_take j3 (view_buf_lt hd), j2⟩
    · have := onlyIn_take j4 s.heap.length
      rwa [onlyIn_new k2] at this
  · intro h
    refine ⟨s, ?_, rfl, .refl s⟩
    have := hs.inp
    cases hf : L.sjac with
    | none =>
      simp only [sparseJacobianDense, get_bind, known_bind, defined_bind, hf]
      failed
    | some f =>
      obtain ⟨t, ht, -⟩ := hL.sjac f hf
      simp only [sparseJacobianDense, get_bind, known_bind, defined_bind, hf, ht]
      failed

theorem sparseJacobianVec_gives [Zero R] {x jac : Nat} {xs old : List R} (hx : s.heap[x]? = some xs) (hxs : xs.length = L.n) (hd : s.heap[jac]? = some old) (hne : x ≠ jac) :
    Gives s (sparseJacobianVec L x jac s) (s.Usable ∧ L.OneArray ∧ L.sjac.isSome) fun rc H' =>
      (∀ f t, L.sjac = some f → L.jsp = some t → rc = (t.rows, t.cols) ∧ H'[jac]? = some (f.val [xs])) ∧ OnlyArray jac s.heap H' := by
  constructor
  · rintro ⟨⟨h1, h2⟩, h3, h4⟩
    obtain ⟨f, hf⟩ := Option.isSome_iff_exists.1 h4
    obtain ⟨t, ht, hft⟩ := hL.sjac f hf
    have hi : s.inp.length = 1 := hs.inp.trans h3
    have hb : jac < s.heap.length := (List.getElem?_eq_some_iff.1 hd).1
    have uniq : ∀ f' t', L.sjac = some f' → L.jsp = some t' → f' = f ∧ t' = t := fun f' t' h h' => by
      rw [hf, Option.some_inj] at h; rw [ht, Option.some_inj] at h'; exact ⟨h.symm, h'.symm⟩
    obtain ⟨l, hl, hg⟩ := resize_bind (k := t.rows.length) hd
    have hs1 : St.Fits L { s with heap := s.heap.set jac l } := ⟨hs.inp, hs.inHess, hs.out⟩
    have hset : (s.heap.set jac l)[jac]? = some l := List.getElem?_set_self hb
    have hex : (⟨⟨jac, 0⟩, t.rows.length⟩ : View).Exists (s.heap.set jac l) := ⟨l, hset, by simp [hl]⟩
    have hx1 : Holds (s.heap.set jac l) ⟨x, 0⟩ xs :=
      ⟨xs, by rw [List.getElem?_set_ne (Ne.symm hne)]; exact hx, by simp, fun k _ => by simp⟩
    by_cases h0 : t.rows.length > 0
    · obtain ⟨s', k1, k2, k3, -, k5⟩ := call_one (s := { s with heap := s.heap.set jac l }) hL hs1 h3 hft (x := ⟨⟨x, 0⟩, L.n⟩) (v := ⟨⟨jac, 0⟩, t.rows.length⟩) hx1 hxs rfl hex rfl
      refine ⟨(t.rows, t.cols), s', Eq.trans ?_ (k5 fun _ => pure (t.rows, t.cols)), ⟨fun f' t' h h' => ?_, ?_, fun b hb' => ?_⟩, ⟨k3.ready, k3.missing, k3.junk, k3.inp, k3.inHess, k3.out⟩⟩
      · simp only [sparseJacobianVec, get_bind, known_bind, defined_bind, hf, ht, h1, h2, hi, beq_self_eq_true, if_true, h0, hg]
      · obtain ⟨rfl, rfl⟩ := uniq f' t' h h'
        have hb2 : jac < s'.heap.length := by rw [k2.1]; simpa using hb
        have h9 : s'.heap[jac]? = some s'.heap[jac] := List.getElem?_eq_getElem hb2
        exact ⟨rfl, whole_array k1 h9 (by rw [(k2.2 _ _ _ hset h9).1, hl, hft.size])⟩
      · rw [k2.1]; simp
      · rw [onlyIn_keeps_other k2 (by exact hb'), List.getElem?_set_ne (Ne.symm hb')]
    · refine ⟨([], []), { s with heap := s.heap.set jac l }, ?_, ⟨fun f' t' h h' => ?_, by simp, fun b hb' => ?_⟩, ⟨rfl, rfl, rfl, rfl, rfl, rfl⟩⟩
      · simp only [sparseJacobianVec, get_bind, known_bind, defined_bind, hf, ht, h1, h2, hi, beq_self_eq_true, if_true, h0, if_false, hg]
        rfl
      · obtain ⟨rfl, rfl⟩ := uniq f' t' h h'
        have e1 : t'.rows = [] := List.length_eq_zero_iff.1 (by omega)
        have e2 : t'.cols = [] := List.length_eq_zero_iff.1 (by rw [(hL.jsp t' ht).size]; omega)
        have e3 : (f'.val [xs]) = [] := List.length_eq_zero_iff.1 (by rw [hft.size]; omega)
        have e4 : l = [] := List.length_eq_zero_iff.1 (by omega)
        rw [e1, e2, e3]
        exact ⟨rfl, by rw [hset, e4]⟩
      · exact List.getElem?_set_ne (Ne.symm hb')
  · intro h
    refine ⟨s, ?_, rfl, .refl s⟩
    have := hs.inp
    cases hf : L.sjac with
    | none =>
      simp only [sparseJacobianVec, get_bind, known_bind, defined_bind, hf]
      failed
    | some f =>
      obtain ⟨t, ht, -⟩ := hL.sjac f hf
      simp only [sparseJacobianVec, get_bind, known_bind, defined_bind, hf, ht]
      failed

/-! ### sparse Hessian -/

theorem sparseHessianView_gives {x w hess : View} {xs ws : List R} (hx : Holds s.heap x.data xs) (hxs : xs.length = x.size) (hw : Holds s.heap w.data ws) (hws : ws.length = w.size) (hd : hess.Exists s.heap) :
    Gives s (sparseHessianView L x w hess s) (s.Usable ∧ L.OneArray ∧ L.shess.isSome ∧ x.size = L.n ∧ w.size = L.m ∧ ∀ t, L.hsp = some t → hess.size = t.rows.length) fun rc H' =>
      (∀ f t, L.shess = some f → L.hsp = some t → rc = (t.rows, t.cols) ∧ Holds H' hess.data (f.val [xs, ws])) ∧ OnlyIn hess s.heap H' := by
  constructor
  · rintro ⟨⟨h1, h2⟩, h3, h4, h5, h8, h6⟩
    obtain ⟨f, hf⟩ := Option.isSome_iff_exists.1 h4
    obtain ⟨t, ht, hft⟩ := hL.shess f hf
    have hi : s.inp.length = 1 := hs.inp.trans h3
    have h7 := h6 t ht
    have uniq : ∀ f' t', L.shess = some f' → L.hsp = some t' → f' = f ∧ t' = t := fun f' t' h h' => by
      rw [hf, Option.some_inj] at h; rw [ht, Option.some_inj] at h'; exact ⟨h.symm, h'.symm⟩
    by_cases h0 : t.rows.length > 0
    · obtain ⟨s', k1, k2, k3, -, k5⟩ := call_two hL hs h3 hft hx hxs h5 hw hws h8 hd h7
      refine ⟨(t.rows, t.cols), s', Eq.trans ?_ (k5 fun _ => pure (t.rows, t.cols)), ⟨fun f' t' h h' => ?_, k2⟩, k3⟩
      · simp only [sparseHessianView, get_bind, known_bind, defined_bind, hf, ht, h1, h2, h5, h8, h7, hi, beq_self_eq_true, if_true, h0]
      · obtain ⟨rfl, rfl⟩ := uniq f' t' h h'; exact ⟨rfl, k1⟩
    · refine ⟨(t.rows, t.cols), s, ?_, ⟨fun f' t' h h' => ?_, onlyIn_refl _ _⟩, .refl s⟩
      · simp only [sparseHessianView, get_bind, known_bind, defined_bind, hf, ht, h1, h2, h5, h8, h7, hi, beq_self_eq_true, if_true, h0, if_false]
        rfl
      · obtain ⟨rfl, rfl⟩ := uniq f' t' h h'
        obtain ⟨l, h8, h9⟩ := hd
        exact ⟨rfl, l, h8, by rw [hft.size]; omega, fun k hk => by rw [hft.size] at hk; omega⟩
  · intro h
    refine ⟨s, ?_, rfl, .refl s⟩
    have := hs.inp
    cases hf : L.shess with
    | none =>
      simp only [sparseHessianView, get_bind, known_bind, defined_bind, hf]
      failed
    | some f =>
      obtain ⟨t, ht, -⟩ := hL.shess f hf
      simp only [sparseHessianView, get_bind, known_bind, defined_bind, hf, ht]
      failed

theorem sparseHessianArrays_gives {x : List Ptr} {w hess : View} {xs : List (List R)} {ws : List R} (hx : Given L s.heap x xs) (hw : Holds s.heap w.data ws) (hws : ws.length = w.size) (hd : hess.Exists s.heap) :
    Gives s (sparseHessianArrays L x w hess s) (s.Usable ∧ x.length = L.arrays.length ∧ L.shess.isSome ∧ w.size = L.m ∧ ∀ t, L.hsp = some t → hess.size = t.rows.length) fun rc H' =>
      (∀ f t, L.shess = some f → L.hsp = some t → rc = (t.rows, t.cols) ∧ Holds H' hess.data (f.val (xs ++ [ws]))) ∧ OnlyIn hess s.heap H' := by
  constructor
  · rintro ⟨⟨h1, h2⟩, h3, h4, h8, h6⟩
    obtain ⟨f, hf⟩ := Option.isSome_iff_exists.1 h4
    obtain ⟨t, ht, hft⟩ := hL.shess f hf
    have hi : s.inp.length = x.length := hs.inp.trans h3.symm
    have h7 := h6 t ht
    have uniq : ∀ f' t', L.shess = some f' → L.hsp = some t' → f' = f ∧ t' = t := fun f' t' h h' => by
      rw [hf, Option.some_inj] at h; rw [ht, Option.some_inj] at h'; exact ⟨h.symm, h'.symm⟩
    by_cases h0 : t.rows.length > 0
    · obtain ⟨s', k1, k2, k3, k5⟩ := call_arrays_two hs hft (hx h3).1 (hx h3).2 hw hws h8 hd h7
      refine ⟨(t.rows, t.cols), s', Eq.trans ?_ (k5 fun _ => pure (t.rows, t.cols)), ⟨fun f' t' h h' => ?_, k2⟩, k3⟩
      · simp only [sparseHessianArrays, get_bind, known_bind, defined_bind, hf, ht, h1, h2, h8, h7, hi, beq_self_eq_true, if_true, h0]
      · obtain ⟨rfl, rfl⟩ := uniq f' t' h h'; exact ⟨rfl, k1⟩
    · refine ⟨(t.rows, t.cols), s, ?_, ⟨fun f' t' h h' => ?_, onlyIn_refl _ _⟩, .refl s⟩
      · simp only [sparseHessianArrays, get_bind, known_bind, defined_bind, hf, ht, h1, h2, h8, h7, hi, beq_self_eq_true, if_true, h0, if_false]
        rfl
      · obtain ⟨rfl, rfl⟩ := uniq f' t' h h'
        obtain ⟨l, h8, h9⟩ := hd
        exact ⟨rfl, l, h8, by rw [hft.size]; omega, fun k hk => by rw [hft.size] at hk; omega⟩
  · intro h
    refine ⟨s, ?_, rfl, .refl s⟩
    have := hs.inp
    cases hf : L.shess with
    | none =>
      simp only [sparseHessianArrays, get_bind, known_bind, defined_bind, hf]
      failed
    | some f =>
      obtain ⟨t, ht, -⟩ := hL.shess f hf
      simp only [sparseHessianArrays, get_bind, known_bind, defined_bind, hf, ht]
      failed

/-- the new array of `sparseHessianDense` -/
theorem sparseHessianDense_new [Zero R] {x w hess : View} {xs ws : List R} (hx : Holds s.heap x.data xs) (hxs : xs.length = x.size) (hw : Holds s.heap w.data ws) (hws : ws.length = w.size) {hess : View} {f : Fn R} {t : Table} (h3 : L.OneArray) (h5 : x.size = L.n) (h8 : w.size = L.m)
    (hft : f.Ok (L.arrays ++ [L.m]) t.rows.length) :
    ∃ s2 : St R, Holds s2.heap ⟨s.heap.length, 0⟩ (f.val [xs, ws]) ∧ OnlyIn ⟨⟨s.heap.length, 0⟩, t.rows.length⟩ (s.heap ++ [(List.range t.rows.length).map s.junk]) s2.heap ∧
      Keeps s s2 ∧ (do
          if t.rows.length > 0 then do
            setInHess 0 x.data; setInHess 1 w.data
            setOut ⟨s.heap.length, 0⟩
            let s ← get
            call f s.inHess s.out
          createDense ⟨s.heap.length, 0⟩ L.n L.n t t.rows.length hess : M R Unit) { s with heap := s.heap ++ [(List.range t.rows.length).map s.junk] } =
        createDense ⟨s.heap.length, 0⟩ L.n L.n t t.rows.length hess s2 := by
  have hs1 : St.Fits L { s with heap := s.heap ++ [(List.range t.rows.length).map s.junk] } := ⟨hs.inp, hs.inHess, hs.out⟩
  have hloc : (⟨⟨s.heap.length, 0⟩, t.rows.length⟩ : View).Exists (s.heap ++ [(List.range t.rows.length).map s.junk]) := by
    simpa using exists_new s.heap ((List.range t.rows.length).map s.junk)
  by_cases h0 : t.rows.length > 0
  · obtain ⟨s2, k1, k2, k3, -, k5⟩ := call_two hL hs1 h3 hft (holds_append hx _) hxs h5 (holds_append hw _) hws h8 hloc rfl
    refine ⟨s2, k1, k2, ⟨k3.ready, k3.missing, k3.junk, k3.inp, k3.inHess, k3.out⟩, ?_⟩
    simp only [h0, if_true]
    exact k5 _
  · refine ⟨{ s with heap := s.heap ++ [(List.range t.rows.length).map s.junk] }, ?_, onlyIn_refl _ _, ⟨rfl, rfl, rfl, rfl, rfl, rfl⟩, ?_⟩
    · obtain ⟨l, h8, h9⟩ := hloc
      exact ⟨l, h8, by rw [hft.size]; simpa using h9, fun k hk => by rw [hft.size] at hk; omega⟩
    · simp only [h0, if_false]

theorem sparseHessianDense_gives [Zero R] {x w hess : View} {xs ws : List R} (hx : Holds s.heap x.data xs) (hxs : xs.length = x.size) (hw : Holds s.heap w.data ws) (hws : ws.length = w.size) (hd : hess.Exists s.heap) :
    Gives s (sparseHessianDense L x w hess s) (s.Usable ∧ L.OneArray ∧ L.shess.isSome ∧ x.size = L.n ∧ w.size = L.m ∧ hess.size = L.n * L.n) fun _ H' =>
      (∀ f t, L.shess = some f → L.hsp = some t → ∃ mat, Holds H' hess.data mat ∧ Dense t (f.val [xs, ws]) L.n L.n mat) ∧ OnlyIn hess s.heap H' := by
  constructor
  · rintro ⟨⟨h1, h2⟩, h3, h4, h5, h8, h7⟩
    obtain ⟨f, hf⟩ := Option.isSome_iff_exists.1 h4
    obtain ⟨t, ht, hft⟩ := hL.shess f hf
    have hi : s.inp.length = 1 := hs.inp.trans h3
    obtain ⟨s2, k1, k2, k3, k4⟩ := sparseHessianDense_new hL hs hx hxs hw hws (hess := hess) h3 h5 h8 hft
    obtain ⟨H', l, j1, j2, j3, j4⟩ := createDense_ok (hL.hsp t ht) (hft.size _) k1 (onlyIn_exists k2 (exists_append hd _)) h7
    refine ⟨(), { s2 with heap := H'.take s.heap.length }, ?_, ⟨fun f' t' h h' => ?_, ?_⟩, ⟨k3.ready, k3.missing, k3.junk, k3.inp, k3.inHess, k3.out⟩⟩
    · simp only [sparseHessianDense, get_bind, known_bind, defined_bind, hf, ht, h1, h2, h5, h8, hi, beq_self_eq_true, if_true]
      exact withArray_ok (s' := { s2 with heap := H' }) (k4.trans j1)
    · rw [hf, Option.some_inj] at h
      rw [ht, Option.some_inj] at h'
      subst h h'
      exact ⟨l, holds_take j3 (view_buf_lt hd), j2⟩
    · have := onlyIn_take j4 s.heap.length
      rwa [onlyIn_new k2] at this
  · intro h
    have hinp := hs.inp
    cases hf : L.shess with
    | none =>
      refine ⟨s, ?_, rfl, .refl s⟩
      simp only [sparseHessianDense, get_bind, known_bind, defined_bind, hf]
      failed
    | some f =>
      obtain ⟨t, ht, hft⟩ := hL.shess f hf
      by_cases h' : s.Usable ∧ L.OneArray ∧ x.size = L.n ∧ w.size = L.m
      · obtain ⟨⟨h1, h2⟩, h3, h5, h8⟩ := h'
        have hi : s.inp.length = 1 := hs.inp.trans h3
        obtain ⟨s2, k1, k2, k3, k4⟩ := sparseHessianDense_new hL hs hx hxs hw hws (hess := hess) h3 h5 h8 hft
        refine ⟨{ s2 with heap := s2.heap.take s.heap.length }, ?_, onlyIn_new k2, ⟨k3.ready, k3.missing, k3.junk, k3.inp, k3.inHess, k3.out⟩⟩
        simp only [sparseHessianDense, get_bind, known_bind, defined_bind, hf, ht, h1, h2, h5, h8, hi, beq_self_eq_true, if_true]
        exact withArray_error (k4.trans (createDense_error fun h7 => h ⟨⟨h1, h2⟩, h3, by rw [hf]; rfl, h5, h8, h7⟩))
      · refine ⟨s, ?_, rfl, .refl s⟩
        clear h
        simp only [sparseHessianDense, get_bind, known_bind, defined_bind, hf, ht]
        failed

theorem sparseHessianVec_gives [Zero R] {x w hess : Nat} {xs ws old : List R} (hx : s.heap[x]? = some xs) (hw : s.heap[w]? = some ws) (hd : s.heap[hess]? = some old) (hne : x ≠ hess) (hne2 : w ≠ hess) :
    Gives s (sparseHessianVec L x w hess s) (s.Usable ∧ L.OneArray ∧ L.shess.isSome ∧ xs.length = L.n ∧ ws.length = L.m) fun rc H' =>
      (∀ f t, L.shess = some f → L.hsp = some t → rc = (t.rows, t.cols) ∧ H'[hess]? = some (f.val [xs, ws])) ∧ OnlyArray hess s.heap H' := by
  constructor
  · rintro ⟨⟨h1, h2⟩, h3, h4, hxs, hws⟩
    obtain ⟨f, hf⟩ := Option.isSome_iff_exists.1 h4
    obtain ⟨t, ht, hft⟩ := hL.shess f hf
    have hi : s.inp.length = 1 := hs.inp.trans h3
    have hb : hess < s.heap.length := (List.getElem?_eq_some_iff.1 hd).1
    have uniq : ∀ f' t', L.shess = some f' → L.hsp = some t' → f' = f ∧ t' = t := fun f' t' h h' => by
      rw [hf, Option.some_inj] at h; rw [ht, Option.some_inj] at h'; exact ⟨h.symm, h'.symm⟩
    have hx0 : (s.heap.getD x []).length = L.n := by rw [List.getD_eq_getElem?_getD, hx]; exact hxs
    have hw0 : (s.heap.getD w []).length = L.m := by rw [List.getD_eq_getElem?_getD, hw]; exact hws
    obtain ⟨l, hl, hg⟩ := resize_bind (k := t.rows.length) hd
    have hs1 : St.Fits L { s with heap := s.heap.set hess l } := ⟨hs.inp, hs.inHess, hs.out⟩
    have hset : (s.heap.set hess l)[hess]? = some l := List.getElem?_set_self hb
    have hex : (⟨⟨hess, 0⟩, t.rows.length⟩ : View).Exists (s.heap.set hess l) := ⟨l, hset, by simp [hl]⟩
    have hx1 : Holds (s.heap.set hess l) ⟨x, 0⟩ xs :=
      ⟨xs, by rw [List.getElem?_set_ne (Ne.symm hne)]; exact hx, by simp, fun k _ => by simp⟩
    have hw1 : Holds (s.heap.set hess l) ⟨w, 0⟩ ws :=
      ⟨ws, by rw [List.getElem?_set_ne (Ne.symm hne2)]; exact hw, by simp, fun k _ => by simp⟩
    by_cases h0 : t.rows.length > 0
    · obtain ⟨s', k1, k2, k3, -, k5⟩ := call_two (s := { s with heap := s.heap.set hess l }) hL hs1 h3 hft (x := ⟨⟨x, 0⟩, L.n⟩) (w := ⟨⟨w, 0⟩, L.m⟩) (v := ⟨⟨hess, 0⟩, t.rows.length⟩) hx1 hxs rfl hw1 hws rfl hex rfl
      refine ⟨(t.rows, t.cols), s', Eq.trans ?_ (k5 fun _ => pure (t.rows, t.cols)), ⟨fun f' t' h h' => ?_, ?_, fun b hb' => ?_⟩, ⟨k3.ready, k3.missing, k3.junk, k3.inp, k3.inHess, k3.out⟩⟩
      · simp only [sparseHessianVec, get_bind, known_bind, defined_bind, hf, ht, h1, h2, hx0, hw0, hi, beq_self_eq_true, if_true, h0, hg]
      · obtain ⟨rfl, rfl⟩ := uniq f' t' h h'
        have hb2 : hess < s'.heap.length := by rw [k2.1]; simpa using hb
        have h9 : s'.heap[hess]? = some s'.heap[hess] := List.getElem?_eq_getElem hb2
        exact ⟨rfl, whole_array k1 h9 (by rw [(k2.2 _ _ _ hset h9).1, hl, hft.size])⟩
      · rw [k2.1]; simp
      · rw [onlyIn_keeps_other k2 (by exact hb'), List.getElem?_set_ne (Ne.symm hb')]
    · refine ⟨([], []), { s with heap := s.heap.set hess l }, ?_, ⟨fun f' t' h h' => ?_, by simp, fun b hb' => ?_⟩, ⟨rfl, rfl, rfl, rfl, rfl, rfl⟩⟩
      · simp only [sparseHessianVec, get_bind, known_bind, defined_bind, hf, ht, h1, h2, hx0, hw0, hi, beq_self_eq_true, if_true, h0, if_false, hg]
        rfl
      · obtain ⟨rfl, rfl⟩ := uniq f' t' h h'
        have e1 : t'.rows = [] := List.length_eq_zero_iff.1 (by omega)
        have e2 : t'.cols = [] := List.length_eq_zero_iff.1 (by rw [(hL.hsp t' ht).size]; omega)
        have e3 : (f'.val [xs, ws]) = [] := List.length_eq_zero_iff.1 (by rw [hft.size]; omega)
        have e4 : l = [] := List.length_eq_zero_iff.1 (by omega)
        rw [e1, e2, e3]
        exact ⟨rfl, by rw [hset, e4]⟩
      · exact List.getElem?_set_ne (Ne.symm hb')
  · intro h
    refine ⟨s, ?_, rfl, .refl s⟩
    have := hs.inp
    have hx0 : (s.heap.getD x []).length = xs.length := by rw [List.getD_eq_getElem?_getD, hx]; rfl
    have hw0 : (s.heap.getD w []).length = ws.length := by rw [List.getD_eq_getElem?_getD, hw]; rfl
    cases hf : L.shess with
    | none =>
      simp only [sparseHessianVec, get_bind, known_bind, defined_bind, hx0, hw0, hf]
      failed
    | some f =>
      obtain ⟨t, ht, -⟩ := hL.shess f hf
      simp only [sparseHessianVec, get_bind, known_bind, defined_bind, hx0, hw0, hf, ht]
      failed

end

end Verif.Library.Call
