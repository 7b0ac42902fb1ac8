import Verif.Dae.PropsPant
/-
Property theorems C30: the structural index.
-/
namespace Verif.Dae

theorem up_chain {f : Nat → Option Nat} {a : Nat} : ∀ n c, up f n a = some c ↔ Chain f a n c := by
  intro n
  induction n with
  | zero =>
    intro c
    constructor
    · intro h; cases h; exact .zero
    · intro h; cases h; rfl
  | succ n ih =>
    intro c
    simp only [up, Option.bind_eq_some_iff]
    constructor
    · rintro ⟨b, h1, h2⟩; exact .succ ((ih b).mp h1) h2
    · intro h
      cases h with
      | succ h1 h2 => exact ⟨_, (ih _).mpr h1, h2⟩

theorem Links.up_le {m : Nat} {g : BG} (h : Links m g) {i : Nat} (hi : i < g.ne) : ∀ n k, up (dE g) n i = some k → n ≤ k := by
  intro n
  induction n with
  | zero => intro k _; exact Nat.zero_le _
  | succ n ih =>
    intro k hk
    simp only [up, Option.bind_eq_some_iff] at hk
    obtain ⟨b, h1, h2⟩ := hk
    obtain ⟨l1, l2, _⟩ := h.link b k (h.derivatives hi n b h1).1 h2
    have := ih b h1
    have := h.lt b k l1 l2
    omega

theorem Links.eqOrder {m : Nat} {g : BG} (h : Links m g) {i : Nat} (hi : i < m) : ∀ n k fuel, up (dE g) n i = some k → n < fuel →
    eqOrder g fuel k = .ok n := by
  have hi' := Nat.lt_of_lt_of_le hi h.le
  intro n
  induction n with
  | zero =>
    intro k fuel hk hf
    cases hk
    cases fuel with
    | zero => omega
    | succ fuel => simp only [Dae.eqOrder, (h.first i hi').mpr hi]
  | succ n ih =>
    intro k fuel hk hf
    simp only [up, Option.bind_eq_some_iff] at hk
    obtain ⟨b, h1, h2⟩ := hk
    have h3 := (h.link b k (h.derivatives hi' n b h1).1 h2).2.1
    cases fuel with
    | zero => omega
    | succ fuel => simp only [Dae.eqOrder, h3, ih b fuel h1 (by omega)]

/-- the maximum computed by the loop -/
theorem index_fold {m : Nat} {g : BG} (h : Links m g) : ∀ (l : List Nat) (a : Nat), (∀ k ∈ l, k < g.ne) →
    ∃ r, l.foldlM (indexStep g) a = .ok r ∧ a ≤ r ∧
      (∀ k ∈ l, (g.e k).diff = none → ∀ i n, i < m → up (dE g) n i = some k → n ≤ r) ∧
      (r = a ∨ ∃ k ∈ l, (g.e k).diff = none ∧ ∃ i, i < m ∧ up (dE g) r i = some k) := by
  intro l
  induction l with
  | nil => intro a _; exact ⟨a, rfl, Nat.le_refl _, fun k hk => absurd hk (by simp), .inl rfl⟩
  | cons k l ih =>
    intro a hl
    rw [List.foldlM_cons]
    simp only [bind, Except.bind]
    have hk := hl k (by simp)
    have hl' : ∀ k ∈ l, k < g.ne := fun x hx => hl x (by simp [hx])
    cases hd : (g.e k).diff with
    | some d =>
      simp only [indexStep, hd]
      obtain ⟨r, r1, r2, r3, r4⟩ := ih a hl'
      refine ⟨r, r1, r2, fun x hx hxd => ?_, ?_⟩
      · rcases List.mem_cons.mp hx with rfl | hx
        · rw [hd] at hxd; cases hxd
        · exact r3 x hx hxd
      · rcases r4 with r4 | ⟨x, hx, r4⟩
        · exact .inl r4
        · exact .inr ⟨x, by simp [hx], r4⟩
    | none =>
      obtain ⟨i, hi, n, hn⟩ := h.root k hk
      have hi' := Nat.lt_of_lt_of_le hi h.le
      have hle := h.up_le hi' n k hn
      have he := h.eqOrder hi n k (g.ne + 1) hn (by omega)
      simp only [indexStep, hd, he]
      obtain ⟨r, r1, r2, r3, r4⟩ := ih (if n > a then n else a) hl'
      have hge : n ≤ r ∧ a ≤ r := by split at r2 <;> omega
      refine ⟨r, r1, hge.2, fun x hx hxd j q hj hq => ?_, ?_⟩
      · rcases List.mem_cons.mp hx with rfl | hx
        · have := h.eqOrder hj q x (g.ne + 1) hq (by have := h.up_le (Nat.lt_of_lt_of_le hj h.le) q x hq; omega)
          rw [he] at this
          cases this
          exact hge.1
        · exact r3 x hx hxd j q hj hq
      · rcases r4 with r4 | ⟨x, hx, r4⟩
        · split at r4
          · subst r4
            exact .inr ⟨k, by simp, hd, i, hi, hn⟩
          · exact .inl r4
        · exact .inr ⟨x, by simp [hx], r4⟩

/-- some time dependent variable has no derivative -/
theorem Built.last {info : List VarInfo} {m : Nat} {inc : Nat → Nat → Bool} {tape : List Nat} {g : BG}
    (h : Built info m inc tape g) (hv : ∃ x ∈ info, x.timeDep = true) (hpar : ∀ x ∈ info, x.timeDep = false → x.anti = none) :
    ∃ j x, info[j]? = some x ∧ x.timeDep = true ∧ noDerivative info j = true := by
  obtain ⟨x, hx, hd⟩ := hv
  obtain ⟨t, ht, he⟩ := List.getElem_of_mem hx
  obtain ⟨p, hp, hpe⟩ := List.getElem_of_mem ((h.mem t).mpr ⟨x, by rw [List.getElem?_eq_getElem ht, he], hd⟩)
  obtain ⟨n, q, _, h2, h3⟩ := h.ready.tops p (by rw [h.nv]; exact hp)
  have hq : q < tape.length := by rw [← h.nv]; exact h3
  obtain ⟨y, hy, hyd⟩ := (h.mem tape[q]).mp (List.getElem_mem hq)
  refine ⟨tape[q], y, hy, hyd, ?_⟩
  unfold noDerivative
  rw [List.all_eq_true]
  intro z hz
  by_contra hne
  have hza : z.anti = some tape[q] := by simpa using hne
  have hzd : z.timeDep = true := by
    by_contra hf
    rw [hpar z hz (by simpa using hf)] at hza
    cases hza
  obtain ⟨s, hs, hse⟩ := List.getElem_of_mem hz
  have hs' : info[s]? = some z := by rw [List.getElem?_eq_getElem hs, hse]
  obtain ⟨r, hr, hre⟩ := List.getElem_of_mem ((h.mem s).mpr ⟨z, hs', hzd⟩)
  have ha : (g.v r).anti = some q := (h.anti r q).mpr ⟨s, tape[q], by rw [List.getElem?_eq_getElem hr, hre],
    List.getElem?_eq_getElem hq, by rw [hs']; exact hza⟩
  rw [h.w.unlink q r (by rw [h.nv]; exact hr) ha] at h2
  cases h2

/-- C30: after Pantelides' loop the structural index is one more than the number of times an equation was
differentiated at most, provided there is a time dependent variable. The second part of the property, 0 for an ODE,
is wrong: `ode_index_counterexample`. -/
theorem structuralIndex_correct_partial {info : List VarInfo} {m : Nat} {inc : Nat → Nat → Bool} {g g' : BG}
    (hc : construct info m inc = .ok g) (h1 : OneDerivative info) {fuel : Nat} (h : detectSubset2Dif fuel g = .ok g')
    (hm : 0 < m) (hv : ∃ x ∈ info, x.timeDep = true)
    (hpar : ∀ x ∈ info, x.timeDep = false → x.anti = none) (hint : ∀ x ∈ info, x.timeDep = true → x.integrated = false) :
    ∃ r, structuralIndex info m g' = .ok (r + 1) ∧
      (∃ i, i < m ∧ Differentiated (fun k => (g'.e k).diff) i r) ∧
      ∀ i n, i < m → Differentiated (fun k => (g'.e k).diff) i n → n ≤ r := by
  obtain ⟨⟨tape, hB⟩, _⟩ := construct_built hc h1
  have hne := hB.ne
  rcases detect_outcome hB.ready fuel with r | r | ⟨g'', r, hP, hE⟩
  · rw [h] at r; cases r
  · rw [h] at r; cases r
  rw [h] at r
  cases r
  rw [hne] at hP
  have hL := hP.links
  unfold structuralIndex
  by_cases hme : m = g'.ne
  · simp only [hme, if_true]
    obtain ⟨j, x, hj, hjd, hjn⟩ := hB.last hv hpar
    have hany : isDAE info = true := by
      unfold isDAE
      rw [List.any_eq_true]
      refine ⟨j, List.mem_range.mpr (List.getElem?_eq_some_iff.mp hj).1, ?_⟩
      simp only [hj, hjn, hjd, hint x (List.mem_of_getElem? hj) hjd, Bool.not_false, Bool.and_self]
    have hno : ∀ i, i < g'.ne → (g'.e i).diff = none := by
      intro i hi
      cases hd : (g'.e i).diff with
      | none => rfl
      | some d =>
        obtain ⟨l1, l2, _⟩ := hL.link i d hi hd
        rw [(hL.first d l1).mpr (by rw [hme]; exact l1)] at l2
        cases l2
    refine ⟨0, by rw [hany]; rfl, ⟨0, by omega, 0, .zero, hno 0 (by omega)⟩, fun i n hi hd => ?_⟩
    obtain ⟨k, hk, _⟩ := hd
    cases n with
    | zero => exact Nat.le_refl _
    | succ n =>
      have hu := (up_chain (f := dE g') (n + 1) k).mpr hk
      rw [Nat.add_comm, up_add] at hu
      simp only [up, Option.bind_some] at hu
      have : dE g' i = none := hno i (by omega)
      rw [this] at hu
      cases hu
  · simp only [hme, if_false]
    obtain ⟨r, r1, _, r3, r4⟩ := index_fold hL (List.range' m (g'.ne - m)) 0 (fun k hk => by
      have := List.mem_range'_1.mp hk; omega)
    have hle := hL.le
    have hrange : ∀ k, k ∈ List.range' m (g'.ne - m) ↔ m ≤ k ∧ k < g'.ne := by
      intro k
      rw [List.mem_range'_1]
      omega
    have hpos : 0 < r ∧ ∃ k ∈ List.range' m (g'.ne - m), (g'.e k).diff = none ∧ ∃ i, i < m ∧ up (dE g') r i = some k := by
      -- the derivative at `m` belongs to a chain
      obtain ⟨i, hi, n, hn⟩ := hL.root m (by omega)
      have hn0 : n ≠ 0 := by
        rintro rfl
        cases hn
        omega
      obtain ⟨q, k, e1, e2, e3⟩ := hL.tops m (by omega)
      have hu : up (dE g') (n + q) i = some k := by rw [up_add, hn]; exact e1
      have hkm : m ≤ k := by
        by_contra hlt
        have := (hL.first k e3).mpr (by omega)
        cases q with
        | zero => cases e1; omega
        | succ q =>
          simp only [up, Option.bind_eq_some_iff] at e1
          obtain ⟨b, b1, b2⟩ := e1
          rw [(hL.link b k (hL.derivatives (by omega) q b b1).1 b2).2.1] at this
          cases this
      have := r3 k ((hrange k).mpr ⟨hkm, e3⟩) e2 i (n + q) hi hu
      refine ⟨by omega, ?_⟩
      rcases r4 with r4 | r4
      · omega
      · exact r4
    refine ⟨r, ?_, ?_, ?_⟩
    · simp only [r1]
    · obtain ⟨_, k, _, hd, i, hi, hu⟩ := hpos
      exact ⟨i, hi, k, (up_chain _ _).mp hu, hd⟩
    · rintro i n hi ⟨k, hk, hd⟩
      cases n with
      | zero => exact Nat.zero_le _
      | succ n =>
        have hu := (up_chain (f := dE g') (n + 1) k).mpr hk
        have hb := hL.derivatives (by omega) (n + 1) k hu
        have hkm : m ≤ k := by
          by_contra hlt
          have := (hL.first k hb.1).mpr (by omega)
          simp only [up, Option.bind_eq_some_iff] at hu
          obtain ⟨b, b1, b2⟩ := hu
          rw [(hL.link b k (hL.derivatives (by omega) n b b1).1 b2).2.1] at this
          cases this
        exact r3 k ((hrange k).mpr ⟨hkm, hb.1⟩) hd i (n + 1) hi hu

/-- the index of a system -/
def indexOf (l : List (Option Nat)) (r : List (List Nat)) (fuel : Nat) : Except Err Nat := do
  let g ← construct (vars l) r.length (rows r)
  let g ← detectSubset2Dif fuel g
  structuralIndex (vars l) r.length g

/-- the pendulum has index 3 -/
example : indexOf pendulum pendulumRows 3 = .ok 3 := by decide +kernel

/-- C30: the index of an ordinary differential equation, variables x and x' and the equation `x' = x`, is
reported as 1 -/
theorem ode_index_counterexample : indexOf [none, some 0] [[1, 0]] 1 = .ok 1 := by decide +kernel

end Verif.Dae
