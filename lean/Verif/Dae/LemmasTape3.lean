import Verif.Dae.LemmasTape2
/-
Helper lemmas C78: variables, the whole new tape.
-/
namespace Verif.Dae.Tape
open Verif.Dae.Remove

variable {U : Type} {info : List VarInfo} {m : Nat} {inc : Nat → Nat → Bool} {vs : List VarOut} {es : List EqOut}

theorem eqs_of (h : Right info m inc vs es) : Eqs m es where
  le := h.eqs.1
  given k e he hk := (h.eqs.2.1 k e he hk).2
  new k e he hk := (h.eqs.2.2.1 k e he hk).2
  inj := h.eqs.2.2.2

theorem der_lt_of (h : Right info m inc vs es) : ∀ (j : Nat) x u, vs[j]? = some x → x.der = some u → u < vs.length := by
  intro j x u hx hu
  obtain ⟨y, hy, _⟩ := (h.links j u).mp ⟨x, hx, hu⟩
  exact (List.getElem?_eq_some_iff.mp hy).1

/-- derivatives of lower order are there -/
theorem der_between (h : Right info m inc vs es) {n t u : Nat} (hd : Der vs n t u) : ∀ {a j}, a < n → Der vs a t j →
    ∃ x w, vs[j]? = some x ∧ x.der = some w := by
  have uniq : ∀ {a t j k}, Der vs a t j → Der vs a t k → j = k := by
    intro a t j k h1
    induction h1 generalizing k with
    | zero _ => intro h2; cases h2; rfl
    | succ _ b c ih =>
      intro h2
      cases h2 with
      | succ a' b' c' =>
        obtain rfl := ih a'
        obtain ⟨x, hx, hw⟩ := (h.links _ _).mpr ⟨_, b, c⟩
        obtain ⟨x', hx', hw'⟩ := (h.links _ _).mpr ⟨_, b', c'⟩
        rw [hx] at hx'
        cases hx'
        rw [hw] at hw'
        exact Option.some.inj hw'
  induction hd with
  | zero _ => intro a j ha; omega
  | @succ n t u w y h1 h2 h3 ih =>
    intro a j ha hj
    by_cases hc : a < n
    · exact ih hc hj
    · obtain rfl : a = n := by omega
      obtain rfl := uniq h1 hj
      obtain ⟨x, hx, hw⟩ := (h.links u w).mpr ⟨y, h2, h3⟩
      exact ⟨x, w, hx, hw⟩

/-- the position of the time -/
def timePos (info : List VarInfo) (vs : List VarOut) : Nat := (timeOf info).getD vs.length

theorem timePos_given (hT : OneTime info) (hle : info.length ≤ vs.length) {j : Nat} {x : VarInfo} (hx : info[j]? = some x) :
    x.integrated = true ↔ j = timePos info vs := by
  have hj := (List.getElem?_eq_some_iff.mp hx).1
  unfold timePos
  cases ht : timeOf info with
  | none =>
    have := List.find?_eq_none.mp ht j (List.mem_range.mpr hj)
    rw [hx] at this
    simp only [Option.map_some, Option.getD_some] at this
    simp only [this, Option.getD_none, Bool.false_eq_true, false_iff]
    omega
  | some T =>
    have h1 := List.find?_some ht
    have h2 := List.mem_range.mp (List.mem_of_find?_eq_some ht)
    rw [List.getElem?_eq_getElem h2, Option.map_some, Option.getD_some] at h1
    simp only [Option.getD_some]
    constructor
    · intro hi
      exact hT.one j T x _ hx (List.getElem?_eq_getElem h2) hi h1
    · rintro rfl
      rw [List.getElem?_eq_getElem h2] at hx
      cases hx
      exact h1

theorem timePos_cases (info : List VarInfo) (vs : List VarOut) : timePos info vs = vs.length ∨ ∃ x, info[timePos info vs]? = some x ∧ x.integrated = true := by
  unfold timePos
  cases ht : timeOf info with
  | none => exact .inl rfl
  | some T =>
    right
    have h1 := List.find?_some ht
    have h2 := List.mem_range.mp (List.mem_of_find?_eq_some ht)
    rw [List.getElem?_eq_getElem h2, Option.map_some, Option.getD_some] at h1
    exact ⟨_, List.getElem?_eq_getElem h2, h1⟩

/-- the variables which occur in derivatives of equations -/
theorem val_occ (h : Right info m inc vs es) {d : U → U} {T : Nat} {dep0 : List (Ex U)} (hG : Given info m inc dep0) {i n k : Nat} {f : Ex U}
    (hv : Val d vs T es dep0 i n k f) : f.Plain ∧ ∀ j ∈ f.occ, (∃ a t, a ≤ n ∧ inc i t = true ∧ Dep info t ∧ Der vs a t j) ∨
      ∃ x, info[j]? = some x ∧ x.timeDep = false := by
  induction hv with
  | zero hf =>
    refine ⟨hG.plain _ (List.mem_of_getElem? hf), fun j hj => ?_⟩
    obtain ⟨h1, h2⟩ := hG.occ _ _ hf j hj
    cases hd : (info[j]).timeDep with
    | true => exact .inl ⟨0, j, Nat.le_refl _, h2, ⟨_, List.getElem?_eq_getElem h1, hd⟩, .zero (Nat.lt_of_lt_of_le h1 h.given.1)⟩
    | false => exact .inr ⟨_, List.getElem?_eq_getElem h1, hd⟩
  | @succ n q f k e h1 h2 h3 ih =>
    refine ⟨dt_plain d vs T ih.1, fun j hj => ?_⟩
    rcases dt_occ d vs T ih.1 j hj with x | ⟨c, x, y⟩
    · rcases ih.2 j x with ⟨a, t, r1, r2⟩ | r
      · exact .inl ⟨a, t, by omega, r2⟩
      · exact .inr r
    · obtain ⟨z, hz, hz'⟩ := Option.bind_eq_some_iff.mp y
      rcases ih.2 c x with ⟨a, t, r1, r2, r3, r4⟩ | ⟨x, hx, hd⟩
      · obtain ⟨w, hw, hw'⟩ := (h.links c j).mp ⟨z, hz, hz'⟩
        exact .inl ⟨a + 1, t, by omega, r2, r3, .succ r4 hw hw'⟩
      · exfalso
        obtain ⟨y', g1, g2, g3, _⟩ := h.given.2 c x hx
        rw [hz] at g1
        cases g1
        rw [(h.plain c z hz (g3.trans hd)).1] at hz'
        cases hz'

theorem known (h : Right info m inc vs es) (hT : OneTime info) {d : U → U} {dep0 : List (Ex U)} (hG : Given info m inc dep0)
    {i n k q : Nat} {f : Ex U} {e : EqOut} (hv : Val d vs (timePos info vs) es dep0 i n q f) (hk : es[k]? = some e) (hq : e.anti = some q)
    {X : ℝ → Nat → ℝ} {t : ℝ} (hX : Follows info vs X t) : ∀ j ∈ f.occ, Known vs (timePos info vs) X t j := by
  have hle : dep0.length ≤ es.length := hG.len ▸ h.eqs.1
  intro j hj
  refine ⟨fun u hu => ?_, fun hu => ?_⟩
  · obtain ⟨x, hx, hxu⟩ := Option.bind_eq_some_iff.mp hu
    refine ⟨fun hjT => ?_, hX.der j x u hx hxu⟩
    rcases timePos_cases info vs with hc | ⟨y, hy, hi⟩
    · have := (List.getElem?_eq_some_iff.mp hx).1
      omega
    · rw [← hjT] at hy
      obtain ⟨y', g1, g2, g3, _⟩ := h.given.2 j y hy
      rw [hx] at g1
      cases g1
      rw [(h.plain j x hx (g3.trans (hT.plain y (List.mem_of_getElem? hy) hi))).1] at hxu
      cases hxu
  · rcases (val_occ h hG hv).2 j hj with ⟨a, t0, r1, r2, r3, r4⟩ | ⟨x, hx, hd⟩
    · exfalso
      obtain ⟨hi, hd⟩ := hv.eqDer hle
      obtain ⟨u, hu'⟩ := h.complete (n + 1) i k t0 (.succ hd hk hq) (hG.len ▸ hi) r2 r3
      obtain ⟨x, w, hx, hw⟩ := der_between h hu' (by omega) r4
      rw [hx, Option.bind_some, hw] at hu
      cases hu
    · have := hX.const j x hx hd
      have hi := timePos_given (vs := vs) hT h.given.1 hx
      by_cases hj' : j = timePos info vs
      · rw [if_pos (hi.mpr hj')] at this
        rw [if_pos hj']
        exact this
      · rw [if_neg (fun z => hj' (hi.mp z))] at this
        rw [if_neg hj']
        exact this

theorem val_defined (h : Right info m inc vs es) (hT : OneTime info) {F : Fns U} {dep0 : List (Ex U)} (hG : Given info m inc dep0)
    {X : ℝ → Nat → ℝ} {t : ℝ} (hX : Follows info vs X t) (hD : ∀ f ∈ dep0, Defined F (X t) f) {i n k : Nat} {f : Ex U}
    (hv : Val F.d vs (timePos info vs) es dep0 i n k f) : Defined F (X t) f := by
  induction hv with
  | zero hf => exact hD _ (List.mem_of_getElem? hf)
  | succ h1 h2 h3 ih => exact (dt_right (val_occ h hG h1).1 ih (known h hT hG h1 h2 h3 hX)).2

theorem newTape_ok (h : Right info m inc vs es) (d : U → U) {dep0 : List (Ex U)} (hG : Given info m inc dep0) :
    (es.length = m ∧ newTape d info vs es dep0 = .ok none) ∨
    (m < es.length ∧ ∃ out, newTape d info vs es dep0 = .ok (some (vs.length, out)) ∧ out.length = es.length ∧ (∀ f ∈ out, Good vs f) ∧
      ∀ i a k f, Val d vs (timePos info vs) es dep0 i a k f → out[k]? = some f) := by
  have hE : Eqs dep0.length es := hG.len ▸ eqs_of h
  have hl := der_lt_of h
  obtain ⟨ls, e1, hL⟩ := hE.levels es.length 0 ((List.range dep0.length).filterMap (derivative es)) (fun k hk => by
    obtain ⟨q, _, h4⟩ := List.mem_filterMap.mp hk
    obtain ⟨e, h5, _⟩ := hE.derivative.mp h4
    exact ⟨Nat.zero_le _, (List.getElem?_eq_some_iff.mp h5).1⟩) (by omega)
  have hm : ∀ k, k ∈ (List.range dep0.length).filterMap (derivative es) ↔ ∃ i < dep0.length, EqDer es (0 + 1) i k := by
    intro k
    rw [List.mem_filterMap]
    constructor
    · rintro ⟨q, h1, h2⟩
      obtain ⟨e, h3, h4⟩ := hE.derivative.mp h2
      exact ⟨q, List.mem_range.mp h1, .succ (.zero (Nat.lt_of_lt_of_le (List.mem_range.mp h1) hE.le)) h3 h4⟩
    · rintro ⟨i, hi, hd⟩
      cases hd with
      | succ g1 g2 g3 =>
        cases g1
        exact ⟨i, List.mem_range.mpr hi, hE.derivative.mpr ⟨_, g2, g3⟩⟩
  unfold newTape
  rw [e1]
  have hlen := hG.len
  cases ls with
  | nil =>
    left
    refine ⟨?_, rfl⟩
    have hemp := hL.empty rfl
    by_contra hc
    have hlt : m < es.length := by have := h.eqs.1; omega
    obtain ⟨q, h1, h2⟩ := hE.new m _ (List.getElem?_eq_getElem hlt) (by omega)
    have : m ∈ (List.range dep0.length).filterMap (derivative es) :=
      (hm m).mpr ⟨q, by omega, .succ (.zero (by omega)) (List.getElem?_eq_getElem hlt) h2⟩
    rw [hemp] at this
    cases this
  | cons l ls =>
    right
    obtain rfl := hL.head
    have hlt : m < es.length := by
      have hne : (List.range dep0.length).filterMap (derivative es) ≠ [] := by
        intro hc
        rw [hc] at hL
        cases hL with
        | cons hne _ => exact hne rfl
      · obtain ⟨k, hk⟩ := List.exists_mem_of_ne_nil _ hne
        obtain ⟨i, hi, hd⟩ := (hm k).mp hk
        cases hd with
        | succ g1 g2 g3 =>
          have := (hE.der_lt g2 g3).1
          have := (List.getElem?_eq_some_iff.mp g2).1
          omega
    refine ⟨hlt, ?_⟩
    have key : ∀ (T : Nat) (added : Bool), ∃ out, (do
        let σ ← prepare vs (if added then vs.length + 1 else vs.length) T
        let out ← evaluate info.length (resize σ info.length) dep0
        let r ← rounds d vs es T added (((List.range dep0.length).filterMap (derivative es)) :: ls)
          (if added then vs.length + 1 else vs.length) (resize out es.length)
        return some r : Except Err (Option (Nat × List (Ex U)))) = .ok (some (vs.length, out)) ∧ out.length = es.length ∧ (∀ f ∈ out, Good vs f) ∧
        ∀ i a k f, Val d vs T es dep0 i a k f → out[k]? = some f := by
      intro T added
      obtain ⟨σ, p1, p2, p3⟩ := prepare_ok (U := U) (T := T) hl (n := if added then vs.length + 1 else vs.length) (by split <;> omega)
      rw [p1]
      have hσ : ∀ f ∈ dep0, subst (resize σ info.length) f = subst' (prep vs T) f := by
        intro f hf
        obtain ⟨i, hi⟩ := List.mem_iff_getElem?.mp hf
        refine subst_eq fun k hk => ?_
        have := (hG.occ i f hi k hk).1
        have hg := h.given.1
        rw [resize_get (by rw [p2]; split <;> omega) this, p3 k (by omega)]
      have hev : evaluate info.length (resize σ info.length) dep0 = .ok (dep0.map (subst' (prep vs T))) := by
        unfold evaluate
        rw [if_pos (resize_length _ _), List.map_congr_left hσ]
      have hrs : resize (dep0.map (subst' (prep vs T))) es.length =
          (dep0 ++ List.replicate (es.length - dep0.length) (Ex.const 0)).map (subst' (prep vs T)) := by
        unfold resize
        rw [List.length_map, List.take_of_length_le (by rw [List.length_map]; exact hE.le), List.map_append, List.map_replicate]
        rfl
      have hU : Upto d vs T es dep0 0 (dep0 ++ List.replicate (es.length - dep0.length) (Ex.const 0)) := by
        refine ⟨?_, fun f hf => ?_, fun i a k f hv ha => ?_⟩
        · rw [List.length_append, List.length_replicate]
          have := hE.le
          omega
        · rcases List.mem_append.mp hf with hf | hf
          · obtain ⟨i, hi⟩ := List.mem_iff_getElem?.mp hf
            refine ⟨hG.plain f hf, fun j hj => ?_⟩
            have := (hG.occ i f hi j hj).1
            have hg := h.given.1
            omega
          · rw [(List.mem_replicate.mp hf).2]
            exact ⟨trivial, nofun⟩
        · cases hv with
          | zero hf => rw [List.getElem?_append_left (List.getElem?_eq_some_iff.mp hf).1]; exact hf
          | succ _ _ _ => omega
      obtain ⟨out, r1, r2⟩ := rounds_ok hE hl (added := added) rfl ls _ 0 _ hL hU hm
      refine ⟨out, ?_, r2⟩
      show (evaluate info.length (resize σ info.length) dep0).bind _ = _
      rw [hev]
      show (rounds d vs es T added _ _ (resize (dep0.map (subst' (prep vs T))) es.length)).bind _ = _
      rw [hrs, r1]
      rfl
    unfold timePos
    cases ht : timeOf info with
    | none => exact key vs.length true
    | some T => exact key T false

end Verif.Dae.Tape
