import Verif.Colors.LemmasWork

/- Helper lemmas: all colors. -/
namespace Verif.Colors

/-- the colors keep the elements of the request apart -/
structure Proper (n : Nat) (color : List Nat) (jacP : List (List Nat)) (jr jc : List Nat) (hesP : List (List Nat)) (hr hc : List Nat) : Prop where
  length : color.length = n
  le : ∀ j < n, color.getD j 0 ≤ j
  jac : ∀ k i j, Requested jr jc k i j → ∀ j' < n, j' ≠ j → InPattern jacP i j' → color.getD j' 0 ≠ color.getD j 0
  hes : ∀ k i j, Requested hr hc k i j → ∀ i' < n, i' ≠ i → InPattern hesP i' j → color.getD i' 0 ≠ color.getD i 0

theorem mem_getD {p : List (List Nat)} {i j : Nat} : j ∈ p.getD i [] ↔ InPattern p i j := by
  simp only [InPattern, List.getD_eq_getElem?_getD]
  cases p[i]? <;> simp

theorem colors_fresh {sort : List Nat → List Nat} (hsort : SortsPositions sort) {m n : Nat} {jacP : List (List Nat)} {jr jc : List Nat}
    (hj : ValidRequest m n jacP jr jc) {hesP : List (List Nat)} {hr hc : List Nat} (hh : ValidRequest n n hesP hr hc) :
    ∃ color, colors m n jacP hesP ⟨freshJac sort m n jr jc, freshHes sort n hr hc, []⟩ =
      some ⟨freshJac sort m n jr jc, freshHes sort n hr hc, color⟩ ∧ Proper n color jacP jr jc hesP hr hc := by
  obtain ⟨color, h1, h2⟩ := coloring_ok
    ⟨fun i => jacP.getD i [], ((sort (jc ++ [n])).take jr.length).map fun s => ((jr ++ [m]).getD s 0, (jc ++ [n]).getD s 0)⟩
    ⟨fun i => hesP.getD i [], (List.range hr.length).map fun k => (((sort hr).map (hr.getD · 0) ++ [n]).getD k 0,
      ((sort hr).map (hc.getD · 0)).getD k 0)⟩ m n
  refine ⟨color, ?_, h2.length, h2.le, ?_, ?_⟩
  · unfold colors
    rw [if_pos rfl]
    simp only [freshJac, freshHes]
    rw [h1]
    rfl
  · intro k i j hq j' hj' hne hp
    refine (h2.jac ?_ ((jac_used hsort hj).2 ⟨k, hq⟩) (mem_getD.2 hp) ?_ hj' (Ne.symm hne)).symm
    · intro i j hu
      obtain ⟨k, hq⟩ := (jac_used hsort hj).1 hu
      exact ⟨hj.rows _ (List.mem_of_getElem? hq.1), mem_getD.2 (hj.inside k i j hq)⟩
    · exact hj.cols _ (List.mem_of_getElem? hq.2)
  · intro k i j hq i' hi' hne hp
    refine (h2.hes ?_ ((hes_used hsort hh).2 ⟨k, hq⟩) (mem_getD.2 hp) hi' (Ne.symm hne)).symm
    intro i j hu
    obtain ⟨k, hq⟩ := (hes_used hsort hh).1 hu
    exact ⟨hh.rows _ (List.mem_of_getElem? hq.1), mem_getD.2 (hh.inside k i j hq)⟩

/-- the results of the colors before `c` are there -/
structure Part {R : Type} (color : List Nat) (Q : Nat → Nat → Nat → Prop) (A : Nat → Nat → R) (K : Nat) (out0 : List R) (c : Nat) (out : List R) : Prop where
  length : out.length = out0.length
  rest : ∀ k, K ≤ k → out[k]? = out0[k]?
  value : ∀ k j o, Q k j o → color.getD j 0 < c → out[k]? = some (A j o)

theorem getD_iff {color : List Nat} {n j c : Nat} (hl : color.length = n) (hj : j < n) : color[j]? = some c ↔ color.getD j 0 = c := by
  have : j < color.length := by omega
  simp [List.getD_eq_getElem?_getD, this]

theorem Part.skip {R : Type} {n : Nat} {color : List Nat} {Q : Nat → Nat → Nat → Prop} {A : Nat → Nat → R} {K c : Nat} {out0 out : List R}
    (hl : color.length = n) (hn : ∀ k j o, Q k j o → j < n) (h : Part color Q A K out0 c out)
    (hno : ¬ ∃ k j o, Q k j o ∧ color[j]? = some c) : Part color Q A K out0 (c + 1) out :=
  ⟨h.length, h.rest, fun k j o hq hlt => h.value k j o hq (by
    have : color.getD j 0 ≠ c := fun e => hno ⟨k, j, o, hq, (getD_iff hl (hn k j o hq)).2 e⟩
    omega)⟩

theorem Part.take {R : Type} {n : Nat} {color : List Nat} {Q : Nat → Nat → Nat → Prop} {A : Nat → Nat → R} {K c : Nat} {out0 out out' : List R}
    (hl : color.length = n) (hn : ∀ k j o, Q k j o → j < n ∧ k < K) (hfun : ∀ k j o j' o', Q k j o → Q k j' o' → j = j')
    (h : Part color Q A K out0 c out) {v : Nat → Option R} (hv : ∀ k j o, Q k j o → color[j]? = some c → v o = some (A j o))
    (h1 : out'.length = out.length) (h2 : ∀ k j o, Q k j o → color[j]? = some c → out'[k]? = v o)
    (h3 : ∀ k, (∀ j o, Q k j o → color[j]? ≠ some c) → out'[k]? = out[k]?) : Part color Q A K out0 (c + 1) out' := by
  refine ⟨h1.trans h.length, ?_, ?_⟩
  · intro k hk
    rw [h3 k fun j o hq => absurd (hn k j o hq).2 (by omega), h.rest k hk]
  · intro k j o hq hlt
    by_cases hc : color.getD j 0 = c
    · have hc' := (getD_iff hl (hn k j o hq).1).2 hc
      rw [h2 k j o hq hc', hv k j o hq hc']
    · rw [h3 k, h.value k j o hq (by omega)]
      intro j' o' hq'
      rw [← hfun k j o j' o' hq hq']
      exact fun e => hc ((getD_iff hl (hn k j o hq).1).1 e)

section
variable {R : Type} [CommSemiring R] {sort : List Nat → List Nat} (hsort : SortsPositions sort) {m n : Nat} {jacP : List (List Nat)} {jr jc : List Nat}
  (hj : ValidRequest m n jacP jr jc) {hesP : List (List Nat)} {hr hc : List Nat} (hh : ValidRequest n n hesP hr hc)
  {color : List Nat} (hp : Proper n color jacP jr jc hesP hr hc)
include hsort hj hh hp

omit hsort hh in
theorem jac_value {J : Nat → Nat → R} (hcov : Covers m n jacP J) {fwd : List R → List R} (hf : ForwardOne m n J fwd) {c : Nat} :
    ∀ k j o, Requested jr jc k o j → color[j]? = some c →
      (fwd ((List.range n).map fun j => if color.getD j 0 = c then 1 else 0))[o]? = some (J o j) := by
  intro k j o hq hc
  have hjn := hj.cols _ (List.mem_of_getElem? hq.2)
  have hom := hj.rows _ (List.mem_of_getElem? hq.1)
  have hcj := (getD_iff hp.length hjn).1 hc
  rw [(hf _ (by simp)).2 o hom, sum_color hjn hcj]
  intro j' hj' hne hcj'
  by_cases hpat : InPattern jacP o j'
  · exact absurd (hcj'.trans hcj.symm) (hp.jac k o j hq j' hj' hne hpat)
  · exact hcov o hom j' hj' hpat

omit hsort hj in
theorem hes_value {H : Nat → Nat → R} (hcov : Covers n n hesP H) {rev : List R → List R} (hf : ReverseTwo n H rev) {c : Nat} :
    ∀ k j o, Requested hr hc k j o → color[j]? = some c →
      (rev ((List.range n).map fun j => if color.getD j 0 = c then 1 else 0))[o * 2 + 1]? = some (H j o) := by
  intro k j o hq hc
  have hjn := hh.rows _ (List.mem_of_getElem? hq.1)
  have hon := hh.cols _ (List.mem_of_getElem? hq.2)
  have hcj := (getD_iff hp.length hjn).1 hc
  rw [hf _ (by simp) o hon, sum_color (A := fun i => H i o) hjn hcj]
  intro i' hi' hne hci'
  by_cases hpat : InPattern hesP i' o
  · exact absurd (hci'.trans hcj.symm) (hp.hes k j o hq i' hi' hne hpat)
  · exact hcov i' hi' o hon hpat

/-- the Hessians are partly there -/
inductive Parts (color : List Nat) (hr hc : List Nat) (c : Nat) : List (Nat → Nat → R) → List (List R) → List (List R) → Prop
  | nil : Parts color hr hc c [] [] []
  | cons {H : Nat → Nat → R} {h0 h : List R} {Hs : List (Nat → Nat → R)} {hs0 hs : List (List R)} :
    hr.length ≤ h0.length → Part color (fun k j o => Requested hr hc k j o) H hr.length h0 c h → Parts color hr hc c Hs hs0 hs →
    Parts color hr hc c (H :: Hs) (h0 :: hs0) (h :: hs)

omit hsort hj hh hp in
theorem Parts.imp {color' : List Nat} {c c' : Nat} {Hs : List (Nat → Nat → R)} {hs0 hs : List (List R)} (h : Parts color hr hc c Hs hs0 hs)
    (hi : ∀ (H : Nat → Nat → R) (h0 h : List R), Part color (fun k j o => Requested hr hc k j o) H hr.length h0 c h →
      Part color' (fun k j o => Requested hr hc k j o) H hr.length h0 c' h) : Parts color' hr hc c' Hs hs0 hs := by
  induction h with
  | nil => exact .nil
  | cons h1 h2 _ ih => exact .cons h1 (hi _ _ _ h2) ih

omit hsort hj in
theorem extractHes_ok {c : Nat} {l : List Entry}
    (hl : ∀ (v : Nat → Option R) (out : List R),
        (∀ k j o, Requested hr hc k j o → color[j]? = some c → (∃ x, v o = some x) ∧ k < out.length) →
        ∃ out', extract color c v (List.range n) l out = some out' ∧ out'.length = out.length ∧
          (∀ k j o, Requested hr hc k j o → color[j]? = some c → out'[k]? = v o) ∧
          ∀ k, (∀ j o, Requested hr hc k j o → color[j]? ≠ some c) → out'[k]? = out[k]?)
    {Hs : List (Nat → Nat → R)} (hcov : ∀ H ∈ Hs, Covers n n hesP H) {revs : List (List R → List R)} (hf : List.Forall₂ (ReverseTwo n) Hs revs)
    {hs0 hs : List (List R)} (hs1 : Parts color hr hc c Hs hs0 hs) :
    ∃ hs', extractHes color c n l ((List.range n).map fun j => if color.getD j 0 = c then 1 else 0) revs hs = some hs' ∧
      Parts color hr hc (c + 1) Hs hs0 hs' := by
  induction hs1 generalizing revs with
  | nil =>
    cases hf
    exact ⟨[], rfl, .nil⟩
  | @cons H h0 h Hs hs0 hs hlen hpart _ ih =>
    cases hf with
    | @cons _ rev _ revs hrev hf =>
      have hval := hes_value hh hp (hcov H (by simp)) hrev (c := c)
      obtain ⟨out', e1, e2, e3, e4⟩ := hl (fun o => (rev ((List.range n).map fun j => if color.getD j 0 = c then 1 else 0))[o * 2 + 1]?) h (by
        intro k j o hq hc
        refine ⟨⟨_, hval k j o hq hc⟩, ?_⟩
        have := requested_lt hq
        rw [hpart.length]
        omega)
      obtain ⟨hs', f1, f2⟩ := ih (fun H hH => hcov H (List.mem_cons_of_mem _ hH)) hf
      refine ⟨out' :: hs', ?_, .cons hlen ?_ f2⟩
      · unfold extractHes
        simp only [e1, f1]
        rfl
      · refine hpart.take hp.length (fun k j o hq => ⟨hh.rows _ (List.mem_of_getElem? hq.1), requested_lt hq⟩) ?_ hval e2 e3 e4
        intro k j o j' o' h1 h2
        have := h1.1.symm.trans h2.1
        simpa using this

theorem sweep_ok {J : Nat → Nat → R} (hcov : Covers m n jacP J) {fwd : List R → List R} (hf : ForwardOne m n J fwd)
    {Hs : List (Nat → Nat → R)} (hcovs : ∀ H ∈ Hs, Covers n n hesP H) {revs : List (List R → List R)} (hrev : List.Forall₂ (ReverseTwo n) Hs revs)
    {c : Nat} {jac0 jac : List R} {hes0 hes : List (List R)} {s : Nat} (hjl : jr.length ≤ jac0.length)
    (h1 : Part color (fun k j o => Requested jr jc k o j) (fun j i => J i j) jr.length jac0 c jac) (h2 : Parts color hr hc c Hs hes0 hes) :
    ∃ jac' hes' s', sweep fwd revs n ⟨freshJac sort m n jr jc, freshHes sort n hr hc, color⟩ c (jac, hes, s) = some (jac', hes', s') ∧
      Part color (fun k j o => Requested jr jc k o j) (fun j i => J i j) jr.length jac0 (c + 1) jac' ∧ Parts color hr hc (c + 1) Hs hes0 hes' ∧
      s ≤ s' ∧ s' ≤ s + 2 ∧ (n = 0 → s' = s) := by
  obtain ⟨bj, lj, a1, a2, a3⟩ := pass_ok (c := c) hp.length (jac_rep hsort hj)
  obtain ⟨bh, lh, b1, b2, b3⟩ := pass_ok (c := c) hp.length (hes_rep hsort hh rfl)
  have hjn : ∀ k j o, Requested jr jc k o j → j < n ∧ k < jr.length := fun k j o hq => ⟨hj.cols _ (List.mem_of_getElem? hq.2), requested_lt hq⟩
  have hhn : ∀ k j o, Requested hr hc k j o → j < n := fun k j o hq => hh.rows _ (List.mem_of_getElem? hq.1)
  have hjac : ∃ jac', (if bj then extract color c (fun i => (fwd ((List.range n).map fun j => if color.getD j 0 = c then (1 : R) else 0))[i]?)
      (List.range n) lj jac else some jac) = some jac' ∧
      Part color (fun k j o => Requested jr jc k o j) (fun j i => J i j) jr.length jac0 (c + 1) jac' := by
    cases bj with
    | false => exact ⟨jac, rfl, h1.skip hp.length (fun k j o hq => (hjn k j o hq).1) fun h => by simpa using a2.2 h⟩
    | true =>
      have hval := jac_value hj hp hcov hf (c := c)
      obtain ⟨jac', e1, e2, e3, e4⟩ := a3 (fun i => (fwd ((List.range n).map fun j => if color.getD j 0 = c then (1 : R) else 0))[i]?) jac (by
        intro k j o hq hc
        refine ⟨⟨_, hval k j o hq hc⟩, ?_⟩
        have := requested_lt hq
        rw [h1.length]
        omega) rfl
      refine ⟨jac', e1, h1.take hp.length hjn ?_ hval e2 e3 e4⟩
      intro k j o j' o' h1 h2
      simpa using h1.2.symm.trans h2.2
  have hhes : ∃ hes', (if bh then extractHes color c n lh ((List.range n).map fun j => if color.getD j 0 = c then (1 : R) else 0) revs hes
      else some hes) = some hes' ∧ Parts color hr hc (c + 1) Hs hes0 hes' := by
    cases bh with
    | false => exact ⟨hes, rfl, h2.imp fun H h0 h hpart => hpart.skip hp.length hhn fun h => by simpa using b2.2 h⟩
    | true =>
      obtain ⟨hes', e1, e2⟩ := extractHes_ok hh hp (c := c) (l := lh) (fun v out hv => b3 v out hv rfl) hcovs hrev h2
      exact ⟨hes', e1, e2⟩
  obtain ⟨jac', j1, j2⟩ := hjac
  obtain ⟨hes', g1, g2⟩ := hhes
  unfold sweep
  simp only [a1, b1]
  by_cases hb : (bj || bh) = true
  · refine ⟨jac', hes', s + 1 + (if bh then 1 else 0), ?_, j2, g2, by omega, by split <;> omega, ?_⟩
    · rw [if_pos hb]
      simp only [j1, g1]
    · rintro rfl
      exfalso
      rcases (Bool.or_eq_true _ _).mp hb with h | h
      · obtain ⟨k, j, o, hq, _⟩ := a2.1 h
        have := (hjn k j o hq).1
        omega
      · obtain ⟨k, j, o, hq, _⟩ := b2.1 h
        have := hhn k j o hq
        omega
  · have hb1 : bj = false := by cases bj <;> simp_all
    have hb2 : bh = false := by cases bh <;> simp_all
    subst hb1
    subst hb2
    cases j1
    cases g1
    exact ⟨jac, hes, s, rfl, j2, g2, Nat.le_refl _, by omega, fun _ => rfl⟩

theorem run_ok {J : Nat → Nat → R} (hcov : Covers m n jacP J) {fwd : List R → List R} (hf : ForwardOne m n J fwd)
    {Hs : List (Nat → Nat → R)} (hcovs : ∀ H ∈ Hs, Covers n n hesP H) {revs : List (List R → List R)} (hrev : List.Forall₂ (ReverseTwo n) Hs revs)
    {jac0 jac : List R} {hes0 hes : List (List R)} (hjl : jr.length ≤ jac0.length)
    (h1 : Part color (fun k j o => Requested jr jc k o j) (fun j i => J i j) jr.length jac0 0 jac) (h2 : Parts color hr hc 0 Hs hes0 hes) :
    ∀ N, ∃ jac' hes' s', (List.range N).foldlM (fun s c => sweep fwd revs n ⟨freshJac sort m n jr jc, freshHes sort n hr hc, color⟩ c s) (jac, hes, 0) =
        some (jac', hes', s') ∧
      Part color (fun k j o => Requested jr jc k o j) (fun j i => J i j) jr.length jac0 N jac' ∧ Parts color hr hc N Hs hes0 hes' ∧
      s' ≤ 2 * N ∧ (n = 0 → s' = 0)
  | 0 => ⟨jac, hes, 0, rfl, h1, h2, Nat.le_refl _, fun _ => rfl⟩
  | N + 1 => by
    obtain ⟨jac', hes', s', e1, e2, e3, e4, e5⟩ := run_ok hcov hf hcovs hrev hjl h1 h2 N
    obtain ⟨jac2, hes2, s2, f1, f2, f3, _, f5, f6⟩ := sweep_ok hsort hj hh hp hcov hf hcovs hrev (s := s') hjl e2 e3
    refine ⟨jac2, hes2, s2, ?_, f2, f3, by omega, fun hn => (f6 hn).trans (e5 hn)⟩
    rw [List.range_succ, List.foldlM_append, e1]
    simp only [List.foldlM_cons, List.foldlM_nil, Option.bind_eq_bind, Option.bind_some, f1]
    rfl

end

theorem numColors_le {color : List Nat} {n : Nat} (h : ∀ c ∈ color, c < n) (hn : 1 ≤ n) : numColors color ≤ n := by
  have key : ∀ (l : List Nat) (a : Nat), a ≤ n → (∀ c ∈ l, c < n) → l.foldl (fun a c => max a (c + 1)) a ≤ n := by
    intro l
    induction l with
    | nil => exact fun a h _ => h
    | cons x l ih =>
      intro a ha hl
      have := hl x (by simp)
      refine ih (max a (x + 1)) (by omega) fun c hc => hl c (List.mem_cons_of_mem _ hc)
  exact key color 1 hn h

end Verif.Colors
