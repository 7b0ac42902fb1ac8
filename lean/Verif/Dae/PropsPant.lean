import Verif.Dae.LemmasSingular
import Mathlib.Tactic.IntervalCases
/-
Property theorems C29 and C43: what Pantelides' loop returns, and when it ends.
-/
namespace Verif.Dae

/-- no variable is the antiderivative of two variables -/
def OneDerivative (info : List VarInfo) : Prop :=
  ∀ (t t' a : Nat) x x', info[t]? = some x → info[t']? = some x' → x.timeDep = true → x'.timeDep = true →
    x.anti = some a → x'.anti = some a → t = t'

/-- the system given by the user is structurally regular: equation `i` contains the time dependent
variables `t` with `inc i t` -/
def RegularSystem (info : List VarInfo) (m : Nat) (inc : Nat → Nat → Bool) : Prop :=
  Regular m (fun i t => inc i t = true ∧ ∃ x, info[t]? = some x ∧ x.timeDep = true) fun t => (info[t]?).bind VarInfo.anti

/-- what a reduction of the `m` equations of `g` returns -/
structure Reduced (m : Nat) (g g' : BG) : Prop where
  /-- equations are assigned to distinct variables they contain -/
  matching : IsMatching (fun k => (g'.e k).orig) fun k => (g'.e k).assign
  /-- both directions agree -/
  both : ∀ k j, (g'.e k).assign = some j ↔ (g'.v j).assign = some k
  /-- equations without derivative are assigned, to variables without derivative -/
  assigned : ∀ k, k < g'.ne → (g'.e k).diff = none → ∃ j, (g'.e k).assign = some j ∧ j < g'.nv ∧ (g'.v j).deriv = none
  /-- the original equations come first and keep their variables -/
  original : m ≤ g'.ne ∧ ∀ i, i < m → (g'.e i).orig = (g.e i).orig
  /-- all other equations are derivatives -/
  others : ∀ k, k < g'.ne → ((g'.e k).diffOf = none ↔ k < m)
  /-- links between equations go both ways -/
  links : ∀ i d, i < g'.ne → d < g'.ne → ((g'.e i).diff = some d ↔ (g'.e d).diffOf = some i)
  exist : ∀ i d, i < g'.ne → (g'.e i).diff = some d → d < g'.ne ∧ i < d
  /-- links between variables go both ways -/
  vlinks : ∀ j d, j < g'.nv → d < g'.nv → ((g'.v j).deriv = some d ↔ (g'.v d).anti = some j)
  /-- the derivative of an equation contains its variables and their derivatives, nothing else -/
  chain : ∀ i d, i < g'.ne → (g'.e i).diff = some d →
    (∀ j ∈ (g'.e i).orig, ∃ dj, (g'.v j).deriv = some dj) ∧
    ∀ j, j ∈ (g'.e d).orig ↔ j ∈ (g'.e i).orig ∨ ∃ a ∈ (g'.e i).orig, (g'.v a).deriv = some j

theorem reduced_of_done {g g' : BG} (hP : PInv g.ne (fun _ => False) g') (hE : Ext g g') : Reduced g.ne g g' where
  matching := ⟨fun i j h => hP.inc i j h, fun i i' j h h' => by
    have e1 := (hP.agree.iff i j).mp h
    rw [(hP.agree.iff i' j).mp h'] at e1
    exact (Option.some.inj e1).symm⟩
  both := hP.agree.iff
  assigned k hk hd := by
    obtain ⟨j, h1, h2⟩ := hP.top k hk hd (fun h => h)
    exact ⟨j, h1, hP.w.bound k j (hP.inc k j h1), h2⟩
  original := ⟨hP.links.le, hE.orig⟩
  others := hP.links.first
  links i d hi hd := ⟨fun h => (hP.links.link i d hi h).2.1, fun h => (hP.links.unlink i d hd h).2⟩
  exist i d hi h := by
    obtain ⟨h1, h2, _⟩ := hP.links.link i d hi h
    exact ⟨h1, hP.links.lt i d h1 h2⟩
  vlinks j d _ hd := ⟨fun h => (hP.w.link j d h).2.2, fun h => hP.w.unlink j d hd h⟩
  chain i d hi h := by
    obtain ⟨_, _, h3, h4⟩ := hP.links.link i d hi h
    refine ⟨fun j hj => ?_, fun j => ⟨h4 j, ?_⟩⟩
    · obtain ⟨_, dj, h5, _⟩ := h3 j hj
      exact ⟨dj, h5⟩
    · rintro (hj | ⟨a, ha, hd⟩)
      · exact (h3 j hj).1
      · obtain ⟨_, dj, h5, h6⟩ := h3 a ha
        rw [hd] at h5
        cases h5
        exact h6

theorem detect_outcome {g : BG} (h : Ready g) (fuel : Nat) :
    detectSubset2Dif fuel g = .error .running ∨ detectSubset2Dif fuel g = .error .exception ∨
    ∃ g', detectSubset2Dif fuel g = .ok g' ∧ PInv g.ne (fun _ => False) g' ∧ Ext g g' := by
  unfold detectSubset2Dif
  rw [range_eq_range']
  exact detect_ok g.ne 0 g (Nat.zero_add _) h.pinv

/-- C29: Pantelides' loop, started on the graph made from the user's description, never dereferences a null
pointer; if it returns, then the equations which are not replaced by a derivative of themselves are
assigned to distinct variables which they contain, and the links are consistent. Not every equation is
assigned: see `unassigned_counterexample`. -/
theorem pantelides_correct_partial {info : List VarInfo} {m : Nat} {inc : Nat → Nat → Bool} {g : BG}
    (hc : construct info m inc = .ok g) (h1 : OneDerivative info) (fuel : Nat) :
    detectSubset2Dif fuel g = .error .running ∨ detectSubset2Dif fuel g = .error .exception ∨
    ∃ g', detectSubset2Dif fuel g = .ok g' ∧ Reduced m g g' := by
  obtain ⟨⟨tape, hB⟩, _⟩ := construct_built hc h1
  have hne := hB.ne
  subst hne
  rcases detect_outcome hB.ready fuel with r | r | ⟨g', r, hP, hE⟩
  · exact .inl r
  · exact .inr (.inl r)
  · exact .inr (.inr ⟨g', r, reduced_of_done hP hE⟩)

/-! ### regular systems -/

theorem Built.derivOf {info : List VarInfo} {m : Nat} {inc : Nat → Nat → Bool} {tape : List Nat} {g : BG}
    (h : Built info m inc tape g) {p q s : Nat} (hd : DerivOf (fun j => (g.v j).anti) p q) (hp : tape[p]? = some s) :
    ∃ t, tape[q]? = some t ∧ DerivOf (fun t => (info[t]?).bind VarInfo.anti) s t := by
  induction hd with
  | refl => exact ⟨s, hp, .refl⟩
  | @step b c _ hbc ih =>
    obtain ⟨t, h1, h2⟩ := ih
    obtain ⟨t', a, e1, e2, e3⟩ := (h.anti c b).mp hbc
    rw [h1] at e2
    cases e2
    exact ⟨t', e1, .step h2 e3⟩

theorem Built.derivOf' {info : List VarInfo} {m : Nat} {inc : Nat → Nat → Bool} {tape : List Nat} {g : BG}
    (h : Built info m inc tape g) {s t : Nat} (hd : DerivOf (fun t => (info[t]?).bind VarInfo.anti) s t) :
    ∀ q : Nat, tape[q]? = some t → ∃ p : Nat, tape[p]? = some s ∧ DerivOf (fun j => (g.v j).anti) p q := by
  induction hd with
  | refl => exact fun q hq => ⟨q, hq, .refl⟩
  | @step b c _ hbc ih =>
    intro q hq
    obtain ⟨p, hp⟩ := h.closed q c b hq hbc
    obtain ⟨r, h1, h2⟩ := ih p hp
    exact ⟨r, h1, .step h2 ((h.anti q p).mpr ⟨c, b, hq, hp, hbc⟩)⟩

theorem Built.pos {info : List VarInfo} {m : Nat} {inc : Nat → Nat → Bool} {tape : List Nat} {g : BG}
    (h : Built info m inc tape g) {p q t : Nat} (hp : tape[p]? = some t) (hq : tape[q]? = some t) : p = q := by
  have e1 := (idxOf_nodup h.nodup).mpr hp
  rw [(idxOf_nodup h.nodup).mpr hq] at e1
  exact (Option.some.inj e1).symm

theorem Built.regular {info : List VarInfo} {m : Nat} {inc : Nat → Nat → Bool} {tape : List Nat} {g : BG}
    (h : Built info m inc tape g) :
    Regular g.ne (fun i j => j ∈ (g.e i).orig) (fun j => (g.v j).anti) ↔ RegularSystem info m inc := by
  rw [h.ne]
  constructor
  · rintro ⟨f, h1, h2⟩
    have : ∀ i, ∃ t, i < m → tape[f i]? = some t ∧ inc i t = true := by
      intro i
      by_cases hi : i < m
      · obtain ⟨_, t, ht⟩ := (h.orig i (f i)).mp (h1 i hi)
        exact ⟨t, fun _ => ht⟩
      · exact ⟨0, fun x => absurd x hi⟩
    choose F hF using this
    refine ⟨F, fun i hi => ⟨(hF i hi).2, (h.mem _).mp (List.mem_of_getElem? (hF i hi).1)⟩, fun i i' hi hi' hd => ?_⟩
    obtain ⟨p, e1, e2⟩ := h.derivOf' hd _ (hF i' hi').1
    have := h.pos e1 (hF i hi).1
    subst this
    exact h2 i i' hi hi' e2
  · rintro ⟨f, h1, h2⟩
    have : ∀ i, ∃ p : Nat, i < m → tape[p]? = some (f i) := by
      intro i
      by_cases hi : i < m
      · obtain ⟨p, hp, he⟩ := List.getElem_of_mem ((h.mem _).mpr (h1 i hi).2)
        exact ⟨p, fun _ => by rw [List.getElem?_eq_getElem hp, he]⟩
      · exact ⟨0, fun x => absurd x hi⟩
    choose F hF using this
    refine ⟨F, fun i hi => (h.orig i _).mpr ⟨hi, f i, hF i hi, (h1 i hi).1⟩, fun i i' hi hi' hd => ?_⟩
    obtain ⟨t, e1, e2⟩ := h.derivOf hd (hF i hi)
    rw [hF i' hi'] at e1
    cases e1
    exact h2 i i' hi hi' e2

/-- C43: for a structurally regular system Pantelides' loop ends -/
theorem pantelides_ends {info : List VarInfo} {m : Nat} {inc : Nat → Nat → Bool} {g : BG}
    (hc : construct info m inc = .ok g) (h1 : OneDerivative info) (hr : RegularSystem info m inc) :
    ∃ n, ∀ fuel, n ≤ fuel → detectSubset2Dif fuel g ≠ .error .running := by
  obtain ⟨⟨tape, hB⟩, _⟩ := construct_built hc h1
  obtain ⟨f, c, e, n, t, hp⟩ := hB.ready.pot (hB.regular.mpr hr)
  refine ⟨(∑ x ∈ Finset.range g.ne, n x) + 1, fun fuel hf => ?_⟩
  unfold detectSubset2Dif
  rw [range_eq_range']
  exact detect_ends g.ne 0 g c e n t (Nat.zero_add _) hB.ready.pinv hp (by omega)

/-- C43: a structurally singular system is never accepted -/
theorem pantelides_regular {info : List VarInfo} {m : Nat} {inc : Nat → Nat → Bool} {g g' : BG}
    (hc : construct info m inc = .ok g) (h1 : OneDerivative info) {fuel : Nat} (h : detectSubset2Dif fuel g = .ok g') :
    RegularSystem info m inc := by
  obtain ⟨⟨tape, hB⟩, _⟩ := construct_built hc h1
  rcases detect_outcome hB.ready fuel with r | r | ⟨g'', r, hP, hE⟩
  · rw [h] at r; cases r
  · rw [h] at r; cases r
  · rw [h] at r; cases r
    exact hB.regular.mp (regular_of_done hB.w hP hE)

theorem algebraic_outcome {info : List VarInfo} {m : Nat} {inc : Nat → Nat → Bool} {g : BG}
    (hc : construct info m inc = .ok g) (ha : ∀ x ∈ info, x.anti = none)
    (hn : ∀ i, i < m → ∃ t x, info[t]? = some x ∧ x.timeDep = true ∧ inc i t = true) (fuel : Nat) :
    detectSubset2Dif fuel g = .error .running ∨ ∃ g', detectSubset2Dif fuel g = .ok g' := by
  have h1 : OneDerivative info := by
    intro t _ a x _ hx _ _ _ hxa _
    rw [ha x (List.mem_of_getElem? hx)] at hxa
    cases hxa
  obtain ⟨⟨tape, hB⟩, _⟩ := construct_built hc h1
  unfold detectSubset2Dif
  rw [range_eq_range']
  refine algebraic_detect g.ne 0 g (Nat.zero_add _) hB.ready.pinv rfl ?_ ?_
  · intro j
    cases hd : (g.v j).deriv with
    | none => rfl
    | some d =>
      obtain ⟨t, a, _, _, h3⟩ := (hB.anti d j).mp (hB.w.link j d hd).2.2
      cases ht : info[t]? with
      | none => rw [ht] at h3; cases h3
      | some x =>
        rw [ht] at h3
        have := ha x (List.mem_of_getElem? ht)
        rw [Option.bind_some, this] at h3
        cases h3
  · intro i hi
    rw [hB.ne] at hi
    obtain ⟨t, x, h1, h2, h3⟩ := hn i hi
    obtain ⟨p, hp, he⟩ := List.getElem_of_mem ((hB.mem t).mpr ⟨x, h1, h2⟩)
    have := (hB.orig i p).mpr ⟨hi, t, by rw [List.getElem?_eq_getElem hp, he], h3⟩
    exact List.ne_nil_of_mem this

/-- C43: a system without derivatives whose equations are not empty is accepted if it is structurally regular -/
theorem algebraic_accepted {info : List VarInfo} {m : Nat} {inc : Nat → Nat → Bool} {g : BG}
    (hc : construct info m inc = .ok g) (ha : ∀ x ∈ info, x.anti = none)
    (hn : ∀ i, i < m → ∃ t x, info[t]? = some x ∧ x.timeDep = true ∧ inc i t = true) (hr : RegularSystem info m inc) :
    ∃ n, ∀ fuel, n ≤ fuel → ∃ g', detectSubset2Dif fuel g = .ok g' := by
  have h1 : OneDerivative info := by
    intro t _ a x _ hx _ _ _ hxa _
    rw [ha x (List.mem_of_getElem? hx)] at hxa
    cases hxa
  obtain ⟨n, hf⟩ := pantelides_ends hc h1 hr
  refine ⟨n, fun fuel hle => ?_⟩
  rcases algebraic_outcome hc ha hn fuel with r | r
  · exact absurd r (hf fuel hle)
  · exact r

/-- C43, what the code does instead: if a system without derivatives is structurally singular, and no
equation is empty, then the loop never ends -/
theorem algebraic_singular_endless {info : List VarInfo} {m : Nat} {inc : Nat → Nat → Bool} {g : BG}
    (hc : construct info m inc = .ok g) (ha : ∀ x ∈ info, x.anti = none)
    (hn : ∀ i, i < m → ∃ t x, info[t]? = some x ∧ x.timeDep = true ∧ inc i t = true) (hr : ¬ RegularSystem info m inc)
    (fuel : Nat) : detectSubset2Dif fuel g = .error .running := by
  have h1 : OneDerivative info := by
    intro t _ a x _ hx _ _ _ hxa _
    rw [ha x (List.mem_of_getElem? hx)] at hxa
    cases hxa
  rcases algebraic_outcome hc ha hn fuel with r | ⟨g', r⟩
  · exact r
  · exact absurd (pantelides_regular hc h1 r) hr

/-! ### examples and counterexamples -/

/-- sparsity pattern given by rows -/
def rows (r : List (List Nat)) (i j : Nat) : Bool := ((r[i]?).getD []).contains j

/-- a description: the antiderivatives of the variables -/
def vars (l : List (Option Nat)) : List VarInfo := l.map fun a => { anti := a }

/-- the reduced system: variables, assigned variable and derivative of each equation -/
def reduce (l : List (Option Nat)) (r : List (List Nat)) (fuel : Nat) :
    Except Err (List (List Nat × Option Nat × Option Nat)) := do
  let g ← construct (vars l) r.length (rows r)
  let g ← detectSubset2Dif fuel g
  pure ((List.range g.ne).map fun i => ((g.e i).orig, (g.e i).assign, (g.e i).diff))

/-- a pendulum: x, y, u, v, T, x', y', u', v' -/
def pendulum : List (Option Nat) := [none, none, none, none, none, some 0, some 1, some 2, some 3]
def pendulumRows : List (List Nat) := [[5, 2], [6, 3], [7, 0, 4], [8, 1, 4], [0, 1]]

example : reduce pendulum pendulumRows 3 = .ok
    [([2, 5], some 5, some 6), ([3, 6], some 6, some 7), ([0, 4, 7], some 4, none), ([1, 4, 8], some 8, none),
     ([0, 1], none, some 5), ([0, 5, 1, 6], none, some 8), ([2, 7, 5, 9], some 7, none), ([3, 8, 6, 10], some 10, none),
     ([0, 5, 9, 1, 6, 10], some 9, none)] := by decide +kernel

/-- the hypotheses of the theorems hold for the pendulum -/
example : (∃ g, construct (vars pendulum) 5 (rows pendulumRows) = .ok g) ∧ OneDerivative (vars pendulum) ∧
    RegularSystem (vars pendulum) 5 (rows pendulumRows) := by
  have hd : OneDerivative (vars pendulum) := by
    intro t t' a x x' hx hx' _ _ ha ha'
    have h1 := (List.getElem?_eq_some_iff.mp hx).1
    have h2 := (List.getElem?_eq_some_iff.mp hx').1
    have key : ∀ t < 9, ∀ t' < 9, ((vars pendulum)[t]?).bind VarInfo.anti = none ∨
        ((vars pendulum)[t]?).bind VarInfo.anti ≠ ((vars pendulum)[t']?).bind VarInfo.anti ∨ t = t' := by decide +kernel
    have e1 : ((vars pendulum)[t]?).bind VarInfo.anti = some a := by rw [hx]; exact ha
    have e2 : ((vars pendulum)[t']?).bind VarInfo.anti = some a := by rw [hx']; exact ha'
    rcases key t h1 t' h2 with h | h | h
    · rw [e1] at h; cases h
    · exact absurd (e1.trans e2.symm) h
    · exact h
  cases hc : construct (vars pendulum) 5 (rows pendulumRows) with
  | error e =>
    have : (construct (vars pendulum) 5 (rows pendulumRows)).isOk = true := by decide +kernel
    rw [hc] at this
    cases this
  | ok g =>
    refine ⟨⟨g, rfl⟩, hd, ?_⟩
    have : (detectSubset2Dif 3 g).isOk = true := by
      have h2 : (construct (vars pendulum) 5 (rows pendulumRows) >>= detectSubset2Dif 3).isOk = true := by decide +kernel
      rw [hc] at h2
      exact h2
    cases h3 : detectSubset2Dif 3 g with
    | error e => rw [h3] at this; cases this
    | ok g' => exact pantelides_regular hc hd h3

/-- C29: not every equation is assigned when the loop returns. Variables x, x', y, equations `x = 0` and
`x' = y`: the first one, of which the derivative is used, is left without variable. -/
theorem unassigned_counterexample : reduce [none, some 0, none] [[0], [1, 2]] 2 =
    .ok [([0], none, some 2), ([2, 1], some 1, none), ([0, 2], some 2, none)] := by decide +kernel

/-- C43: the loop does not end for `x = 0`, `x = 0` and the unused variable y -/
theorem nontermination_counterexample : ∃ g, construct (vars [none, none]) 2 (rows [[0], [0]]) = .ok g ∧
    ∀ fuel, detectSubset2Dif fuel g = .error .running := by
  cases hc : construct (vars [none, none]) 2 (rows [[0], [0]]) with
  | error e =>
    have : (construct (vars [none, none]) 2 (rows [[0], [0]])).isOk = true := by decide +kernel
    rw [hc] at this
    cases this
  | ok g =>
    refine ⟨g, rfl, algebraic_singular_endless hc (by decide) (fun i hi => ⟨0, {}, rfl, rfl, ?_⟩) ?_⟩
    · interval_cases i <;> rfl
    · rintro ⟨f, h1, h2⟩
      have h0 : ∀ i < 2, f i = 0 := by
        intro i hi
        have := (h1 i hi).1
        interval_cases i <;> simpa [rows] using this
      have := h2 0 1 (by omega) (by omega) (by rw [h0 0 (by omega), h0 1 (by omega)]; exact .refl)
      cases this

/-- C43: regular systems can be rejected, depending on the order of the equations. Variables x, x', y, y',
v, v', z, w; with the equation of x alone in the fourth place the system is called over-defined, with the same
equation in the first place it is accepted. -/
theorem rejected_counterexample :
    reduce [none, some 0, none, some 2, none, some 4, none, none] [[1, 2, 4], [1, 2, 4], [3, 6], [0], [5, 7]] 3 = .error .exception ∧
    (reduce [none, some 0, none, some 2, none, some 4, none, none] [[0], [1, 2, 4], [1, 2, 4], [3, 6], [5, 7]] 3).isOk = true := by
  decide +kernel

/-- C43: the smallest such system has the variables x, x' and the single equation of x: it is rejected, because
the variables of its derivative are in no other equation. If another equation contains x' as well, the equation of
x is differentiated and the system accepted. -/
theorem rejected_small_counterexample :
    reduce [none, some 0] [[0]] 5 = .error .exception ∧
    (reduce [none, some 0, none] [[0], [1, 2]] 5).isOk = true ∧
    RegularSystem (vars [none, some 0]) 1 (rows [[0]]) := by
  refine ⟨by decide +kernel, by decide +kernel, fun _ => 0, fun i hi => ?_, fun i i' hi hi' _ => by omega⟩
  obtain rfl : i = 0 := by omega
  exact ⟨by decide, {}, rfl, rfl⟩

end Verif.Dae
