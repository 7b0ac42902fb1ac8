import Verif.Dae.LemmasSoares4
import Verif.Dae.PropsPant
/-
Property theorems C75: the method of Soares and Secchi always ends, and what it accepts.
-/
namespace Verif.Dae.Soares

/-- what the method returns for the `m` equations of `g` -/
structure Assigned (m : Nat) (g g' : BG) : Prop where
  /-- equations are assigned to distinct variables they contain -/
  matching : IsMatching (fun k => (g'.e k).orig) fun k => (g'.e k).assign
  /-- both directions agree -/
  both : ∀ k j, (g'.e k).assign = some j ↔ (g'.v j).assign = some k
  /-- every equation is assigned -/
  covers : Covers (fun k => (g'.e k).assign) {k | k < g'.ne}
  /-- equations without derivative are assigned to highest derivatives -/
  highest : ∀ k j, (g'.e k).diff = none → (g'.e k).assign = some j → (g'.v j).deriv = none ∧ (g'.v j).anti ≠ none
  /-- the original equations come first and keep their variables -/
  original : m ≤ g'.ne ∧ ∀ i, i < m → (g'.e i).orig = (g.e i).orig
  /-- all other equations are derivatives -/
  others : ∀ k, k < g'.ne → ((g'.e k).diffOf = none ↔ k < m)
  /-- links between equations go both ways -/
  links : ∀ i d, d < g'.ne → ((g'.e i).diff = some d ↔ (g'.e d).diffOf = some i)
  exist : ∀ i d, (g'.e i).diff = some d → d < g'.ne ∧ i < d
  /-- links between variables go both ways, those which were there are kept -/
  vlinks : ∀ j d, d < g'.nv → ((g'.v j).deriv = some d ↔ (g'.v d).anti = some j)
  kept : g.nv ≤ g'.nv ∧ ∀ j, j < g.nv → (g'.v j).anti = (g.v j).anti
  /-- the derivative of an equation contains the derivatives of its variables, nothing else -/
  chain : ∀ i d, (g'.e i).diff = some d →
    (∀ j ∈ (g'.e i).orig, ∃ dj, (g'.v j).deriv = some dj) ∧
    ∀ j, j ∈ (g'.e d).orig ↔ ∃ a ∈ (g'.e i).orig, (g'.v a).deriv = some j

theorem assigned_of {g g' : BG} (h : SInv g.ne [] g') (hE : Ext g g') (ha : ∀ q, q < g'.ne → (g'.e q).assign ≠ none) :
    Assigned g.ne g g' where
  matching := ⟨fun i j hj => by show j ∈ (g'.e i).orig; rw [← h.frame.vars]; exact h.inc i j hj, fun i i' j hi hi' => by
    have e1 := (h.agree.iff i j).mp hi
    rw [(h.agree.iff i' j).mp hi'] at e1
    exact (Option.some.inj e1).symm⟩
  both := h.agree.iff
  covers k hk := ha k hk
  highest k j hd hj := by
    have hc := h.high k hd (by simp) j hj
    unfold consA at hc
    rw [Bool.and_eq_true, Option.isNone_iff_eq_none] at hc
    refine ⟨hc.1, fun h => ?_⟩
    rw [h] at hc
    cases hc.2
  original := ⟨h.frame.lk.le, hE.orig⟩
  others := h.frame.lk.first
  links i d hd := ⟨fun hl => (h.frame.lk.link i d hl).2.2.1, fun hl => h.frame.lk.unlink i d hd hl⟩
  exist i d hl := ⟨(h.frame.lk.link i d hl).2.1, (h.frame.lk.link i d hl).2.2.2.1⟩
  vlinks j d hd := ⟨fun hl => (h.frame.w.link j d hl).2.2, fun hl => h.frame.w.unlink j d hd hl⟩
  kept := ⟨hE.nv, hE.anti⟩
  chain i d hl := by
    obtain ⟨_, _, _, _, h5, h6⟩ := h.frame.lk.link i d hl
    refine ⟨fun j hj => ?_, fun j => ⟨h6 j, ?_⟩⟩
    · obtain ⟨dj, h7, _⟩ := h5 j hj
      exact ⟨dj, h7⟩
    · rintro ⟨a, ha, hd⟩
      obtain ⟨dj, h7, h8⟩ := h5 a ha
      rw [hd] at h7
      cases h7
      exact h8

/-- the number of rounds is bounded by the number of variables -/
theorem enough {info : List VarInfo} {m : Nat} {inc : Nat → Nat → Bool} {g : BG} (hc : construct info m inc = .ok g)
    (h1 : OneDerivative info) : psi g ≤ g.ne + info.length := by
  obtain ⟨⟨tape, hB⟩, hu⟩ := construct_built hc h1
  have hn : g.nv ≤ info.length := by
    rw [hB.nv]
    have hsub : tape ⊆ List.range info.length := fun t ht => by
      obtain ⟨x, hx, _⟩ := (hB.mem t).mp ht
      exact List.mem_range.mpr (List.getElem?_eq_some_iff.mp hx).1
    have := (hB.nodup.subperm hsub).length_le
    rwa [List.length_range] at this
  have ha : (alg g).card ≤ unknowns g := by
    unfold alg unknowns
    rw [← List.toFinset_card_of_nodup (List.nodup_range.filter _)]
    refine Finset.card_le_card fun j hj => ?_
    rw [Finset.mem_filter, Finset.mem_range] at hj
    rw [List.mem_toFinset, List.mem_filter, List.mem_range]
    refine ⟨hj.1, ?_⟩
    rw [hB.w.param, hj.2.2]
    simp
  have := hB.ne
  unfold psi
  omega

/-- C75: the method never dereferences a null pointer; it returns after no more rounds than there are variables and
two; and if it accepts a system, then all equations are assigned to distinct variables they contain, those which are
not replaced by a derivative to highest derivatives, and the links are consistent. This holds whatever the order in
which marked equations are differentiated (`order`: they are sorted by their addresses). -/
theorem soares_correct {info : List VarInfo} {m : Nat} {inc : Nat → Nat → Bool} {g : BG}
    (hc : construct info m inc = .ok g) (h1 : OneDerivative info) {order : List Nat → List Nat} (ho : ∀ l, (order l).Perm l)
    (fuel : Nat) :
    (detect false order fuel [] g = .error .running ∧ fuel < info.length + 2) ∨ detect false order fuel [] g = .error .exception ∨
    ∃ g' l, detect false order fuel [] g = .ok (g', l) ∧ Assigned m g g' := by
  obtain ⟨⟨tape, hB⟩, _⟩ := construct_built hc h1
  have hs := enough hc h1
  have hne := hB.ne
  subst hne
  rcases detect_ok false ho fuel [] g (start hB.ready (construct_clean hc)) with ⟨r, hr⟩ | ⟨r, _⟩ | ⟨g', l, r, hS, hE, ha⟩
  · exact .inl ⟨r, by omega⟩
  · exact .inr (.inl r)
  · exact .inr (.inr ⟨g', l, r, assigned_of hS hE ha⟩)

/-- C75: only structurally regular systems are accepted -/
theorem soares_regular {info : List VarInfo} {m : Nat} {inc : Nat → Nat → Bool} {g : BG}
    (hc : construct info m inc = .ok g) (h1 : OneDerivative info) {order : List Nat → List Nat} (ho : ∀ l, (order l).Perm l)
    {fuel : Nat} {r : BG × List Nat} (hr : detect false order fuel [] g = .ok r) : RegularSystem info m inc := by
  obtain ⟨⟨tape, hB⟩, _⟩ := construct_built hc h1
  rw [← hB.regular]
  rcases detect_ok false ho fuel [] g (start hB.ready (construct_clean hc)) with ⟨e, _⟩ | ⟨e, _⟩ | ⟨g', l, e, hS, hE, ha⟩
  · rw [e] at hr; cases hr
  · rw [e] at hr; cases hr
  · exact sound hB.w hS hE ha

/-- C75: a system rejected before anything was differentiated is not structurally regular. Systems rejected later may be
regular: see `regular_rejected_counterexample`. -/
theorem soares_rejected_partial {info : List VarInfo} {m : Nat} {inc : Nat → Nat → Bool} {g : BG}
    (hc : construct info m inc = .ok g) (h1 : OneDerivative info) (order : List Nat → List Nat)
    (hr : detect false order 1 [] g = .error .exception) : ¬ RegularSystem info m inc := by
  obtain ⟨⟨tape, hB⟩, _⟩ := construct_built hc h1
  have S := start hB.ready (construct_clean hc)
  rw [← hB.regular]
  intro hreg
  unfold detect at hr
  rcases assignAll_ok false S with ⟨_, hs⟩ | ⟨g1, Mk, e, _⟩
  · exact complete hB.w S (Ext.refl g) hreg (hs (.inr fun q => (hB.diff q).1))
  · rw [e] at hr
    cases Mk with
    | nil => cases hr
    | cons i l => simp only [detect, Except.error.injEq, reduceCtorEq] at hr

/-- C75: if all equations, not only those just marked, are uncolored before the second search, then exactly the
structurally regular systems are accepted and all others rejected -/
theorem soares_corrected {info : List VarInfo} {m : Nat} {inc : Nat → Nat → Bool} {g : BG}
    (hc : construct info m inc = .ok g) (h1 : OneDerivative info) {order : List Nat → List Nat} (ho : ∀ l, (order l).Perm l)
    {fuel : Nat} (hf : info.length + 2 ≤ fuel) :
    (RegularSystem info m inc → ∃ g' l, detect true order fuel [] g = .ok (g', l) ∧ Assigned m g g') ∧
    (¬ RegularSystem info m inc → detect true order fuel [] g = .error .exception) := by
  obtain ⟨⟨tape, hB⟩, _⟩ := construct_built hc h1
  have hs := enough hc h1
  rw [← hB.regular]
  have hne := hB.ne
  subst hne
  rcases detect_ok true ho fuel [] g (start hB.ready (construct_clean hc)) with ⟨_, hr⟩ | ⟨e, hx⟩ | ⟨g', l, e, hS, hE, ha⟩
  · exact absurd ⟨by omega, by omega⟩ hr
  · refine ⟨fun hreg => ?_, fun _ => e⟩
    obtain ⟨g', d1, d2, d3⟩ := hx rfl
    exact absurd d3 (complete hB.w d1 d2 hreg)
  · exact ⟨fun _ => ⟨g', l, e, assigned_of hS hE ha⟩, fun hn => absurd (sound hB.w hS hE ha) hn⟩

/-! ### examples and counterexamples -/

/-- the reduced system: variables, assigned variable and derivative of each equation, and the equations marked last -/
def reduce (all : Bool) (l : List (Option Nat)) (r : List (List Nat)) (fuel : Nat) :
    Except Err (List (List Nat × Option Nat × Option Nat) × List Nat) := do
  let g ← construct (vars l) r.length (rows r)
  let (g, last) ← detect all id fuel [] g
  pure ((List.range g.ne).map fun i => ((g.e i).orig, (g.e i).assign, (g.e i).diff), last)

/-- the pendulum meets the hypotheses and is accepted -/
example : (reduce false pendulum pendulumRows 11).map (fun r => (r.1.length, r.2)) = .ok (14, [2, 3, 6, 7, 8]) := by decide +kernel

/-- a system with a single algebraic equation, and a singular one -/
example : reduce false [none, some 0] [[0]] 4 = .ok ([([0], some 0, some 1), ([1], some 1, none)], [0]) := by decide +kernel
example : reduce false [none, none] [[0], [0]] 4 = .error .exception := by decide +kernel

/-- the description meets `OneDerivative` -/
theorem oneDerivative_of {l : List (Option Nat)} (h : ∀ t < l.length, ∀ t' < l.length, (l[t]?).bind id = none ∨
    (l[t]?).bind id ≠ (l[t']?).bind id ∨ t = t') : OneDerivative (vars l) := by
  intro t t' a x x' hx hx' _ _ ha ha'
  simp only [vars, List.getElem?_map, Option.map_eq_some_iff] at hx hx'
  obtain ⟨y, hy, rfl⟩ := hx
  obtain ⟨y', hy', rfl⟩ := hx'
  simp only at ha ha'
  rcases h t (List.getElem?_eq_some_iff.mp hy).1 t' (List.getElem?_eq_some_iff.mp hy').1 with h | h | h
  · rw [hy, Option.bind_some, ha] at h; cases h
  · rw [hy, hy', Option.bind_some, Option.bind_some, ha, ha'] at h; exact absurd rfl h
  · exact h

/-- the theorems apply to the pendulum -/
example : ∃ g g' l, construct (vars pendulum) 5 (rows pendulumRows) = .ok g ∧ detect false id 11 [] g = .ok (g', l) ∧
    RegularSystem (vars pendulum) 5 (rows pendulumRows) ∧ Assigned 5 g g' := by
  have hd : OneDerivative (vars pendulum) := oneDerivative_of (by decide +kernel)
  cases hc : construct (vars pendulum) 5 (rows pendulumRows) with
  | error e =>
    have : (construct (vars pendulum) 5 (rows pendulumRows)).isOk = true := by decide +kernel
    rw [hc] at this
    cases this
  | ok g =>
    have hk : (detect false id 11 [] g).isOk = true := by
      have h2 : (construct (vars pendulum) 5 (rows pendulumRows) >>= detect false id 11 []).isOk = true := by decide +kernel
      rw [hc] at h2
      exact h2
    rcases soares_correct hc hd (order := id) (fun l => List.Perm.refl l) 11 with ⟨_, hr⟩ | hr | ⟨g', l, hr, hA⟩
    · exact absurd hr (by decide)
    · rw [hr] at hk; cases hk
    · exact ⟨g, g', l, rfl, hr, soares_regular hc hd (order := id) (fun l => List.Perm.refl l) hr, hA⟩

/-- C75: a structurally regular system is rejected, whatever the number of rounds. Variables x, y, z, x', equations of
y and x', of x, of y and z. The equation of x is differentiated; in the second round an equation which was
differentiated stays colored, the second search does not enter it. With all equations uncolored the system is accepted;
so it is with the first and last equations exchanged. -/
theorem regular_rejected_counterexample :
    RegularSystem (vars [none, none, none, some 0]) 3 (rows [[1, 3], [0], [1, 2]]) ∧
    (∀ fuel, reduce false [none, none, none, some 0] [[1, 3], [0], [1, 2]] (fuel + 6) = .error .exception) ∧
    (reduce true [none, none, none, some 0] [[1, 3], [0], [1, 2]] 6).isOk = true ∧
    (reduce false [none, none, none, some 0] [[1, 2], [0], [1, 3]] 6).isOk = true := by
  refine ⟨⟨fun i => [1, 0, 2].getD i 0, fun i hi => ?_, fun i i' hi hi' hd => ?_⟩, fun fuel => ?_, by decide +kernel, by decide +kernel⟩
  · interval_cases i <;> exact ⟨by decide, {}, rfl, rfl⟩
  · have key : ∀ b, b < 3 → ∀ a, DerivOf (fun t => ((vars [none, none, none, some 0])[t]?).bind VarInfo.anti) a b → a = b := by
      intro b hb a h
      cases h with
      | refl => rfl
      | step _ h => interval_cases b <;> cases h
    have := key _ (by interval_cases i' <;> decide) _ hd
    interval_cases i <;> interval_cases i' <;> first | rfl | cases this
  · rfl

end Verif.Dae.Soares
