import Verif.Dae.LemmasGraph
/-
Part of C29: the derivative of an equation has exactly the derivatives of the variables of the equation (and these
variables, if asked for), for any graph, whether or not the derivatives of the variables exist already.
-/
namespace Verif.Dae

/-- the state of the graph while the variables `done` of equation `i` have been differentiated -/
structure Half (g : BG) (addOrig : Bool) (i : Nat) (done : List Nat) (g' : BG) : Prop where
  ne : g'.ne = g.ne + 1
  nv : g.nv ≤ g'.nv
  other : ∀ k, k ≠ g.ne → k ≠ i → g'.e k = g.e k
  self : i ≠ g.ne → g'.e i = { g.e i with diff := some g.ne }
  of : (g'.e g.ne).diffOf = some i
  keep : ∀ j x, (g.v j).deriv = some x → (g'.v j).deriv = some x
  param : ∀ j, (g'.v j).param = true → (g.v j).param = true
  links : ∀ j x, (g'.v j).deriv = some x → j < g'.nv ∧ x < g'.nv ∧ (g'.v x).anti = some j
  all : ∀ j ∈ done, (g'.v j).deriv.isSome
  orig : ∀ k, k ∈ (g'.e g.ne).orig ↔ ∃ j ∈ done, (addOrig = true ∧ k = j) ∨ (g'.v j).deriv = some k

theorem addVariable_deriv {g : BG} {i j k : Nat} : ((g.addVariable i j).v k).deriv = (g.v k).deriv ∧ ((g.addVariable i j).v k).anti = (g.v k).anti ∧
    ((g.addVariable i j).v k).param = (g.v k).param := by
  rw [addVariable_v]; split <;> exact ⟨rfl, rfl, rfl⟩

theorem addVariable_diffOf {g : BG} {i j k : Nat} : ((g.addVariable i j).e k).diffOf = (g.e k).diffOf := by
  rw [addVariable_e]; split <;> rfl

theorem addVariable_other {g : BG} {i j k : Nat} (h : k ≠ i) : (g.addVariable i j).e k = g.e k := by
  rw [addVariable_e, if_neg (fun x => h x.1)]

theorem Half.step {g : BG} {addOrig : Bool} {i : Nat} {done : List Nat} {g' : BG} (h : Half g addOrig i done g') {j : Nat} (hj : j < g.nv)
    (hp : (g.v j).param = false) : Half g addOrig i (done ++ [j]) (BG.dirtyVar addOrig g.ne g' j) := by
  -- the variable itself
  have key : ∀ g1 : BG, g1.nv = g'.nv → g1.ne = g'.ne → (∀ k, k ≠ g.ne → g1.e k = g'.e k) → (g1.e g.ne).diffOf = (g'.e g.ne).diffOf →
      (∀ k, (g1.v k).deriv = (g'.v k).deriv ∧ (g1.v k).anti = (g'.v k).anti ∧ (g1.v k).param = (g'.v k).param) →
      (∀ k, k ∈ (g1.e g.ne).orig ↔ k ∈ (g'.e g.ne).orig ∨ addOrig = true ∧ k = j) →
      Half g addOrig i (done ++ [j]) (match (g1.v j).deriv with
        | some dj => g1.addVariable g.ne dj
        | none => if (g1.v j).param then g1 else (g1.derivV j).2.addVariable g.ne (g1.derivV j).1) := by
    intro g1 n1 n2 e1 e2 v1 o1
    cases hd : (g1.v j).deriv with
    | some dj =>
      simp only
      have hd' : (g'.v j).deriv = some dj := by rw [← (v1 j).1]; exact hd
      refine ⟨by rw [addVariable_n.2, n2]; exact h.ne, by rw [addVariable_n.1, n1]; exact h.nv, fun k hk hi => by rw [addVariable_other hk, e1 k hk]; exact h.other k hk hi,
        fun hi => by rw [addVariable_other hi, e1 i hi]; exact h.self hi, by rw [addVariable_diffOf, e2]; exact h.of,
        fun k x hk => by rw [addVariable_deriv.1, (v1 k).1]; exact h.keep k x hk,
        fun k hk => by rw [addVariable_deriv.2.2, (v1 k).2.2] at hk; exact h.param k hk,
        fun k x hk => by
          rw [addVariable_deriv.1, (v1 k).1] at hk
          rw [addVariable_n.1, n1, addVariable_deriv.2.1, (v1 x).2.1]
          exact h.links k x hk, ?_, ?_⟩
      · intro k hk
        rw [addVariable_deriv.1, (v1 k).1]
        rcases List.mem_append.mp hk with h1 | h1
        · exact h.all k h1
        · rw [List.mem_singleton] at h1; subst h1; rw [hd']; rfl
      · intro k
        rw [addVariable_orig, o1, h.orig]
        constructor
        · rintro ((⟨m, hm, h1⟩ | h1) | h1)
          · exact ⟨m, by simp [hm], by rw [addVariable_deriv.1, (v1 m).1]; exact h1⟩
          · exact ⟨j, by simp, .inl h1⟩
          · exact ⟨j, by simp, .inr (by rw [addVariable_deriv.1, (v1 j).1, hd', h1])⟩
        · rintro ⟨m, hm, h1⟩
          rw [addVariable_deriv.1, (v1 m).1] at h1
          rcases List.mem_append.mp hm with h2 | h2
          · exact .inl (.inl ⟨m, h2, h1⟩)
          · rw [List.mem_singleton] at h2
            subst h2
            rcases h1 with h1 | h1
            · exact .inl (.inr h1)
            · rw [hd'] at h1; cases h1; exact .inr rfl
    | none =>
      have hd' : (g'.v j).deriv = none := by rw [← (v1 j).1]; exact hd
      have hp' : (g1.v j).param = false := by
        cases hq : (g1.v j).param with
        | false => rfl
        | true => rw [(v1 j).2.2] at hq; rw [h.param j hq] at hp; cases hp
      simp only [hp', Bool.false_eq_true, if_false]
      have hjn : j ≠ g1.nv := by rw [n1]; have := h.nv; omega
      have hv : ∀ k, (g1.derivV j).2.v k = if k = g1.nv then { anti := some j } else if k = j then { g1.v k with deriv := some g1.nv } else g1.v k := by
        intro k; rw [derivV_none hd]; rfl
      have he : ∀ k, (g1.derivV j).2.e k = g1.e k := by intro k; rw [derivV_none hd]; rfl
      have hn : (g1.derivV j).2.nv = g1.nv + 1 ∧ (g1.derivV j).2.ne = g1.ne ∧ (g1.derivV j).1 = g1.nv := by rw [derivV_none hd]; exact ⟨rfl, rfl, rfl⟩
      have hD : ∀ k, ((g1.derivV j).2.v k).deriv = if k = g1.nv then none else if k = j then some g1.nv else (g'.v k).deriv := by
        intro k; rw [hv]; split
        · rfl
        · split
          · rfl
          · exact (v1 k).1
      have hA : ∀ k, ((g1.derivV j).2.v k).anti = if k = g1.nv then some j else (g'.v k).anti := by
        intro k; rw [hv]; split
        · rfl
        · split <;> exact (v1 k).2.1
      -- the derivative which is created is the derivative of no other variable
      have hfresh : ∀ k, (g'.v k).deriv ≠ some g1.nv := by
        intro k hk
        have := (h.links k _ hk).2.1
        omega
      refine ⟨by rw [addVariable_n.2, hn.2.1, n2]; exact h.ne, by rw [addVariable_n.1, hn.1, n1]; have := h.nv; omega,
        fun k hk hi => by rw [addVariable_other hk, he, e1 k hk]; exact h.other k hk hi,
        fun hi => by rw [addVariable_other hi, he, e1 i hi]; exact h.self hi, by rw [addVariable_diffOf, he, e2]; exact h.of, ?_, ?_, ?_, ?_, ?_⟩
      · intro k x hk
        have hk' := h.keep k x hk
        rw [addVariable_deriv.1, hD]
        have h1 : k ≠ j := by rintro rfl; rw [hd'] at hk'; cases hk'
        have h2 : k ≠ g1.nv := by have := (h.links k x hk').1; omega
        rw [if_neg h2, if_neg h1]; exact hk'
      · intro k hk
        rw [addVariable_deriv.2.2, hv] at hk
        split at hk
        · cases hk
        · split at hk
          · exact h.param k (by rw [← (v1 k).2.2]; exact hk)
          · exact h.param k (by rw [← (v1 k).2.2]; exact hk)
      · intro k x hk
        rw [addVariable_deriv.1, hD] at hk
        rw [addVariable_n.1, hn.1, addVariable_deriv.2.1, hA]
        split at hk
        · cases hk
        · split at hk
          · rename_i hkj
            cases hk
            rw [if_pos rfl, hkj]
            exact ⟨by rw [n1]; have := h.nv; omega, by omega, rfl⟩
          · obtain ⟨a1, a2, a3⟩ := h.links k x hk
            rw [if_neg (by omega)]
            exact ⟨by omega, by omega, a3⟩
      · intro k hk
        rw [addVariable_deriv.1, hD]
        rcases List.mem_append.mp hk with h1 | h1
        · have := h.all k h1
          obtain ⟨x, hx⟩ := Option.isSome_iff_exists.mp this
          have := (h.links k x hx).1
          rw [if_neg (by omega)]
          split
          · rfl
          · rw [hx]; rfl
        · rw [List.mem_singleton] at h1; subst h1; rw [if_neg hjn, if_pos rfl]; rfl
      · intro k
        rw [addVariable_orig, he, o1, h.orig, hn.2.2]
        constructor
        · rintro ((⟨m, hm, h1⟩ | h1) | h1)
          · refine ⟨m, by simp [hm], ?_⟩
            rcases h1 with h1 | h1
            · exact .inl h1
            · right
              have h2 := (h.links m k h1).1
              rw [addVariable_deriv.1, hD, if_neg (by omega), if_neg (by rintro rfl; rw [hd'] at h1; cases h1)]
              exact h1
          · exact ⟨j, by simp, .inl h1⟩
          · exact ⟨j, by simp, .inr (by rw [addVariable_deriv.1, hD, if_neg hjn, if_pos rfl, h1])⟩
        · rintro ⟨m, hm, h1⟩
          rw [addVariable_deriv.1, hD] at h1
          rcases h1 with h1 | h1
          · rcases List.mem_append.mp hm with h2 | h2
            · exact .inl (.inl ⟨m, h2, .inl h1⟩)
            · rw [List.mem_singleton] at h2
              subst h2
              exact .inl (.inr h1)
          · split at h1
            · cases h1
            · split at h1
              · cases h1; exact .inr rfl
              · rename_i hmj
                rcases List.mem_append.mp hm with h2 | h2
                · exact .inl (.inl ⟨m, h2, .inr h1⟩)
                · rw [List.mem_singleton] at h2; exact absurd h2 hmj
  unfold BG.dirtyVar
  cases addOrig with
  | true =>
    simp only [if_true]
    exact key (g'.addVariable g.ne j) addVariable_n.1 addVariable_n.2 (fun k hk => addVariable_other hk) addVariable_diffOf (fun k => addVariable_deriv)
      (fun k => by rw [addVariable_orig]; simp)
  | false =>
    simp only [Bool.false_eq_true, if_false]
    exact key g' rfl rfl (fun _ _ => rfl) rfl (fun _ => ⟨rfl, rfl, rfl⟩) (fun k => by simp)

theorem Half.fold {g : BG} {addOrig : Bool} {i : Nat} : ∀ (l done : List Nat) (g' : BG), Half g addOrig i done g' →
    (∀ j ∈ l, j < g.nv ∧ (g.v j).param = false) → Half g addOrig i (done ++ l) (l.foldl (BG.dirtyVar addOrig g.ne) g') := by
  intro l
  induction l with
  | nil => intro done g' h _; simpa using h
  | cons a l ih =>
    intro done g' h hl
    have := ih (done ++ [a]) _ (h.step (hl a (by simp)).1 (hl a (by simp)).2) (fun j hj => hl j (by simp [hj]))
    simpa using this

/-- The derivative of equation `i`, when it has none yet: it is a new equation, linked with `i`. Its variables are the
derivatives of the variables of `i` — created if they did not exist — and, if `addOrig`, the variables of `i`
themselves. No other equation changes, and links between variables stay. -/
theorem derivative_equation {g : BG} {i : Nat} (addOrig : Bool) (hi : i < g.ne) (hd : (g.e i).diff = none)
    (ho : ∀ j ∈ (g.e i).orig, j < g.nv ∧ (g.v j).param = false)
    (hl : ∀ j x, (g.v j).deriv = some x → j < g.nv ∧ x < g.nv ∧ (g.v x).anti = some j) :
    let g' := g.derivE addOrig i
    g'.ne = g.ne + 1 ∧ (g'.e i).diff = some g.ne ∧ (g'.e g.ne).diffOf = some i ∧
    (∀ j ∈ (g.e i).orig, ∃ x, (g'.v j).deriv = some x ∧ (g'.v x).anti = some j) ∧
    (∀ k, k ∈ (g'.e g.ne).orig ↔ ∃ j ∈ (g.e i).orig, (addOrig = true ∧ k = j) ∨ (g'.v j).deriv = some k) ∧
    (∀ k, k ≠ g.ne → k ≠ i → g'.e k = g.e k) ∧
    (∀ j x, (g.v j).deriv = some x → (g'.v j).deriv = some x) := by
  have h0 : Half g addOrig i [] { (g.setE i fun n => { n with diff := some g.ne }).setE g.ne (fun _ => { diffOf := some i }) with ne := g.ne + 1 } := by
    refine ⟨rfl, Nat.le_refl _, fun k h1 h2 => ?_, fun h1 => ?_, ?_, fun j x hj => hj, fun j hj => hj, hl, (fun j hj => by cases hj), fun k => ?_⟩
    · simp only [BG.setE, if_neg h1, if_neg h2]
    · simp only [BG.setE, if_neg h1, if_true]
    · simp only [BG.setE, if_true]
    · simp [BG.setE]
  have h := Half.fold (g.e i).orig [] _ h0 ho
  have e : g.derivE addOrig i = (g.e i).orig.foldl (BG.dirtyVar addOrig g.ne)
      { (g.setE i fun n => { n with diff := some g.ne }).setE g.ne (fun _ => { diffOf := some i }) with ne := g.ne + 1 } := by
    unfold BG.derivE; rw [hd]
  rw [List.nil_append, ← e] at h
  refine ⟨h.ne, by rw [h.self (by omega)], h.of, fun j hj => ?_, h.orig, h.other, h.keep⟩
  obtain ⟨x, hx⟩ := Option.isSome_iff_exists.mp (h.all j hj)
  exact ⟨x, hx, (h.links j x hx).2.2⟩

/-- equation 0 with variables 0 and 1, of which 1 has the derivative 2 already: the derivative of 0 is created as 3 -/
example :
    let g : BG := ⟨fun j => if j = 0 then { eqs := [0] } else if j = 1 then { eqs := [0], deriv := some 2 } else if j = 2 then { anti := some 1 } else {}, 3,
      fun i => if i = 0 then { orig := [0, 1], vars := [0, 1] } else {}, 1⟩
    ((g.derivE false 0).e 1).orig = [3, 2] ∧ ((g.derivE true 0).e 1).orig = [0, 3, 1, 2] ∧ (g.e 0).diff = none := by
  decide +kernel

end Verif.Dae
