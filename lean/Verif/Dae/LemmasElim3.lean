import Verif.Dae.LemmasElim2
namespace Verif.Dae.Elim
variable {σ : Type}

/-- what is assumed -/
structure Hyp (E : Eng σ) (p : In) (dep : σ → Nat → Nat → Prop) : Prop where
  right : Right E.solvable E.subst dep
  lt : ∀ v ∈ p.variables, v < p.n
  ord : ∀ l, (p.ord l).Perm l

/-- when exceptions are possible -/
def Bad (E : Eng σ) (p : In) : Prop := ¬ (p.both = true ∧ p.diff = [] ∧ Exact E.solvable E.subst)

/-- the result of a part which counts assignments; `R`: it may be interrupted -/
def Res (E : Eng σ) (p : In) (dep : σ → Nat → Nat → Prop) (h0 : σ) (R : Prop) (ps : List (Nat × Nat)) (k0 : Nat) :
    Except Err (St σ × Nat) → Prop
  | .ok (s', k) => ∃ ps', EI E p dep h0 ps' s' ∧ ps'.length + k0 = ps.length + k
  | .error .exception => Bad E p
  | .error .running => R
  | .error .ub => False

/-- the result of a loop -/
def ResL (E : Eng σ) (p : In) (dep : σ → Nat → Nat → Prop) (h0 : σ) (R : Prop) (ps : List (Nat × Nat)) : Except Err (St σ) → Prop
  | .ok s' => ∃ ps', EI E p dep h0 ps' s' ∧ ps.length ≤ ps'.length
  | .error .exception => Bad E p
  | .error .running => R
  | .error .ub => False

variable {E : Eng σ} {p : In} {dep : σ → Nat → Nat → Prop} {h0 : σ} {R : Prop}

theorem foldlM_res {f : St σ × Nat → Nat → Except Err (St σ × Nat)} : ∀ (l : List Nat),
    (∀ x ∈ l, ∀ ps s k, EI E p dep h0 ps s → Res E p dep h0 R ps k (f (s, k) x)) →
    ∀ ps s k, EI E p dep h0 ps s → Res E p dep h0 R ps k (l.foldlM f (s, k)) := by
  intro l
  induction l with
  | nil => intro _ ps s k h; exact ⟨ps, h, rfl⟩
  | cons x l ih =>
    intro hf ps s k h
    rw [List.foldlM_cons]
    have h1 := hf x List.mem_cons_self ps s k h
    cases hr : f (s, k) x with
    | error e => rw [hr] at h1; cases e <;> exact h1
    | ok r =>
      obtain ⟨s1, k1⟩ := r
      rw [hr] at h1
      obtain ⟨ps1, h1, h2⟩ := h1
      show Res E p dep h0 R ps k (l.foldlM f (s1, k1))
      have h3 := ih (fun y hy => hf y (List.mem_cons_of_mem _ hy)) ps1 s1 k1 h1
      cases hr : l.foldlM f (s1, k1) with
      | error e => rw [hr] at h3; cases e <;> exact h3
      | ok r =>
        obtain ⟨s2, k2⟩ := r
        rw [hr] at h3
        obtain ⟨ps2, h3, h4⟩ := h3
        exact ⟨ps2, h3, by omega⟩

theorem exact_ok (hx : ¬ Bad E p) {h : σ} {i j : Nat} (hs : E.solvable h i j = true) : E.subst h i j ≠ none := by
  unfold Bad at hx
  rw [Classical.not_not] at hx
  exact hx.2.2 h i j hs

theorem single_res (H : Hyp E p dep) {must : Bool} {j : Nat} (hm : j ∈ p.diff ∨ (must = false ∧ j ∈ p.dummy)) (ps : List (Nat × Nat))
    (s : St σ) (k : Nat) (h : EI E p dep h0 ps s) : Res E p dep h0 R ps k (single E p must (s, k) j) := by
  have hj : j ∈ p.variables := by
    rcases hm with hm | hm
    · exact List.mem_append_left _ hm
    · exact List.mem_append_right _ hm.2
  unfold single
  simp only
  split
  · rename_i hc
    simp only [Bool.and_eq_true, Bool.not_eq_eq_eq_not, Bool.not_true] at hc
    split
    · exact ⟨ps, h, rfl⟩
    · rename_i i is he
      have hie : i ∈ (s.g.v j).eqs := by rw [he]; exact List.mem_cons_self
      have hb := h.gi.back i j hie
      split
      · rename_i hn
        have hn : (s.g.e i).assign = none := Option.isNone_iff_eq_none.mp hn
        rcases assignVar_spec H.right H.lt H.ord h hb.1 hn hj hc.1 with ⟨e, hs⟩ | e | ⟨s', e, h'⟩
        · rw [e]
          show Bad E p
          by_contra hx
          have hB := hx
          unfold Bad at hB
          rw [Classical.not_not] at hB
          exact exact_ok hx (h.sol i hn j (hb.2.2 hB.1)).2 hs
        · rw [e]
          simp only
          split
          · rename_i hmu
            rcases hm with hm | hm
            · show Bad E p
              intro hB
              rw [hB.2.1] at hm; simp at hm
            · rw [hm.1] at hmu; cases hmu
          · exact ⟨ps, h, rfl⟩
        · rw [e]
          exact ⟨_, h', by simp; omega⟩
      · exact ⟨ps, h, rfl⟩
  · exact ⟨ps, h, rfl⟩

theorem singleEq_res (H : Hyp E p dep) {i : Nat} (hi : i < p.ne) (ps : List (Nat × Nat)) (s : St σ) (k : Nat)
    (h : EI E p dep h0 ps s) : Res E p dep h0 R ps k (singleEq E p (s, k) i) := by
  unfold singleEq
  simp only
  split
  · rename_i hc
    simp only [Bool.and_eq_true] at hc
    split
    · exact ⟨ps, h, rfl⟩
    · rename_i j js he
      have hje : j ∈ (s.g.e i).vars := by rw [he]; exact List.mem_cons_self
      have hv := h.gi.varsIn i j hje
      have hn : (s.g.e i).assign = none := Option.isNone_iff_eq_none.mp hc.1
      rcases assignVar_spec H.right H.lt H.ord h hi hn hv.1 hv.2.1 with ⟨e, hs⟩ | e | ⟨s', e, h'⟩
      · rw [e]
        show Bad E p
        by_contra hx
        exact exact_ok hx (h.sol i hn j hje).2 hs
      · rw [e]; exact ⟨ps, h, rfl⟩
      · rw [e]; exact ⟨_, h', by simp; omega⟩
  · exact ⟨ps, h, rfl⟩

/-- the result of an attempt to assign one variable -/
def ResT (E : Eng σ) (p : In) (dep : σ → Nat → Nat → Prop) (h0 : σ) (ps : List (Nat × Nat)) : Except Err (Bool × St σ) → Prop
  | .ok (b, s') => ∃ ps', EI E p dep h0 ps' s' ∧ ps'.length = ps.length + if b then 1 else 0
  | .error .exception => Bad E p
  | .error _ => False

theorem tearEq_res (H : Hyp E p dep) {j : Nat} (hj : j ∈ p.variables) (ps : List (Nat × Nat)) (s : St σ)
    (h : EI E p dep h0 ps s) (hd : (s.g.v j).deleted = false) : ∀ (is : List Nat), (∀ i ∈ is, i ∈ (s.g.v j).eqs) →
    ResT E p dep h0 ps (tearEq E p j is s) ∧ ∀ s', tearEq E p j is s = .ok (false, s') → s' = s := by
  intro is
  induction is with
  | nil =>
    intro _
    refine ⟨⟨ps, h, rfl⟩, fun s' e => ?_⟩
    simp only [tearEq, Except.ok.injEq, Prod.mk.injEq, true_and] at e
    exact e.symm
  | cons i is ih =>
    intro his
    have hb := h.gi.back i j (his i List.mem_cons_self)
    have ih := ih (fun x hx => his x (List.mem_cons_of_mem _ hx))
    unfold tearEq
    split
    · rename_i hn
      have hn : (s.g.e i).assign = none := Option.isNone_iff_eq_none.mp hn
      rcases assignVar_spec H.right H.lt H.ord h hb.1 hn hj hd with ⟨e, hs⟩ | e | ⟨s', e, h'⟩
      · rw [e]
        refine ⟨?_, fun s' e => by cases e⟩
        show Bad E p
        by_contra hx
        have hB := hx
        unfold Bad at hB
        rw [Classical.not_not] at hB
        exact exact_ok hx (h.sol i hn j (hb.2.2 hB.1)).2 hs
      · rw [e]; exact ih
      · rw [e]
        refine ⟨⟨_, h', by simp⟩, fun s' e => ?_⟩
        simp only [Except.ok.injEq, Prod.mk.injEq, Bool.true_eq_false, false_and] at e
    · exact ih

theorem tear_res (H : Hyp E p dep) (ps : List (Nat × Nat)) (s : St σ) (h : EI E p dep h0 ps s) : ∀ (js : List Nat),
    (∀ j ∈ js, j ∈ p.variables) → ResT E p dep h0 ps (tear E p js s) := by
  intro js
  induction js with
  | nil => intro _; exact ⟨ps, h, rfl⟩
  | cons j js ih =>
    intro hjs
    have ih := ih (fun x hx => hjs x (List.mem_cons_of_mem _ hx))
    unfold tear
    split
    · exact ih
    · rename_i hd
      have hd : (s.g.v j).deleted = false := by simpa using hd
      have h1 := tearEq_res H (hjs j List.mem_cons_self) ps s h hd (s.g.v j).eqs (fun _ x => x)
      cases hr : tearEq E p j (s.g.v j).eqs s with
      | error e => rw [hr] at h1; cases e <;> exact h1.1
      | ok r =>
        obtain ⟨b, s'⟩ := r
        rw [hr] at h1
        cases b with
        | true => exact h1.1
        | false =>
          have := h1.2 s' rfl
          subst this
          exact ih

theorem repeatWhile_res {F : Nat} {round : St σ → Except Err (St σ × Nat)}
    (hr : ∀ ps s, EI E p dep h0 ps s → Res E p dep h0 (F ≤ p.variables.length) ps 0 (round s) ∨
      ∃ qs, ps.length ≤ qs.length ∧ Res E p dep h0 (F ≤ p.variables.length) qs 0 (round s)) :
    ∀ fuel ps s, EI E p dep h0 ps s →
      ResL E p dep h0 (F ≤ p.variables.length ∨ fuel + ps.length ≤ p.variables.length) ps (repeatWhile round fuel s) := by
  intro fuel
  induction fuel with
  | zero =>
    intro ps s h
    right
    have := h.length; omega
  | succ fuel ih =>
    intro ps s h
    have hr : ∃ qs, ps.length ≤ qs.length ∧ Res E p dep h0 (F ≤ p.variables.length) qs 0 (round s) := by
      rcases hr ps s h with hr | hr
      · exact ⟨ps, Nat.le_refl _, hr⟩
      · exact hr
    obtain ⟨qs, hq, h1⟩ := hr
    unfold repeatWhile
    cases e : round s with
    | error x =>
      rw [e] at h1
      cases x
      · exact h1
      · exact h1
      · exact .inl h1
    | ok r =>
      obtain ⟨s', k⟩ := r
      rw [e] at h1
      obtain ⟨ps', h1, h2⟩ := h1
      simp only
      split
      · have h3 := ih ps' s' h1
        cases e : repeatWhile round fuel s' with
        | error x =>
          rw [e] at h3
          cases x
          · exact h3
          · exact h3
          · rcases h3 with h3 | h3
            · exact .inl h3
            · right; omega
        | ok r =>
          rw [e] at h3
          obtain ⟨ps2, h3, h4⟩ := h3
          exact ⟨ps2, h3, by omega⟩
      · exact ⟨ps', h1, by omega⟩

/-- a loop with the fuel of all loops -/
theorem loop_res {F : Nat} {round : St σ → Except Err (St σ × Nat)}
    (hr : ∀ ps s, EI E p dep h0 ps s → ∃ qs, ps.length ≤ qs.length ∧ Res E p dep h0 (F ≤ p.variables.length) qs 0 (round s)) :
    ∀ ps s, EI E p dep h0 ps s → ResL E p dep h0 (F ≤ p.variables.length) ps (repeatWhile round F s) := by
  intro ps s h
  have := repeatWhile_res (fun ps s h => .inr (hr ps s h)) F ps s h
  cases e : repeatWhile round F s with
  | error x =>
    rw [e] at this
    cases x
    · exact this
    · exact this
    · rcases this with this | this
      · exact this
      · show F ≤ _; omega
  | ok r => rw [e] at this; exact this

/-- a loop and then a part which counts -/
theorem bind_res {F : Nat} {a : Except Err (St σ)} {f : St σ → Except Err (St σ × Nat)} {ps : List (Nat × Nat)}
    (ha : ResL E p dep h0 (F ≤ p.variables.length) ps a)
    (hf : ∀ ps s, EI E p dep h0 ps s → Res E p dep h0 (F ≤ p.variables.length) ps 0 (f s)) :
    ∃ qs, ps.length ≤ qs.length ∧ Res E p dep h0 (F ≤ p.variables.length) qs 0 (a >>= f) := by
  cases a with
  | error x => exact ⟨ps, Nat.le_refl _, by cases x <;> exact ha⟩
  | ok s =>
    obtain ⟨qs, h1, h2⟩ := ha
    exact ⟨qs, h2, hf qs s h1⟩

theorem loop4_res (H : Hyp E p dep) (F : Nat) (ps : List (Nat × Nat)) (s : St σ) (h : EI E p dep h0 ps s) :
    ResL E p dep h0 (F ≤ p.variables.length) ps (loop4 E p F s) := by
  have h1 : ∀ ps s, EI E p dep h0 ps s → ResL E p dep h0 (F ≤ p.variables.length) ps (loop1 E p F s) := by
    refine loop_res fun ps s h => ⟨ps, Nat.le_refl _, ?_⟩
    exact foldlM_res _ (fun j hj ps s k h => single_res H (.inl hj) ps s k h) ps s 0 h
  have h2 : ∀ ps s, EI E p dep h0 ps s → ResL E p dep h0 (F ≤ p.variables.length) ps (loop2 E p F s) := by
    refine loop_res fun ps s h => bind_res (h1 ps s h) fun ps s h => ?_
    exact foldlM_res _ (fun j hj ps s k h => single_res H (.inr ⟨rfl, hj⟩) ps s k h) ps s 0 h
  have h3 : ∀ ps s, EI E p dep h0 ps s → ResL E p dep h0 (F ≤ p.variables.length) ps (loop3 E p F s) := by
    refine loop_res fun ps s h => bind_res (h2 ps s h) fun ps s h => ?_
    exact foldlM_res _ (fun i hi ps s k h => singleEq_res H (List.mem_range.mp hi) ps s k h) ps s 0 h
  refine loop_res (fun ps s h => bind_res (h3 ps s h) fun ps s h => ?_) ps s h
  have := tear_res H ps s h p.variables (fun _ x => x)
  cases e : tear E p p.variables s with
  | error x => rw [e] at this; cases x <;> first | exact this | exact this.elim
  | ok r =>
    obtain ⟨b, s'⟩ := r
    rw [e] at this
    exact this

/-! ### the start -/

theorem start_ei (orig : Nat → List Nat) (jac : Nat → Nat → Bool) (h : σ)
    (hd : ∀ e k, e < p.ne → k ∈ p.variables → dep h e k → jac e k = true) : EI E p dep h [] (start E p orig jac h) := by
  let g0 : BG := { v := fun _ => {}, nv := p.n, e := fun _ => {}, ne := p.ne }
  -- what the graph satisfies while it is built
  let P : BG → Prop := fun g => GI p g ∧ Fr g0 g ∧ ∀ i, ∀ j ∈ (g.e i).vars, jac i j = true ∧ E.solvable h i j = true
  have hstep : ∀ i, i < p.ne → ∀ (l : List Nat) (g : BG), P g → P (l.foldl (fun g v =>
      if p.variables.contains v && jac i v && E.solvable h i v then g.addVariable i v else g) g) := by
    intro i hi l
    induction l with
    | nil => intro g hg; exact hg
    | cons v l ih =>
      intro g hg
      rw [List.foldl_cons]
      refine ih _ ?_
      split
      · rename_i hc
        simp only [Bool.and_eq_true, List.contains_eq_mem, decide_eq_true_eq] at hc
        refine ⟨hg.1.addVariable hi hc.1.1, hg.2.1.trans (fr_addVariable _ _ _), fun i' j hj => ?_⟩
        rw [addVariable_e] at hj
        split at hj
        · rename_i hh
          simp only at hj
          split at hj
          · exact hg.2.2 i' j hj
          · rcases List.mem_append.mp hj with hj | hj
            · exact hg.2.2 i' j hj
            · rw [List.mem_singleton] at hj
              rw [hj, hh.1]; exact ⟨hc.1.2, hc.2⟩
        · exact hg.2.2 i' j hj
      · exact hg
  have hall : ∀ (l : List Nat) (g : BG), (∀ i ∈ l, i < p.ne) → P g → P (l.foldl (fun g i => (orig i).foldl (fun g v =>
      if p.variables.contains v && jac i v && E.solvable h i v then g.addVariable i v else g) g) g) := by
    intro l
    induction l with
    | nil => intro g _ hg; exact hg
    | cons i l ih =>
      intro g hl hg
      rw [List.foldl_cons]
      exact ih _ (fun x hx => hl x (List.mem_cons_of_mem _ hx)) (hstep i (hl i List.mem_cons_self) _ g hg)
  have hP : P (start E p orig jac h).g := by
    refine hall _ g0 (fun i hi => List.mem_range.mp hi) ⟨⟨rfl, ?_, ?_, ?_, ?_, ?_, ?_⟩, Fr.refl _, ?_⟩ <;> intros <;> simp_all [g0]
  obtain ⟨hg, hf, hs⟩ := hP
  refine ⟨hg, rfl, fun i j => ?_, fun i j => ?_, by simp, by simp, by simp, fun j => ?_, fun j => ?_, fun j => ?_, hd, by simp,
    fun i _ j hj => hs i j hj⟩
  · rw [hf.va]; simp [g0]
  · rw [hf.ea]; simp [g0]
  · rw [hf.va, hf.vd]; simp [g0]
  · rw [hf.vc]
  · rw [hf.ec]

end Verif.Dae.Elim
