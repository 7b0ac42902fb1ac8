import Verif.Dae.ModelRemove
import Verif.Dae.PropsSoares
/-
Helper lemmas C77: further facts about the graph after the differentiation.
-/
namespace Verif.Dae.Remove
open Verif.Dae.Soares

/-- edges occur once; variables created by the algorithm are derivatives of variables before them and occur in derivatives -/
structure Kept (n0 : Nat) (g : BG) : Prop where
  nodup : ∀ j, (g.v j).eqs.Nodup
  mem : ∀ i j, i ∈ (g.v j).eqs → j ∈ (g.e i).orig
  fresh : ∀ i, g.ne ≤ i → (g.e i).orig = []
  bound : ∀ i j, j ∈ (g.e i).orig → j < g.nv
  der : ∀ j d, (g.v j).deriv = some d → d < g.nv
  diff : ∀ i d, (g.e i).diff = some d → i < g.ne ∧ d < g.ne
  new : ∀ j, n0 ≤ j → j < g.nv → (∃ a < j, (g.v j).anti = some a) ∧ ∃ f e, (g.e f).diff = some e ∧ j ∈ (g.e e).orig

theorem Kept.same {n0 : Nat} {g g' : BG} (s : Same g g') (h : Kept n0 g) : Kept n0 g' where
  nodup j := by rw [s.eqs]; exact h.nodup j
  mem i j := by rw [s.eqs, s.orig]; exact h.mem i j
  fresh i := by rw [s.ne, s.orig]; exact h.fresh i
  bound i j := by rw [s.nv, s.orig]; exact h.bound i j
  der j d := by rw [s.deriv, s.nv]; exact h.der j d
  diff i d := by rw [s.diff, s.ne]; exact h.diff i d
  new j h1 h2 := by
    rw [s.nv] at h2
    obtain ⟨⟨a, ha, h3⟩, f, e, h4, h5⟩ := h.new j h1 h2
    exact ⟨⟨a, ha, by rw [s.anti]; exact h3⟩, f, e, by rw [s.diff]; exact h4, by rw [s.orig]; exact h5⟩

theorem addVariable_orig' {g : BG} {d j i k : Nat} : k ∈ ((g.addVariable d j).e i).orig ↔ k ∈ (g.e i).orig ∨ (i = d ∧ k = j) := by
  by_cases hi : i = d
  · subst hi
    rw [addVariable_orig]
    simp
  · rw [addVariable_e]
    simp [hi]

theorem addVariable_eqs {g : BG} {d j k : Nat} : ((g.addVariable d j).v k).eqs = (g.v k).eqs ∨
    (k = j ∧ j ∉ (g.e d).orig ∧ ((g.addVariable d j).v k).eqs = (g.v k).eqs ++ [d]) := by
  by_cases h1 : j ∈ (g.e d).orig
  · left; simp only [BG.addVariable, if_pos h1]
  · by_cases h2 : (g.v j).deleted = true
    · left; simp only [BG.addVariable, if_neg h1, if_pos h2, setE_v]
    · by_cases hk : k = j
      · right
        refine ⟨hk, h1, ?_⟩
        simp only [BG.addVariable, if_neg h1, if_neg h2, setV_v, setE_v, if_pos hk]
      · left
        simp only [BG.addVariable, if_neg h1, if_neg h2, setV_v, setE_v, if_neg hk]

theorem Kept.add {n0 : Nat} {g : BG} (h : Kept n0 g) {d j : Nat} (hd : d < g.ne) (hj : j < g.nv) : Kept n0 (g.addVariable d j) := by
  have E := edges_addVariable g d j
  have fv := fun k => E.fields k
  have hn := addVariable_n (g := g) (i := d) (j := j)
  have hdf : ∀ k, ((g.addVariable d j).e k).diff = (g.e k).diff := by
    intro k; rw [addVariable_e]; split <;> simp
  have hde : ∀ k, ((g.addVariable d j).v k).deriv = (g.v k).deriv := by
    intro k; rw [addVariable_v]; split <;> rfl
  have han : ∀ k, ((g.addVariable d j).v k).anti = (g.v k).anti := by
    intro k; rw [addVariable_v]; split <;> rfl
  constructor
  · intro k
    rcases addVariable_eqs (g := g) (d := d) (j := j) (k := k) with e | ⟨rfl, h1, e⟩
    · rw [e]; exact h.nodup k
    · rw [e]
      exact List.Nodup.append (h.nodup k) (List.nodup_singleton d) (by
        intro x hx hx'
        rw [List.mem_singleton] at hx'
        subst hx'
        exact h1 (h.mem x k hx))
  · intro i k hi
    rw [addVariable_orig']
    rcases addVariable_eqs (g := g) (d := d) (j := j) (k := k) with e | ⟨rfl, h1, e⟩
    · rw [e] at hi; exact .inl (h.mem i k hi)
    · rw [e, List.mem_append, List.mem_singleton] at hi
      rcases hi with hi | hi
      · exact .inl (h.mem i k hi)
      · exact .inr ⟨hi, rfl⟩
  · intro i hi
    rw [hn.2] at hi
    rw [List.eq_nil_iff_forall_not_mem]
    intro k hk
    rw [addVariable_orig', h.fresh i hi] at hk
    rcases hk with hk | ⟨hk, _⟩
    · cases hk
    · omega
  · intro i k hk
    rw [hn.1]
    rcases addVariable_orig'.mp hk with hk | ⟨_, hk⟩
    · exact h.bound i k hk
    · rw [hk]; exact hj
  · intro k x hx
    rw [hde] at hx
    rw [hn.1]; exact h.der k x hx
  · intro i x hx
    rw [hdf] at hx
    rw [hn.2]; exact h.diff i x hx
  · intro k h1 h2
    rw [hn.1] at h2
    obtain ⟨⟨a, ha, h3⟩, f, e, h4, h5⟩ := h.new k h1 h2
    exact ⟨⟨a, ha, by rw [han]; exact h3⟩, f, e, by rw [hdf]; exact h4, addVariable_orig'.mpr (.inl h5)⟩

theorem Kept.dirty {n0 : Nat} {g : BG} (h : Kept n0 g) {d i j : Nat} (hi : (g.e i).diff = some d) (hj : j < g.nv) :
    Kept n0 (BG.dirtyVar false d g j) ∧ ((BG.dirtyVar false d g j).e i).diff = some d ∧ g.nv ≤ (BG.dirtyVar false d g j).nv := by
  have hd := (h.diff i d hi).2
  have hdf : ∀ (g : BG) j k, ((g.addVariable d j).e k).diff = (g.e k).diff := by
    intro g j k; rw [addVariable_e]; split <;> simp
  unfold BG.dirtyVar
  simp only [Bool.false_eq_true, if_false]
  cases hx : (g.v j).deriv with
  | some x => exact ⟨h.add hd (h.der j x hx), by rw [hdf]; exact hi, Nat.le_of_eq addVariable_n.1.symm⟩
  | none =>
    simp only
    by_cases hp : (g.v j).param = true
    · rw [if_pos hp]; exact ⟨h, hi, Nat.le_refl _⟩
    · rw [if_neg hp, derivV_none hx]
      simp only
      generalize hg1 : ({ (g.setV j fun n => { n with deriv := some g.nv }).setV g.nv (fun _ => { anti := some j }) with
        nv := g.nv + 1 } : BG) = g1
      have v1 : ∀ k, g1.v k = if k = g.nv then { anti := some j } else if k = j then { g.v k with deriv := some g.nv } else g.v k := by
        intro k; rw [← hg1]; rfl
      have e1 : ∀ k, g1.e k = g.e k := by intro k; rw [← hg1]; rfl
      have n1 : g1.nv = g.nv + 1 := by rw [← hg1]
      have m1 : g1.ne = g.ne := by rw [← hg1]; rfl
      have q1 : ∀ k, (g1.v k).eqs = if k = g.nv then [] else (g.v k).eqs := by
        intro k; rw [v1]; split <;> [rfl; (split <;> rfl)]
      have notin : g.nv ∉ (g.e d).orig := fun hh => Nat.lt_irrefl _ (h.bound d _ hh)
      have key : Kept g1.nv g1 := by
        constructor
        · intro k; rw [q1]; split
          · exact List.nodup_nil
          · exact h.nodup k
        · intro i k hk
          rw [q1] at hk
          rw [e1]
          split at hk
          · cases hk
          · exact h.mem i k hk
        · intro i hi; rw [m1] at hi; rw [e1]; exact h.fresh i hi
        · intro i k hk; rw [e1] at hk; rw [n1]; exact Nat.lt_succ_of_lt (h.bound i k hk)
        · intro k x hx
          rw [v1] at hx
          rw [n1]
          split at hx
          · cases hx
          · split at hx
            · cases hx; exact Nat.lt_succ_self _
            · exact Nat.lt_succ_of_lt (h.der k x hx)
        · intro i x hx; rw [e1] at hx; rw [m1]; exact h.diff i x hx
        · intro k h1 h2; omega
      have key2 := key.add (d := d) (j := g.nv) (by rw [m1]; exact hd) (by rw [n1]; exact Nat.lt_succ_self _)
      have han : ∀ k, ((g1.addVariable d g.nv).v k).anti = (g1.v k).anti := by
        intro k; rw [addVariable_v]; split <;> rfl
      refine ⟨⟨key2.nodup, key2.mem, key2.fresh, key2.bound, key2.der, key2.diff, fun k h1 h2 => ?_⟩, by rw [hdf, e1]; exact hi,
        by rw [addVariable_n.1, n1]; exact Nat.le_succ _⟩
      rw [addVariable_n.1, n1] at h2
      by_cases hk : k = g.nv
      · subst hk
        exact ⟨⟨j, hj, by rw [han, v1, if_pos rfl]⟩, i, d, by rw [hdf, e1]; exact hi, addVariable_orig'.mpr (.inr ⟨rfl, rfl⟩)⟩
      · obtain ⟨⟨a, ha, h3⟩, f, e, h4, h5⟩ := h.new k h1 (by omega)
        refine ⟨⟨a, ha, ?_⟩, f, e, by rw [hdf, e1]; exact h4, addVariable_orig'.mpr (.inl (by rw [e1]; exact h5))⟩
        rw [han, v1, if_neg hk]
        split <;> exact h3

theorem Kept.dirtyAll {n0 d i : Nat} : ∀ (js : List Nat) (g : BG), Kept n0 g → (g.e i).diff = some d → (∀ j ∈ js, j < g.nv) →
    Kept n0 (js.foldl (BG.dirtyVar false d) g) := by
  intro js
  induction js with
  | nil => intro g h _ _; exact h
  | cons j js ih =>
    intro g h hi hj
    obtain ⟨h1, h2, h3⟩ := h.dirty hi (hj j List.mem_cons_self)
    exact ih _ h1 h2 fun k hk => Nat.lt_of_lt_of_le (hj k (List.mem_cons_of_mem _ hk)) h3

theorem Kept.derivE {n0 : Nat} {g : BG} (h : Kept n0 g) {i : Nat} (hi : i < g.ne) : Kept n0 (g.derivE false i) ∧ g.ne ≤ (g.derivE false i).ne := by
  unfold BG.derivE
  cases hd : (g.e i).diff with
  | some d => exact ⟨h, Nat.le_refl _⟩
  | none =>
    simp only
    generalize hg1 : ({ (g.setE i fun n => { n with diff := some g.ne }).setE g.ne (fun _ => { diffOf := some i }) with
      ne := g.ne + 1 } : BG) = g1
    have e1 : ∀ k, g1.e k = if k = g.ne then { diffOf := some i } else if k = i then { g.e k with diff := some g.ne } else g.e k := by
      intro k; rw [← hg1]; rfl
    have v1 : ∀ k, g1.v k = g.v k := by intro k; rw [← hg1]; rfl
    have n1 : g1.nv = g.nv := by rw [← hg1]; rfl
    have m1 : g1.ne = g.ne + 1 := by rw [← hg1]
    have o1 : ∀ k, (g1.e k).orig = (g.e k).orig := by
      intro k
      rw [e1]
      split
      · rename_i hk; rw [hk, h.fresh _ (Nat.le_refl _)]
      · split <;> rfl
    have key : Kept n0 g1 := by
      constructor
      · intro k; rw [v1]; exact h.nodup k
      · intro a k hk; rw [v1] at hk; rw [o1]; exact h.mem a k hk
      · intro a ha; rw [o1]; exact h.fresh a (by omega)
      · intro a k hk; rw [o1] at hk; rw [n1]; exact h.bound a k hk
      · intro k x hx; rw [v1] at hx; rw [n1]; exact h.der k x hx
      · intro a x hx
        rw [e1] at hx
        rw [m1]
        split at hx
        · cases hx
        · split at hx
          · cases hx; omega
          · have := h.diff a x hx; omega
      · intro k h1 h2
        rw [n1] at h2
        obtain ⟨⟨a, ha, h3⟩, f, e, h4, h5⟩ := h.new k h1 h2
        refine ⟨⟨a, ha, by rw [v1]; exact h3⟩, f, e, ?_, by rw [o1]; exact h5⟩
        have := h.diff f e h4
        rw [e1, if_neg (by omega), if_neg]
        · exact h4
        · rintro rfl; rw [hd] at h4; cases h4
    have hne : ∀ (js : List Nat) (g2 : BG), (js.foldl (BG.dirtyVar false g.ne) g2).ne = g2.ne := by
      intro js
      induction js with
      | nil => intro _; rfl
      | cons j js ih =>
        intro g2
        rw [List.foldl_cons, ih]
        unfold BG.dirtyVar
        simp only [Bool.false_eq_true, if_false]
        split
        · exact addVariable_n.2
        · split
          · rfl
          · rename_i hx _
            rw [derivV_none hx]
            exact addVariable_n.2
    refine ⟨key.dirtyAll (i := i) _ _ ?_ ?_, ?_⟩
    · rw [e1, if_neg (by omega), if_pos rfl]
    · intro j hj; rw [n1]; exact h.bound i j hj
    · rw [hne, m1]; exact Nat.le_succ _

theorem Kept.derivAll {n0 : Nat} : ∀ (l : List Nat) (g : BG), Kept n0 g → (∀ i ∈ l, i < g.ne) → Kept n0 (l.foldl (BG.derivE false) g) := by
  intro l
  induction l with
  | nil => intro g h _; exact h
  | cons i l ih =>
    intro g h hl
    obtain ⟨h1, h2⟩ := h.derivE (hl i List.mem_cons_self)
    exact ih _ h1 fun k hk => Nat.lt_of_lt_of_le (hl k (List.mem_cons_of_mem _ hk)) h2

/-- the graph as constructed -/
theorem Kept.edges {tape : List Nat} {n m : Nat} {inc : Nat → Nat → Bool} {g : BG} (ht : tape.length ≤ g.nv) (hm : m ≤ g.ne)
    (h : Kept g.nv g) : Kept (edges tape n m inc g).nv (edges tape n m inc g) := by
  suffices H : ∀ (l : List Nat) (g1 : BG), (∀ i ∈ l, i < g.ne) → Kept g1.nv g1 ∧ g1.nv = g.nv ∧ g1.ne = g.ne →
      Kept (l.foldl (fun g i => (List.range n).foldl (fun g p => match tape.idxOf? p with
        | some j => if inc i p then g.addVariable i j else g
        | none => g) g) g1).nv (l.foldl (fun g i => (List.range n).foldl (fun g p => match tape.idxOf? p with
        | some j => if inc i p then g.addVariable i j else g
        | none => g) g) g1) from
    H (List.range m) g (fun i hi => Nat.lt_of_lt_of_le (List.mem_range.mp hi) hm) ⟨h, rfl, rfl⟩
  intro l
  induction l with
  | nil => intro g1 _ h1; exact h1.1
  | cons i l ih =>
    intro g1 hl h1
    rw [List.foldl_cons]
    refine ih _ (fun k hk => hl k (List.mem_cons_of_mem _ hk)) ?_
    have hi := hl i List.mem_cons_self
    generalize List.range n = ps
    clear ih hl
    induction ps generalizing g1 with
    | nil => exact h1
    | cons p ps ihp =>
      rw [List.foldl_cons]
      refine ihp _ ?_
      split
      · rename_i j hj
        split
        · have hjl : j < g.nv := by
            have := List.findIdx?_eq_some_iff_findIdx_eq.mp hj
            omega
          obtain ⟨a1, a2, a3⟩ := h1
          refine ⟨?_, addVariable_n.1.trans a2, addVariable_n.2.trans a3⟩
          rw [addVariable_n.1]
          exact a1.add (by omega) (by omega)
        · exact h1
      · exact h1

theorem construct_kept {info : List VarInfo} {m : Nat} {inc : Nat → Nat → Bool} {g : BG} (h : construct info m inc = .ok g) :
    Kept g.nv g := by
  unfold construct at h
  split at h
  · cases h
  split at h
  · cases h
  simp only [bind, Except.bind] at h
  split at h
  · cases h
  split at h
  · cases h
  rename_i anti ha
  split at h
  · simp only [Except.ok.injEq] at h
    rw [← h]
    refine Kept.edges ?_ (Nat.le_refl _) ?_
    · exact Nat.le_of_eq (mapM_ok ha).1.symm
    · refine ⟨fun j => ?_, fun i j hi => ?_, fun _ _ => rfl, nofun, fun j d hd => ?_, nofun, fun j h1 h2 => absurd h1 (by omega)⟩
      · unfold nodes; simp only; split <;> exact List.nodup_nil
      · unfold nodes at hi; simp only at hi; split at hi <;> cases hi
      · unfold nodes at hd ⊢
        simp only at hd ⊢
        split at hd
        · have := List.mem_of_find?_eq_some hd
          rw [List.mem_reverse, List.mem_range] at this
          exact this
        · cases hd
  · cases h

/-- the equations marked last: each has a derivative, which has none -/
structure Last (g : BG) (l : List Nat) : Prop where
  nodup : l.Nodup
  diff : ∀ i ∈ l, ∃ d, (g.e i).diff = some d ∧ (g.e d).diff = none

theorem derivAll_last {m : Nat} {Mk : List Nat} {g : BG} (h : SInv m Mk g) {l : List Nat} (hl : l.Perm Mk) :
    Last (l.foldl (BG.derivE false) g) Mk := by
  have hmem : ∀ q, q ∈ l ↔ q ∈ Mk := fun q => hl.mem_iff
  have hvb : ∀ j, g.nv ≤ j → (g.v j).assign = none := by
    intro j hj
    cases ha : (g.v j).assign with
    | none => rfl
    | some k =>
      have := h.inc k j ((h.agree.iff k j).mpr ha)
      rw [h.frame.vars] at this
      have := h.frame.w.bound k j this
      omega
  have ok0 : Soares.Ok g := ⟨h.frame.w, h.frame.nodel, h.uncV, hvb, h.frame.rank⟩
  have p0 : Part m (hset g Mk) g [] g := ⟨ok0, h.frame.lk, rfl, Nat.le_refl _, fun _ => rfl, fun _ _ => ⟨rfl, rfl, rfl, rfl⟩,
    fun _ _ _ => rfl, nofun, fun i h1 h2 => by omega, fun _ _ => rfl, fun _ _ x => x, fun _ x y => absurd x y, Nat.le_refl _⟩
  have hT : ∀ i ∈ l, ∀ j ∈ (g.e i).orig, (g.v j).deriv = none → (g.v j).anti ≠ none → j ∈ hset g Mk := by
    intro i hi j hj h1 h2
    unfold hset
    rw [Finset.mem_biUnion]
    refine ⟨i, List.mem_toFinset.mpr ((hmem i).mp hi), List.mem_toFinset.mpr (List.mem_filter.mpr ⟨by rw [h.frame.vars]; exact hj, ?_⟩)⟩
    unfold consA
    rw [h1]
    cases ha : (g.v j).anti with
    | none => exact absurd ha h2
    | some _ => rfl
  have P := part_all h.frame.w l [] g p0 (by rw [List.nil_append]; exact hl.nodup_iff.mpr h.nodup)
    (fun i hi => ⟨(h.mks i ((hmem i).mp hi)).1, (h.mks i ((hmem i).mp hi)).2.1, hT i hi⟩)
  rw [List.nil_append] at P
  refine ⟨h.nodup, fun i hi => ?_⟩
  cases hd : ((l.foldl (BG.derivE false) g).e i).diff with
  | none => exact absurd hd (P.diffP i ((hmem i).mpr hi))
  | some d =>
    obtain ⟨_, h2, h3, _⟩ := P.lk.link i d hd
    refine ⟨d, rfl, (P.new d ?_ h2).2.2⟩
    by_contra hlt
    rw [(P.old d (.inl (by omega))).2.2.2] at h3
    have := h.frame.lk.unlink i d (by omega) h3
    rw [(h.mks i hi).2.1] at this
    cases this

theorem Last.same {g g' : BG} {l : List Nat} (s : Same g g') (h : Last g l) : Last g' l := by
  refine ⟨h.nodup, fun i hi => ?_⟩
  obtain ⟨d, h1, h2⟩ := h.diff i hi
  exact ⟨d, by rw [s.diff]; exact h1, by rw [s.diff]; exact h2⟩

theorem detect_kept {m n0 : Nat} {order : List Nat → List Nat} (ho : ∀ l, (order l).Perm l) : ∀ (fuel : Nat) (last : List Nat) (g : BG),
    SInv m [] g → Kept n0 g → Last g last → ∀ g' l', detect false order fuel last g = .ok (g', l') → Kept n0 g' ∧ Last g' l' := by
  intro fuel
  induction fuel with
  | zero => intro last g _ _ _ g' l' e; cases e
  | succ fuel ih =>
    intro last g h hk hl g' l' e
    unfold detect at e
    rcases assignAll_ok false h with ⟨e1, _⟩ | ⟨g1, Mk, e1, h1, s1, a1⟩
    · rw [e1] at e; cases e
    · rw [e1] at e
      have a1' : ∀ q, q < g1.ne → (g1.e q).assign ≠ none := fun q hq => a1 q (by rw [← s1.ne]; exact hq)
      cases Mk with
      | nil => cases e; exact ⟨hk.same s1, hl.same s1⟩
      | cons i l =>
        simp only at e
        obtain ⟨b1, _, _⟩ := derivAll_ok h1 a1' (by simp) (ho (i :: l))
        refine ih _ _ b1 ((hk.same s1).derivAll _ _ ?_) (derivAll_last h1 (ho _)) g' l' e
        intro k hk'
        exact (h1.mks k ((ho _).mem_iff.mp hk')).1

end Verif.Dae.Remove
