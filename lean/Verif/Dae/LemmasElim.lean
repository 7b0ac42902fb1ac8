import Verif.Dae.ModelElim
import Verif.Dae.SpecElim
import Verif.Dae.LemmasGraph
import Verif.Dae.LemmasSoares2
namespace Verif.Dae.Elim
variable {σ : Type}

/-! ### edges -/

/-- the edges of the graph -/
structure GI (p : In) (g : BG) : Prop where
  ne : g.ne = p.ne
  varsIn : ∀ i j, j ∈ (g.e i).vars → j ∈ p.variables ∧ (g.v j).deleted = false ∧ i < p.ne ∧ j ∈ (g.e i).orig
  nodup : ∀ i, (g.e i).vars.Nodup
  eqs : ∀ i j, j ∈ (g.e i).vars → i ∈ (g.v j).eqs
  back : ∀ i j, i ∈ (g.v j).eqs → i < p.ne ∧ j ∈ (g.e i).orig ∧ (p.both = true → j ∈ (g.e i).vars)
  nodupE : ∀ j, (g.v j).eqs.Nodup
  gone : ∀ j, (g.v j).deleted = true → (g.v j).eqs = []

/-- only edges differ -/
structure Fr (g g' : BG) : Prop where
  ne : g'.ne = g.ne
  v : ∀ j, { g'.v j with eqs := [] } = { g.v j with eqs := [] }
  e : ∀ i, { g'.e i with vars := [], orig := [] } = { g.e i with vars := [], orig := [] }

theorem Fr.refl (g : BG) : Fr g g := ⟨rfl, fun _ => rfl, fun _ => rfl⟩
theorem Fr.trans {a b c : BG} (h : Fr a b) (h' : Fr b c) : Fr a c :=
  ⟨h'.ne.trans h.ne, fun j => (h'.v j).trans (h.v j), fun i => (h'.e i).trans (h.e i)⟩
theorem Fr.va {g g' : BG} (h : Fr g g') (j : Nat) : (g'.v j).assign = (g.v j).assign := by
  have := congrArg VN.assign (h.v j); exact this
theorem Fr.vd {g g' : BG} (h : Fr g g') (j : Nat) : (g'.v j).deleted = (g.v j).deleted := by
  have := congrArg VN.deleted (h.v j); exact this
theorem Fr.vc {g g' : BG} (h : Fr g g') (j : Nat) : (g'.v j).colored = (g.v j).colored := by
  have := congrArg VN.colored (h.v j); exact this
theorem Fr.ea {g g' : BG} (h : Fr g g') (i : Nat) : (g'.e i).assign = (g.e i).assign := by
  have := congrArg EN.assign (h.e i); exact this
theorem Fr.ec {g g' : BG} (h : Fr g g') (i : Nat) : (g'.e i).colored = (g.e i).colored := by
  have := congrArg EN.colored (h.e i); exact this

theorem fr_addVariable (g : BG) (a v : Nat) : Fr g (g.addVariable a v) := by
  refine ⟨addVariable_n.2, fun j => ?_, fun i => ?_⟩
  · rw [addVariable_v]; split <;> rfl
  · rw [addVariable_e]; split <;> rfl

theorem deleteEdge_e (both : Bool) (g : BG) (a v i : Nat) :
    (deleteEdge both g a v).e i = if i = a then { g.e i with vars := (g.e i).vars.erase v } else g.e i := by
  unfold deleteEdge
  cases both <;> rfl

theorem deleteEdge_v (both : Bool) (g : BG) (a v j : Nat) :
    (deleteEdge both g a v).v j = if both = true ∧ j = v then { g.v j with eqs := (g.v j).eqs.erase a } else g.v j := by
  unfold deleteEdge
  cases both
  · simp [setE_v]
  · simp only [if_true, true_and]; rfl

theorem fr_deleteEdge (both : Bool) (g : BG) (a v : Nat) : Fr g (deleteEdge both g a v) := by
  refine ⟨by unfold deleteEdge; cases both <;> rfl, fun j => ?_, fun i => ?_⟩
  · rw [deleteEdge_v]; split <;> rfl
  · rw [deleteEdge_e]; split <;> rfl

theorem GI.addVariable {p : In} {g : BG} (h : GI p g) {a v : Nat} (ha : a < p.ne) (hv : v ∈ p.variables) :
    GI p (g.addVariable a v) := by
  by_cases ho : v ∈ (g.e a).orig
  · have : g.addVariable a v = g := by unfold BG.addVariable; rw [if_pos ho]
    rw [this]; exact h
  have F := fr_addVariable g a v
  have horig : ∀ i j, j ∈ (g.e i).orig → j ∈ ((g.addVariable a v).e i).orig := by
    intro i j hj
    rw [addVariable_e]; split
    · exact List.mem_append_left _ hj
    · exact hj
  have hvars : ∀ i j, j ∈ ((g.addVariable a v).e i).vars ↔ j ∈ (g.e i).vars ∨ (i = a ∧ j = v ∧ (g.v v).deleted = false) := by
    intro i j
    rw [addVariable_e]; split
    · rename_i hc
      simp only
      split
      · rename_i hd; simp [hd]
      · rename_i hd
        simp only [Bool.not_eq_true] at hd
        simp [hd, hc.1]
    · rename_i hc
      have : i ≠ a := fun x => hc ⟨x, ho⟩
      simp [this]
  have hnew : v ∈ ((g.addVariable a v).e a).orig := by
    rw [addVariable_e, if_pos ⟨rfl, ho⟩]; exact List.mem_append_right _ List.mem_cons_self
  have heqs : ∀ j i, i ∈ ((g.addVariable a v).v j).eqs ↔ i ∈ (g.v j).eqs ∨ (i = a ∧ j = v ∧ (g.v v).deleted = false) := by
    intro j i
    rw [addVariable_v]; split
    · rename_i hc; simp only [List.mem_append, List.mem_singleton, hc.1, hc.2.2, and_true]
    · rename_i hc
      have : ¬ (j = v ∧ (g.v v).deleted = false) := fun x => hc ⟨x.1, ho, x.2⟩
      simp [this]
  refine ⟨F.ne.trans h.ne, ?_, ?_, ?_, ?_, ?_, ?_⟩
  · intro i j hj
    rw [F.vd]
    rcases (hvars i j).mp hj with hj | ⟨rfl, rfl, hd⟩
    · have := h.varsIn i j hj; exact ⟨this.1, this.2.1, this.2.2.1, horig i j this.2.2.2⟩
    · exact ⟨hv, hd, ha, hnew⟩
  · intro i
    rw [addVariable_e]; split
    · rename_i hc
      simp only
      split
      · exact h.nodup i
      · rw [List.nodup_append]
        refine ⟨h.nodup i, by simp, ?_⟩
        intro x hx y hy
        rw [List.mem_singleton] at hy
        rintro rfl
        exact ho (hy ▸ hc.1 ▸ (h.varsIn i x hx).2.2.2)
    · exact h.nodup i
  · intro i j hj
    rw [heqs]
    rcases (hvars i j).mp hj with hj | hj
    · exact .inl (h.eqs i j hj)
    · exact .inr hj
  · intro i j hi
    rcases (heqs j i).mp hi with hi | ⟨rfl, rfl, hd⟩
    · have := h.back i j hi
      exact ⟨this.1, horig i j this.2.1, fun hb => (hvars i j).mpr (.inl (this.2.2 hb))⟩
    · exact ⟨ha, hnew, fun _ => (hvars i j).mpr (.inr ⟨rfl, rfl, hd⟩)⟩
  · intro j
    rw [addVariable_v]; split
    · rename_i hc
      show ((g.v j).eqs ++ [a]).Nodup
      rw [List.nodup_append]
      refine ⟨h.nodupE j, by simp, ?_⟩
      intro x hx y hy
      rw [List.mem_singleton] at hy
      rintro rfl
      exact ho (hc.1 ▸ hy ▸ (h.back x j hx).2.1)
    · exact h.nodupE j
  · intro j hd
    rw [F.vd] at hd
    rw [addVariable_v, if_neg, h.gone j hd]
    rintro ⟨rfl, _, hd'⟩
    rw [hd] at hd'; cases hd'

theorem GI.deleteEdge {p : In} {g : BG} (h : GI p g) (a v : Nat) : GI p (deleteEdge p.both g a v) := by
  have F := fr_deleteEdge p.both g a v
  have horig : ∀ i, ((Elim.deleteEdge p.both g a v).e i).orig = (g.e i).orig := by
    intro i; rw [deleteEdge_e]; split <;> rfl
  have hvars : ∀ i j, j ∈ ((Elim.deleteEdge p.both g a v).e i).vars ↔ j ∈ (g.e i).vars ∧ ¬ (i = a ∧ j = v) := by
    intro i j
    rw [deleteEdge_e]; split
    · rename_i hc
      show j ∈ (g.e i).vars.erase v ↔ _
      rw [(h.nodup i).mem_erase_iff]
      simp [hc, and_comm]
    · rename_i hc; simp [hc]
  have heqs : ∀ j i, i ∈ ((Elim.deleteEdge p.both g a v).v j).eqs ↔ i ∈ (g.v j).eqs ∧ ¬ (p.both = true ∧ i = a ∧ j = v) := by
    intro j i
    rw [deleteEdge_v]; split
    · rename_i hc
      show i ∈ (g.v j).eqs.erase a ↔ _
      rw [(h.nodupE j).mem_erase_iff]
      simp [hc, and_comm]
    · rename_i hc
      have : ¬ (p.both = true ∧ i = a ∧ j = v) := fun x => hc ⟨x.1, x.2.2⟩
      simp [this]
  refine ⟨F.ne.trans h.ne, ?_, ?_, ?_, ?_, ?_, ?_⟩
  · intro i j hj
    rw [F.vd, horig]
    exact h.varsIn i j ((hvars i j).mp hj).1
  · intro i
    rw [deleteEdge_e]; split
    · exact (h.nodup i).erase _
    · exact h.nodup i
  · intro i j hj
    have := (hvars i j).mp hj
    exact (heqs j i).mpr ⟨h.eqs i j this.1, fun x => this.2 x.2⟩
  · intro i j hi
    have := (heqs j i).mp hi
    have hb := h.back i j this.1
    rw [horig]
    exact ⟨hb.1, hb.2.1, fun hbo => (hvars i j).mpr ⟨hb.2.2 hbo, fun x => this.2 ⟨hbo, x⟩⟩⟩
  · intro j
    rw [deleteEdge_v]; split
    · exact (h.nodupE j).erase _
    · exact h.nodupE j
  · intro j hd
    rw [F.vd] at hd
    rw [deleteEdge_v]; split
    · show (g.v j).eqs.erase a = []
      rw [h.gone j hd]; rfl
    · exact h.gone j hd

/-- a step of `newEdges` -/
def edge (p : In) (jac : Nat → Nat → Bool) (sol : Nat → Nat → Bool) (a : Nat) (g : BG) (v : Nat) : BG :=
  if jac a v then
    if sol v a then g.addVariable a v
    else deleteEdge p.both g a v
  else g

theorem edge_fr (p : In) (jac sol : Nat → Nat → Bool) (a : Nat) (g : BG) (v : Nat) : Fr g (edge p jac sol a g v) := by
  unfold edge
  split
  · split
    · exact fr_addVariable _ _ _
    · exact fr_deleteEdge _ _ _ _
  · exact Fr.refl g

theorem edge_gi {p : In} {jac sol : Nat → Nat → Bool} {a : Nat} {g : BG} {v : Nat} (h : GI p g) (ha : a < p.ne)
    (hv : v ∈ p.variables) : GI p (edge p jac sol a g v) := by
  unfold edge
  split
  · split
    · exact h.addVariable ha hv
    · exact h.deleteEdge _ _
  · exact h

theorem edge_other (p : In) (jac sol : Nat → Nat → Bool) (a : Nat) (g : BG) (v i : Nat) (hi : i ≠ a) :
    (edge p jac sol a g v).e i = g.e i := by
  unfold edge
  split
  · split
    · rw [addVariable_e, if_neg (fun x => hi x.1)]
    · rw [deleteEdge_e, if_neg hi]
  · rfl

theorem edge_vars {p : In} {jac sol : Nat → Nat → Bool} {a : Nat} {g : BG} {v j : Nat} (h : GI p g)
    (hj : j ∈ ((edge p jac sol a g v).e a).vars) :
    (j ∈ (g.e a).vars ∨ (jac a j = true ∧ sol j a = true)) ∧ (j = v → jac a j = true → sol j a = true) := by
  unfold edge at hj
  split at hj
  · rename_i hjac
    split at hj
    · rename_i hsol
      rw [addVariable_e] at hj
      split at hj
      · simp only at hj
        split at hj
        · exact ⟨.inl hj, fun x => x ▸ fun _ => hsol⟩
        · rcases List.mem_append.mp hj with hj | hj
          · exact ⟨.inl hj, fun x => x ▸ fun _ => hsol⟩
          · rw [List.mem_singleton] at hj
            subst hj
            exact ⟨.inr ⟨hjac, hsol⟩, fun _ _ => hsol⟩
      · exact ⟨.inl hj, fun x => x ▸ fun _ => hsol⟩
    · rw [deleteEdge_e, if_pos rfl] at hj
      have := ((h.nodup a).mem_erase_iff).mp hj
      exact ⟨.inl this.2, fun x => absurd x this.1⟩
  · rename_i hjac
    exact ⟨.inl hj, fun x => x ▸ fun y => absurd y hjac⟩

theorem edges_spec {p : In} {jac sol : Nat → Nat → Bool} {a : Nat} (ha : a < p.ne) : ∀ (l : List Nat) (g : BG), GI p g →
    (∀ v ∈ l, v ∈ p.variables) →
    GI p (l.foldl (edge p jac sol a) g) ∧ Fr g (l.foldl (edge p jac sol a) g) ∧
    (∀ i, i ≠ a → (l.foldl (edge p jac sol a) g).e i = g.e i) ∧
    ∀ j ∈ ((l.foldl (edge p jac sol a) g).e a).vars, (j ∈ (g.e a).vars ∨ (jac a j = true ∧ sol j a = true)) ∧
      (j ∈ l → jac a j = true → sol j a = true) := by
  intro l
  induction l with
  | nil => intro g h _; exact ⟨h, Fr.refl g, fun _ _ => rfl, fun j hj => ⟨.inl hj, fun x => by simp at x⟩⟩
  | cons v l ih =>
    intro g h hl
    rw [List.foldl_cons]
    obtain ⟨h1, h2, h3, h4⟩ := ih (edge p jac sol a g v) (edge_gi h ha (hl v List.mem_cons_self))
      (fun w hw => hl w (List.mem_cons_of_mem _ hw))
    refine ⟨h1, (edge_fr _ _ _ _ _ _).trans h2, fun i hi => (h3 i hi).trans (edge_other _ _ _ _ _ _ _ hi), fun j hj => ?_⟩
    obtain ⟨h5, h6⟩ := h4 j hj
    rcases h5 with h5 | h5
    · have := edge_vars h h5
      exact ⟨this.1, fun x => (List.mem_cons.mp x).elim this.2 h6⟩
    · exact ⟨.inr h5, fun _ _ => h5.2⟩

theorem mem_free {p : In} {j : Nat} (hp : ∀ v ∈ p.variables, v < p.n) : j ∈ p.free ↔ j ∈ p.variables := by
  unfold In.free
  simp only [List.mem_filter, List.mem_range, List.contains_eq_mem, decide_eq_true_eq]
  exact ⟨fun h => h.2, fun h => ⟨hp j h, h⟩⟩

theorem newEdges_eq (p : In) (jac sol : Nat → Nat → Bool) (g : BG) (a : Nat) :
    newEdges p jac sol g a = p.free.foldl (edge p jac sol a) g := rfl

/-- all equations which are affected -/
theorem allEdges_spec {p : In} (hp : ∀ v ∈ p.variables, v < p.n) {jac sol : Nat → Nat → Bool} : ∀ (l : List Nat) (g : BG),
    GI p g → l.Nodup → (∀ a ∈ l, a < p.ne) →
    GI p (l.foldl (newEdges p jac sol) g) ∧ Fr g (l.foldl (newEdges p jac sol) g) ∧
    (∀ i, i ∉ l → (l.foldl (newEdges p jac sol) g).e i = g.e i) ∧
    ∀ i ∈ l, ∀ j ∈ ((l.foldl (newEdges p jac sol) g).e i).vars, (j ∈ (g.e i).vars ∨ (jac i j = true ∧ sol j i = true)) ∧
      (jac i j = true → sol j i = true) := by
  intro l
  induction l with
  | nil => intro g h _ _; exact ⟨h, Fr.refl g, fun _ _ => rfl, fun i hi => by simp at hi⟩
  | cons a l ih =>
    intro g h hn hl
    rw [List.foldl_cons]
    have E := edges_spec (jac := jac) (sol := sol) (hl a List.mem_cons_self) p.free g h (fun v hv => (mem_free hp).mp hv)
    rw [← newEdges_eq] at E
    rw [List.nodup_cons] at hn
    obtain ⟨e1, e2, e3, e4⟩ := E
    obtain ⟨h1, h2, h3, h4⟩ := ih (newEdges p jac sol g a) e1 hn.2 (fun w hw => hl w (List.mem_cons_of_mem _ hw))
    refine ⟨h1, e2.trans h2, fun i hi => ?_, fun i hi j hj => ?_⟩
    · rw [List.mem_cons, not_or] at hi
      exact (h3 i hi.2).trans (e3 i hi.1)
    · rcases List.mem_cons.mp hi with rfl | hi
      · rw [h3 i hn.1] at hj
        have hv := e1.varsIn i j hj
        exact ⟨(e4 j hj).1, (e4 j hj).2 ((mem_free hp).mpr hv.1)⟩
      · have := h4 i hi j hj
        rwa [e3 i (fun x => hn.1 (x ▸ hi))] at this

/-- the variable is deleted -/
theorem deleteV_e' {p : In} {g : BG} (h : GI p g) {j i : Nat} : (g.deleteV j).e i = { g.e i with vars := (g.e i).vars.erase j } := by
  unfold BG.deleteV
  simp only
  rw [setV_e, deleteFold_e (g.v j).eqs (g.setV j fun n => { n with deleted := true }) j (fun i => h.nodup i)]
  show (if i ∈ (g.v j).eqs then { g.e i with vars := (g.e i).vars.erase j } else g.e i) = _
  split
  · rfl
  · rename_i hi
    rw [List.erase_of_not_mem (fun x => hi (h.eqs i j x))]

theorem GI.deleteV {p : In} {g : BG} (h : GI p g) (j : Nat) : GI p (g.deleteV j) := by
  have hvars : ∀ i k, k ∈ ((g.deleteV j).e i).vars ↔ k ≠ j ∧ k ∈ (g.e i).vars := by
    intro i k
    rw [deleteV_e' h]
    exact (h.nodup i).mem_erase_iff
  have horig : ∀ i, ((g.deleteV j).e i).orig = (g.e i).orig := by intro i; rw [deleteV_e' h]
  refine ⟨deleteV_n.2.trans h.ne, ?_, ?_, ?_, ?_, ?_, ?_⟩
  · intro i k hk
    have := (hvars i k).mp hk
    rw [deleteV_v, if_neg this.1, horig]
    exact h.varsIn i k this.2
  · intro i
    rw [deleteV_e' h]
    exact (h.nodup i).erase _
  · intro i k hk
    have := (hvars i k).mp hk
    rw [deleteV_v, if_neg this.1]
    exact h.eqs i k this.2
  · intro i k hk
    rw [deleteV_v] at hk
    split at hk
    · simp at hk
    · rename_i hkj
      have := h.back i k hk
      rw [horig]
      exact ⟨this.1, this.2.1, fun hb => (hvars i k).mpr ⟨hkj, this.2.2 hb⟩⟩
  · intro k
    rw [deleteV_v]; split
    · exact List.nodup_nil
    · exact h.nodupE k
  · intro k hd
    rw [deleteV_v] at hd ⊢
    split
    · rfl
    · rename_i hk
      rw [if_neg hk] at hd
      exact h.gone k hd

theorem GI.setAssign {p : In} {g : BG} (h : GI p g) (j i : Nat) : GI p (g.setAssign j i) := by
  have S := same_setAssign g j i
  refine ⟨h.ne, ?_, ?_, ?_, ?_, ?_, ?_⟩
  · intro a b hb; rw [S.vars] at hb; rw [S.deleted, S.orig]; exact h.varsIn a b hb
  · intro a; rw [S.vars]; exact h.nodup a
  · intro a b hb; rw [S.vars] at hb; rw [S.eqs]; exact h.eqs a b hb
  · intro a b hb; rw [S.eqs] at hb; rw [S.vars, S.orig]; exact h.back a b hb
  · intro b; rw [S.eqs]; exact h.nodupE b
  · intro b hb; rw [S.deleted] at hb; rw [S.eqs]; exact h.gone b hb

end Verif.Dae.Elim
