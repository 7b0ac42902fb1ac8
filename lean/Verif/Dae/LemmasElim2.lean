import Verif.Dae.LemmasElim
namespace Verif.Dae.Elim
variable {σ : Type}

theorem Run.append {subst : σ → Nat → Nat → Option σ} {i j : Nat} {h1 h2 : σ} (hs : subst h1 i j = some h2) :
    ∀ (ps : List (Nat × Nat)) (h0 : σ), Run subst h0 ps h1 → Run subst h0 (ps ++ [(i, j)]) h2 := by
  intro ps
  induction ps with
  | nil => intro h0 h; obtain rfl : h1 = h0 := h; exact ⟨h2, hs, rfl⟩
  | cons q ps ih =>
    intro h0 h
    obtain ⟨h', h1', h2'⟩ := h
    exact ⟨h', h1', ih h' h2'⟩

/-- what holds between assignments; `ps`: the substitutions made -/
structure EI (E : Eng σ) (p : In) (dep : σ → Nat → Nat → Prop) (h0 : σ) (ps : List (Nat × Nat)) (s : St σ) : Prop where
  gi : GI p s.g
  run : Run E.subst h0 ps s.h
  iffv : ∀ i j, (s.g.v j).assign = some i ↔ (i, j) ∈ ps
  iffe : ∀ i j, (s.g.e i).assign = some j ↔ (i, j) ∈ ps
  mem : ∀ q ∈ ps, q.1 < p.ne ∧ q.2 ∈ p.variables
  nd1 : (ps.map (·.1)).Nodup
  nd2 : (ps.map (·.2)).Nodup
  del : ∀ j, (s.g.v j).deleted = true ↔ (s.g.v j).assign ≠ none
  uncV : ∀ j, (s.g.v j).colored = false
  uncE : ∀ i, (s.g.e i).colored = false
  dep : ∀ e k, e < p.ne → k ∈ p.variables → dep s.h e k → s.jac e k = true
  col : ∀ i j, (i, j) ∈ ps → ∀ e, e < p.ne → e ≠ i → s.jac e j = false
  sol : ∀ i, (s.g.e i).assign = none → ∀ j ∈ (s.g.e i).vars, s.jac i j = true ∧ E.solvable s.h i j = true

theorem EI.length {E : Eng σ} {p : In} {dep : σ → Nat → Nat → Prop} {h0 : σ} {ps : List (Nat × Nat)} {s : St σ}
    (h : EI E p dep h0 ps s) : ps.length ≤ p.variables.length := by
  have : (ps.map (·.2)).Subperm p.variables := by
    refine h.nd2.subperm ?_
    intro x hx
    obtain ⟨q, hq, rfl⟩ := List.mem_map.mp hx
    exact (h.mem q hq).2
  simpa using this.length_le

theorem mem_affected {p : In} {s : St σ} {i j e : Nat} : e ∈ affected p s i j ↔ e < p.ne ∧ e ≠ i ∧ s.jac e j = true := by
  unfold affected
  simp only [List.mem_filter, List.mem_range, Bool.and_eq_true, bne_iff_ne]

theorem newJac_affected {p : In} {s : St σ} {i j e : Nat} (h : e ∈ affected p s i j) (k : Nat) :
    newJac p s i j e k = if k = j then false else s.jac e k || (p.free.contains k && s.jac i k) := by
  unfold newJac; rw [if_pos (by simpa using h)]

theorem newJac_other {p : In} {s : St σ} {i j e : Nat} (h : e ∉ affected p s i j) (k : Nat) : newJac p s i j e k = s.jac e k := by
  unfold newJac; rw [if_neg (by simpa using h)]

theorem assignVar_spec {E : Eng σ} {p : In} {dep : σ → Nat → Nat → Prop} {h0 : σ} (hE : Right E.solvable E.subst dep)
    (hp : ∀ v ∈ p.variables, v < p.n) (ho : ∀ l, (p.ord l).Perm l) {ps : List (Nat × Nat)} {s : St σ}
    (h : EI E p dep h0 ps s) {i j : Nat} (hi : i < p.ne) (hia : (s.g.e i).assign = none) (hj : j ∈ p.variables)
    (hjd : (s.g.v j).deleted = false) :
    (assignVar E p s i j = .error .exception ∧ E.subst s.h i j = none) ∨
    (assignVar E p s i j = .ok (false, s)) ∨
    ∃ s', assignVar E p s i j = .ok (true, s') ∧ EI E p dep h0 (ps ++ [(i, j)]) s' := by
  unfold assignVar
  cases hs : E.subst s.h i j with
  | none => left; exact ⟨rfl, rfl⟩
  | some h' =>
    right
    simp only
    -- the result in both cases
    let g1 := (p.ord (affected p s i j)).foldl (newEdges p (newJac p s i j) (solvableIn E p s h' i j)) s.g
    have hres : EI E p dep h0 (ps ++ [(i, j)]) ⟨(g1.setAssign j i).deleteV j, newJac p s i j, h'⟩ := by
      have hnd : (affected p s i j).Nodup := List.nodup_range.filter _
      have hA := allEdges_spec hp (jac := newJac p s i j) (sol := solvableIn E p s h' i j) (p.ord (affected p s i j)) s.g h.gi
        ((ho _).nodup_iff.mpr hnd) (fun a ha => (mem_affected.mp ((ho _).mem_iff.mp ha)).1)
      have hA : GI p g1 ∧ Fr s.g g1 ∧ (∀ i', i' ∉ p.ord (affected p s i j) → g1.e i' = s.g.e i') ∧ _ := hA
      obtain ⟨hg, hf, hout, hin⟩ := hA
      have hja : (s.g.v j).assign = none := by
        by_contra hc
        rw [(h.del j).mpr hc] at hjd; cases hjd
      have hgs : GI p (g1.setAssign j i) := hg.setAssign j i
      have hev : ∀ k, ((g1.setAssign j i).deleteV j).e k =
          { (g1.setAssign j i).e k with vars := (g1.e k).vars.erase j } := by
        intro k
        rw [deleteV_e' hgs, (same_setAssign g1 j i).vars]
      have hjnot : ∀ i', (i', j) ∉ ps := by
        intro i' hq
        rw [(h.iffv i' j).mpr hq] at hja; cases hja
      have hinot : ∀ j', (i, j') ∉ ps := by
        intro j' hq
        rw [(h.iffe i j').mpr hq] at hia; cases hia
      refine ⟨hgs.deleteV j, Run.append hs ps h0 h.run, ?_, ?_, ?_, ?_, ?_, ?_, ?_, ?_, ?_, ?_, ?_⟩
      · intro i' j'
        rw [List.mem_append, List.mem_singleton, Prod.mk.injEq]
        show (((g1.setAssign j i).deleteV j).v j').assign = some i' ↔ _
        rw [deleteV_v, setAssign_v]
        by_cases hjj : j' = j
        · subst hjj
          simp only [if_true, Option.some.injEq, and_true]
          exact ⟨fun x => .inr x.symm, fun x => x.elim (fun y => absurd y (hjnot i')) Eq.symm⟩
        · rw [if_neg hjj, if_neg hjj, hf.va, h.iffv]; simp [hjj]
      · intro i' j'
        rw [List.mem_append, List.mem_singleton, Prod.mk.injEq]
        show (((g1.setAssign j i).deleteV j).e i').assign = some j' ↔ _
        rw [hev]
        show ((g1.setAssign j i).e i').assign = some j' ↔ _
        rw [setAssign_e]
        by_cases hii : i' = i
        · subst hii
          simp only [if_true, Option.some.injEq, true_and]
          exact ⟨fun x => .inr x.symm, fun x => x.elim (fun y => absurd y (hinot j')) Eq.symm⟩
        · rw [if_neg hii, hf.ea, h.iffe]; simp [hii]
      · intro q hq
        rcases List.mem_append.mp hq with hq | hq
        · exact h.mem q hq
        · rw [List.mem_singleton] at hq; subst hq; exact ⟨hi, hj⟩
      · rw [List.map_append, List.nodup_append]
        refine ⟨h.nd1, by simp, ?_⟩
        intro x hx y hy
        simp only [List.map_cons, List.map_nil, List.mem_singleton] at hy
        obtain ⟨q, hq, rfl⟩ := List.mem_map.mp hx
        rintro hxy
        exact hinot q.2 (by rw [← hy, ← hxy]; exact hq)
      · rw [List.map_append, List.nodup_append]
        refine ⟨h.nd2, by simp, ?_⟩
        intro x hx y hy
        simp only [List.map_cons, List.map_nil, List.mem_singleton] at hy
        obtain ⟨q, hq, rfl⟩ := List.mem_map.mp hx
        rintro hxy
        exact hjnot q.1 (by rw [← hy, ← hxy]; exact hq)
      · intro j'
        show (((g1.setAssign j i).deleteV j).v j').deleted = true ↔ (((g1.setAssign j i).deleteV j).v j').assign ≠ none
        rw [deleteV_v, setAssign_v]
        by_cases hjj : j' = j
        · simp [hjj]
        · rw [if_neg hjj, if_neg hjj, hf.vd, hf.va]; exact h.del j'
      · intro j'
        show (((g1.setAssign j i).deleteV j).v j').colored = false
        rw [deleteV_v, setAssign_v]
        split <;> (try simp only) <;> rw [hf.vc] <;> exact h.uncV j'
      · intro i'
        show (((g1.setAssign j i).deleteV j).e i').colored = false
        rw [hev]
        show ((g1.setAssign j i).e i').colored = false
        rw [setAssign_e]
        split <;> (try simp only) <;> rw [hf.ec] <;> exact h.uncE i'
      · intro e k he hk hd
        show newJac p s i j e k = true
        by_cases hei : e = i
        · subst hei
          rw [newJac_other (fun x => (mem_affected.mp x).2.1 rfl)]
          exact h.dep e k he hk (hE.own _ _ _ _ hs k hd)
        · obtain ⟨hkj, hd⟩ := hE.other _ _ _ _ hs e k hei hd
          by_cases ha : e ∈ affected p s i j
          · rw [newJac_affected ha, if_neg hkj]
            have hfree : p.free.contains k = true := by simpa using (mem_free hp).mpr hk
            rcases hd with hd | ⟨_, hd⟩
            · rw [h.dep e k he hk hd]; rfl
            · rw [h.dep i k hi hk hd, hfree]; simp
          · rw [newJac_other ha]
            rcases hd with hd | ⟨hd, _⟩
            · exact h.dep e k he hk hd
            · exact absurd (mem_affected.mpr ⟨he, hei, h.dep e j he hj hd⟩) ha
      · intro i' j' hq e he hei
        show newJac p s i j e j' = false
        rcases List.mem_append.mp hq with hq2 | hq
        · have hjj : j' ≠ j := fun x => hjnot i' (x ▸ hq2)
          have hii : i ≠ i' := fun x => hinot j' (x ▸ hq2)
          by_cases ha : e ∈ affected p s i j
          · rw [newJac_affected ha, if_neg hjj, h.col i' j' hq2 e he hei, h.col i' j' hq2 i hi hii]; simp
          · rw [newJac_other ha, h.col i' j' hq2 e he hei]
        · simp only [List.mem_singleton, Prod.mk.injEq] at hq
          obtain ⟨rfl, rfl⟩ := hq
          by_cases ha : e ∈ affected p s i' j'
          · rw [newJac_affected ha, if_pos rfl]
          · rw [newJac_other ha]
            cases hx : s.jac e j' with
            | false => rfl
            | true => exact absurd (mem_affected.mpr ⟨he, hei, hx⟩) ha
      · intro i' hai j' hj'
        rw [show (St.g ⟨(g1.setAssign j i).deleteV j, newJac p s i j, h'⟩) = (g1.setAssign j i).deleteV j from rfl, hev] at hai hj'
        have hai : ((g1.setAssign j i).e i').assign = none := hai
        have hj' : j' ∈ (g1.e i').vars.erase j := hj'
        rw [setAssign_e] at hai
        have hii : i' ≠ i := by rintro rfl; simp at hai
        rw [if_neg hii, hf.ea] at hai
        have hj2 := ((hg.nodup i').mem_erase_iff).mp hj'
        show newJac p s i j i' j' = true ∧ E.solvable h' i' j' = true
        have hv := hg.varsIn i' j' hj2.2
        by_cases ha : i' ∈ affected p s i j
        · have H := hin i' ((ho _).mem_iff.mpr ha) j' hj2.2
          have hnj : newJac p s i j i' j' = true := by
            rcases H.1 with H1 | H1
            · rw [newJac_affected ha, if_neg hj2.1, (h.sol i' hai j' H1).1]; rfl
            · exact H1.1
          refine ⟨hnj, ?_⟩
          have := H.2 hnj
          unfold solvableIn at this
          rw [if_pos (by simpa using ha), hnj] at this
          simpa using this
        · rw [hout i' (fun x => ha ((ho _).mem_iff.mp x))] at hj2
          have H := h.sol i' hai j' hj2.2
          rw [newJac_other ha]
          refine ⟨H.1, ?_⟩
          rw [hE.keep _ _ _ _ hs i' j' hii, H.2]
          intro hd
          exact ha (mem_affected.mpr ⟨hv.2.2.1, hii, h.dep i' j hv.2.2.1 hj hd⟩)
    by_cases hem : (affected p s i j).isEmpty = true
    · right
      rw [if_pos hem]
      refine ⟨_, rfl, ?_⟩
      have hnil : affected p s i j = [] := List.isEmpty_iff.mp hem
      have hg1 : g1 = s.g := by
        show (p.ord (affected p s i j)).foldl _ s.g = s.g
        have : p.ord (affected p s i j) = [] := by
          have := ho (affected p s i j)
          rw [hnil] at this ⊢
          exact this.eq_nil
        rw [this]; rfl
      have hj1 : newJac p s i j = s.jac := by
        funext e k
        exact newJac_other (by rw [hnil]; simp) k
      rw [hg1, hj1] at hres
      exact hres
    · rw [if_neg hem]
      split
      · exact .inr ⟨_, rfl, hres⟩
      · exact .inl rfl

end Verif.Dae.Elim
