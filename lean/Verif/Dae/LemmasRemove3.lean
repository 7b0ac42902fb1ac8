import Verif.Dae.LemmasRemove2
/-
Helper lemmas C77: removal of all equations.
-/
namespace Verif.Dae.Remove
open Verif.Dae.Soares

theorem VInv.congr {n0 N : Nat} {tp : Nat → Nat} {G : BG} {Rm Rm' : Nat → Nat → Prop} {M : Mem}
    (he : ∀ i k, Edge G Rm' i k ↔ Edge G Rm i k) (h : VInv n0 N tp G Rm M) : VInv n0 N tp G Rm' M := by
  have ha : ∀ k, Alive n0 G Rm' k ↔ Alive n0 G Rm k := fun k => Alive.congr (exists_congr fun i => he i k)
  exact ⟨fun j hj i => (h.eqs j ((ha j).mp hj) i).trans (he i j).symm, h.nd, h.anti, h.assign,
    fun j hj k => (h.deriv j ((ha j).mp hj) k).trans (and_congr_right fun _ => (ha k).symm), h.sorted,
    fun j => (h.mem j).trans (ha j).symm, h.first, h.vi, fun j hj => h.vt j ((ha j).mp hj)⟩

theorem dropEdges_ok {n0 N : Nat} {tp : Nat → Nat} {G : BG} {D : List Nat} (hB : Basis n0 G D) {d : Nat} (hd : d ∈ D) (fuel : Nat) :
    ∀ (js : List Nat) (Rm : Nat → Nat → Prop) (M : Mem), VInv n0 N tp G Rm M → (∀ i j, Rm i j → i ∈ D) → js.Nodup →
      (∀ j ∈ js, j ∈ (G.e d).orig ∧ ¬ Rm d j) →
      ∃ M', js.foldlM (dropEdge (fuel + 2) d) M = .ok M' ∧ VInv n0 N tp G (fun i k => Rm i k ∨ (i = d ∧ k ∈ js)) M' ∧
        M'.el = M.el ∧ M'.ei = M.ei ∧ M'.g.e = M.g.e := by
  intro js
  induction js with
  | nil =>
    intro Rm M h _ _ _
    exact ⟨M, rfl, h.congr fun i k => by unfold Edge; simp, rfl, rfl, rfl⟩
  | cons j js ih =>
    intro Rm M h hR hn hj
    rw [List.nodup_cons] at hn
    obtain ⟨M1, e1, v1, a1, a2, a3⟩ := dropEdge_ok hB h hR hd (hj j List.mem_cons_self).1 (hj j List.mem_cons_self).2 fuel
    obtain ⟨M2, e2, v2, b1, b2, b3⟩ := ih _ M1 v1 (by
      rintro i k (x | ⟨rfl, _⟩)
      · exact hR i k x
      · exact hd) hn.2 (by
      intro k hk
      refine ⟨(hj k (List.mem_cons_of_mem _ hk)).1, ?_⟩
      rintro (x | ⟨_, rfl⟩)
      · exact (hj k (List.mem_cons_of_mem _ hk)).2 x
      · exact hn.1 hk)
    refine ⟨M2, ?_, v2.congr fun i k => ?_, b1.trans a1, b2.trans a2, b3.trans a3⟩
    · rw [List.foldlM_cons, e1]; exact e2
    · unfold Edge
      simp only [List.mem_cons]
      tauto

/-- the equations after those of `R` were removed -/
structure EInv (G : BG) (R : List Nat) (M : Mem) : Prop where
  vars : ∀ i, (M.g.e i).vars = (G.e i).vars
  diffOf : ∀ i, (M.g.e i).diffOf = (G.e i).diffOf
  diff : ∀ i d, i ∉ R → ((M.g.e i).diff = some d ↔ (G.e i).diff = some d ∧ d ∉ R)
  sorted : M.el.Pairwise (· < ·)
  mem : ∀ i, i ∈ M.el ↔ i < G.ne ∧ i ∉ R
  ei : ∀ p i : Nat, M.el[p]? = some i → M.ei i = p

theorem EInv.nodup {G : BG} {R : List Nat} {M : Mem} (h : EInv G R M) : M.el.Nodup := h.sorted.imp Nat.ne_of_lt

theorem remove_ok {n0 N : Nat} {tp : Nat → Nat} {G : BG} {D : List Nat} (hB : Basis n0 G D) {R : List Nat} {M : Mem}
    (hV : VInv n0 N tp G (fun i _ => i ∈ R) M) (hE : EInv G R M) (hR : ∀ i ∈ R, i ∈ D) {d : Nat} (hd : d ∈ D) (hn : d ∉ R) (fuel : Nat) :
    ∃ M', remove (fuel + 2) M d = .ok M' ∧ VInv n0 N tp G (fun i _ => i ∈ R ++ [d]) M' ∧ EInv G (R ++ [d]) M' := by
  obtain ⟨h1, h2, f, h3, h4, h5⟩ := hB.mem d hd
  have hel : d ∈ M.el := (hE.mem d).mpr ⟨h1, hn⟩
  unfold remove
  rw [if_pos hel]
  obtain ⟨M1, e1, v1, a1, a2, a3⟩ := dropEdges_ok hB hd fuel (M.g.e d).vars _ M hV (fun i _ x => hR i x)
    (by rw [hE.vars, hB.vars]; exact hB.w.nodup d) (fun j hj => by rw [hE.vars, hB.vars] at hj; exact ⟨hj, hn⟩)
  rw [e1]
  simp only
  refine ⟨_, rfl, ?_, ?_⟩
  · have v2 := v1.congr (Rm' := fun i _ => i ∈ R ++ [d]) (by
      intro i k
      unfold Edge
      simp only [hE.vars, hB.vars, List.mem_append, List.mem_singleton]
      constructor
      · rintro ⟨x, y⟩
        exact ⟨x, fun z => y (z.imp id fun w => w.1)⟩
      · rintro ⟨x, y⟩
        exact ⟨x, fun z => y (z.imp id fun w => ⟨w, w ▸ x⟩)⟩)
    rw [a3, hE.diffOf, h5]
    exact ⟨v2.eqs, v2.nd, v2.anti, v2.assign, v2.deriv, v2.sorted, v2.mem, v2.first, v2.vi, v2.vt⟩
  · obtain ⟨pos, hpos⟩ := List.mem_iff_getElem?.mp hel
    have hei := hE.ei pos d hpos
    rw [a1, a2, a3, hE.diffOf, h5, hei]
    simp only
    have ee : ∀ i, (M1.g.setE f fun n => { n with diff := none }).e i = if i = f then { M.g.e i with diff := none } else M.g.e i := by
      intro i; rw [setE_e, a3]
    constructor
    · intro i
      refine (congrArg EN.vars (ee i)).trans ?_
      split <;> exact hE.vars i
    · intro i
      refine (congrArg EN.diffOf (ee i)).trans ?_
      split <;> exact hE.diffOf i
    · intro i x hi
      refine Iff.trans (b := (if i = f then { M.g.e i with diff := none } else M.g.e i).diff = some x) (by rw [← ee]) ?_
      rw [List.mem_append, List.mem_singleton, not_or] at hi
      rw [List.mem_append, List.mem_singleton, not_or]
      split
      · rename_i e
        subst e
        simp only [reduceCtorEq, false_iff, not_and, not_not]
        intro hx _
        rw [h4] at hx
        exact (Option.some.inj hx).symm
      · rename_i e
        rw [hE.diff i x hi.1]
        refine and_congr_right fun hx => ⟨fun y => ⟨y, ?_⟩, fun y => y.1⟩
        rintro rfl
        exact e (hB.inj i f x hx h4)
    · show (M.el.erase d).Pairwise _
      exact hE.sorted.sublist List.erase_sublist
    · intro i
      show i ∈ M.el.erase d ↔ _
      rw [hE.nodup.mem_erase_iff, hE.mem, List.mem_append, List.mem_singleton]
      tauto
    · intro p i hp
      have hp' : (M.el.erase d)[p]? = some i := hp
      obtain ⟨_, s1, s2⟩ := shift_pos hE.nodup hE.ei hpos hp'
      show shift M.el (pos + 1) M.ei i = p
      unfold shift
      by_cases hq : pos ≤ p
      · rw [if_pos (s1.mpr hq), s2, if_neg (by omega)]; rfl
      · rw [if_neg (fun x => hq (s1.mp x)), s2, if_pos (by omega)]

theorem removeAll_ok {n0 N : Nat} {tp : Nat → Nat} {G : BG} {D : List Nat} (hB : Basis n0 G D) (fuel : Nat) : ∀ (l R : List Nat) (M : Mem),
    VInv n0 N tp G (fun i _ => i ∈ R) M → EInv G R M → (∀ i ∈ R, i ∈ D) → (∀ i ∈ l, i ∈ D) → (R ++ l).Nodup →
    ∃ M', l.foldlM (remove (fuel + 2)) M = .ok M' ∧ VInv n0 N tp G (fun i _ => i ∈ R ++ l) M' ∧ EInv G (R ++ l) M' := by
  intro l
  induction l with
  | nil => intro R M hV hE _ _ _; exact ⟨M, rfl, by simpa using hV, by simpa using hE⟩
  | cons d l ih =>
    intro R M hV hE hR hl hn
    have hd := hl d List.mem_cons_self
    obtain ⟨M1, e1, v1, w1⟩ := remove_ok hB hV hE hR hd
      (fun x => (List.nodup_append.mp hn).2.2 d x d List.mem_cons_self rfl) fuel
    have e : R ++ d :: l = (R ++ [d]) ++ l := by simp
    rw [e] at hn ⊢
    obtain ⟨M2, e2, v2, w2⟩ := ih (R ++ [d]) M1 v1 w1 (by
      intro i hi
      rw [List.mem_append, List.mem_singleton] at hi
      rcases hi with hi | rfl
      · exact hR i hi
      · exact hd) (fun i hi => hl i (List.mem_cons_of_mem _ hi)) hn
    exact ⟨M2, by rw [List.foldlM_cons, e1]; exact e2, v2, w2⟩

/-- the start -/
theorem start_ok {info : List VarInfo} {G : BG} {D : List Nat} (hB : Basis (tapeOf info).length G D) :
    VInv (tapeOf info).length info.length (fun j => ((tapeOf info)[j]?).getD 0) G (fun i _ => i ∈ ([] : List Nat)) (start info G) ∧
    EInv G [] (start info G) := by
  have hed : ∀ i j, Edge G (fun i _ => i ∈ ([] : List Nat)) i j ↔ j ∈ (G.e i).orig := by intro i j; unfold Edge; simp
  have hal : ∀ j, j < G.nv → Alive (tapeOf info).length G (fun i _ => i ∈ ([] : List Nat)) j := by
    intro j hj
    refine ⟨hj, ?_⟩
    by_cases h : j < (tapeOf info).length
    · exact .inl h
    · obtain ⟨_, f, e, _, h2⟩ := hB.kept.new j (by omega) hj
      exact .inr ⟨e, (hed e j).mpr h2⟩
  have hrange : ∀ (n p j : Nat), (List.range n)[p]? = some j → j = p := by
    intro n p j h
    obtain ⟨h1, h2⟩ := List.getElem?_eq_some_iff.mp h
    rw [List.getElem_range] at h2
    exact h2.symm
  refine ⟨⟨?_, hB.kept.nodup, fun _ => rfl, fun _ => rfl, ?_, List.pairwise_lt_range, ?_, ?_, ?_, ?_⟩, ⟨fun _ => rfl, fun _ => rfl, ?_,
    List.pairwise_lt_range, ?_, ?_⟩⟩
  · intro j _ i
    rw [hed, ← hB.vars]
    exact hB.w.eqs i j
  · intro j _ k
    refine ⟨fun h => ⟨h, hal k (hB.kept.der j k h)⟩, fun h => h.1⟩
  · intro j
    show j ∈ List.range G.nv ↔ _
    rw [List.mem_range]
    exact ⟨hal j, fun h => h.1⟩
  · obtain ⟨c, hc⟩ := Nat.exists_eq_add_of_le hB.le
    refine ⟨(List.range c).map ((tapeOf info).length + ·), ?_, fun j hj => ?_⟩
    · show List.range G.nv = _
      rw [hc, List.range_add]
    · obtain ⟨x, _, rfl⟩ := List.mem_map.mp hj
      exact Nat.le_add_right _ _
  · intro p j h; exact hrange _ p j h
  · intro j _; rfl
  · intro i d _; simp only [List.not_mem_nil, not_false_eq_true, and_true]; exact Iff.rfl
  · intro i
    show i ∈ List.range G.ne ↔ _
    rw [List.mem_range]; simp
  · intro p i h; exact hrange _ p i h

end Verif.Dae.Remove
