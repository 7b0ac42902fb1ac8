import Verif.Dae.LemmasRemove
/-
Helper lemmas C77: removal of equations.
-/
namespace Verif.Dae.Remove
open Verif.Dae.Soares

/-! ### positions -/

theorem mem_drop_iff {l : List Nat} (hn : l.Nodup) {p k q : Nat} (h : l[p]? = some k) : k ∈ l.drop q ↔ q ≤ p := by
  rw [List.mem_iff_getElem?]
  constructor
  · rintro ⟨r, hr⟩
    rw [List.getElem?_drop] at hr
    obtain ⟨h1, h2⟩ := List.getElem?_eq_some_iff.mp h
    obtain ⟨h3, h4⟩ := List.getElem?_eq_some_iff.mp hr
    have := (List.Nodup.getElem_inj_iff hn).mp (h2.trans h4.symm)
    omega
  · intro hq
    exact ⟨p - q, by rw [List.getElem?_drop, Nat.add_sub_cancel' hq]; exact h⟩

theorem eraseIdx_pos {l : List Nat} (hn : l.Nodup) {pos j : Nat} (hp : l[pos]? = some j) : l.eraseIdx pos = l.erase j := by
  obtain ⟨h1, h2⟩ := List.getElem?_eq_some_iff.mp hp
  rw [← h2, hn.erase_getElem pos h1]

theorem erase_get {l : List Nat} (hn : l.Nodup) {pos j : Nat} (hp : l[pos]? = some j) (p : Nat) :
    (l.erase j)[p]? = if p < pos then l[p]? else l[p + 1]? := by
  rw [← eraseIdx_pos hn hp, List.getElem?_eraseIdx]

/-- the positions after an element was removed -/
theorem shift_pos {l : List Nat} (hn : l.Nodup) {f : Nat → Nat} (hf : ∀ p k : Nat, l[p]? = some k → f k = p) {pos j : Nat}
    (hp : l[pos]? = some j) {p k : Nat} (hk : (l.erase j)[p]? = some k) :
    (k ∈ (l.erase j).drop pos ↔ pos ≤ p) ∧ (k ∈ l.drop (pos + 1) ↔ pos ≤ p) ∧ f k = if p < pos then p else p + 1 := by
  refine ⟨mem_drop_iff (hn.erase j) hk, ?_⟩
  rw [erase_get hn hp] at hk
  by_cases h : p < pos
  · rw [if_pos h] at hk ⊢
    exact ⟨(mem_drop_iff hn hk).trans (by omega), hf p k hk⟩
  · rw [if_neg h] at hk ⊢
    exact ⟨(mem_drop_iff hn hk).trans (by omega), hf _ k hk⟩

/-! ### what does not change -/

/-- the graph before the removal of the equations `D` -/
structure Basis (n0 : Nat) (G : BG) (D : List Nat) : Prop where
  w : W G
  nodel : ∀ j, (G.v j).deleted = false
  rank : ∃ r : Nat → Nat, ∀ j d, (G.v j).deriv = some d → r j < r d
  kept : Kept n0 G
  le : n0 ≤ G.nv
  nodup : D.Nodup
  mem : ∀ d ∈ D, d < G.ne ∧ (G.e d).diff = none ∧ ∃ f, f ∉ D ∧ (G.e f).diff = some d ∧ (G.e d).diffOf = some f
  chain : ∀ f d, (G.e f).diff = some d → ∀ j, j ∈ (G.e d).orig ↔ ∃ a ∈ (G.e f).orig, (G.v a).deriv = some j
  inj : ∀ i f d, (G.e i).diff = some d → (G.e f).diff = some d → i = f
  low : ∀ k j, k < n0 → (G.v k).anti = some j → j < n0
  good : ∀ j, j < n0 → (G.v j).anti ≠ none → ∃ i, i ∉ D ∧ j ∈ (G.e i).orig

theorem Basis.vars {n0 : Nat} {G : BG} {D : List Nat} (h : Basis n0 G D) (i : Nat) : (G.e i).vars = (G.e i).orig := by
  rw [h.w.vars]
  exact List.filter_eq_self.mpr fun j _ => by rw [h.nodel]; rfl

/-- the variables of a removed equation are derivatives of variables of an equation which stays -/
theorem Basis.parent {n0 : Nat} {G : BG} {D : List Nat} (h : Basis n0 G D) {d j : Nat} (hd : d ∈ D) (hj : j ∈ (G.e d).orig) :
    ∃ f a, f ∉ D ∧ a ∈ (G.e f).orig ∧ (G.v j).anti = some a ∧ (G.v a).deriv = some j ∧ a < G.nv ∧ a ≠ j := by
  obtain ⟨_, _, f, h1, h2, _⟩ := h.mem d hd
  obtain ⟨a, h3, h4⟩ := (h.chain f d h2 j).mp hj
  refine ⟨f, a, h1, h3, (h.w.link a j h4).2.2, h4, (h.w.link a j h4).1, fun e => ?_⟩
  subst e
  obtain ⟨r, hr⟩ := h.rank
  exact Nat.lt_irrefl _ (hr a a h4)

/-- a variable with a derivative occurs in an equation which stays -/
theorem Basis.stays {n0 : Nat} {G : BG} {D : List Nat} (h : Basis n0 G D) {j k : Nat} (hk : (G.v j).deriv = some k)
    (ha : (G.v j).anti ≠ none) : ∃ i, i ∉ D ∧ j ∈ (G.e i).orig := by
  have hl := h.w.link j k hk
  by_cases hn : k < n0
  · exact h.good j (h.low k j hn hl.2.2) ha
  · obtain ⟨_, f, e, h1, h2⟩ := h.kept.new k (by omega) hl.2.1
    obtain ⟨a, h3, h4⟩ := (h.chain f e h1 k).mp h2
    have := (h.w.link a k h4).2.2
    rw [hl.2.2] at this
    cases this
    refine ⟨f, fun hf => ?_, h3⟩
    rw [(h.mem f hf).2.1] at h1
    cases h1

/-! ### variables -/

/-- the edges left after those of `Rm` were removed -/
def Edge (G : BG) (Rm : Nat → Nat → Prop) (i j : Nat) : Prop := j ∈ (G.e i).orig ∧ ¬ Rm i j

/-- the variables left -/
def Alive (n0 : Nat) (G : BG) (Rm : Nat → Nat → Prop) (j : Nat) : Prop := j < G.nv ∧ (j < n0 ∨ ∃ i, Edge G Rm i j)

/-- the variables after the edges of `Rm` were removed -/
structure VInv (n0 N : Nat) (tp : Nat → Nat) (G : BG) (Rm : Nat → Nat → Prop) (M : Mem) : Prop where
  eqs : ∀ j, Alive n0 G Rm j → ∀ i, i ∈ (M.g.v j).eqs ↔ Edge G Rm i j
  nd : ∀ j, (M.g.v j).eqs.Nodup
  anti : ∀ j, (M.g.v j).anti = (G.v j).anti
  assign : ∀ j, (M.g.v j).assign = (G.v j).assign
  deriv : ∀ j, Alive n0 G Rm j → ∀ k, (M.g.v j).deriv = some k ↔ (G.v j).deriv = some k ∧ Alive n0 G Rm k
  sorted : M.vl.Pairwise (· < ·)
  mem : ∀ j, j ∈ M.vl ↔ Alive n0 G Rm j
  first : ∃ rest, M.vl = List.range n0 ++ rest ∧ ∀ j ∈ rest, n0 ≤ j
  vi : ∀ p j : Nat, M.vl[p]? = some j → M.vi j = p
  vt : ∀ j, Alive n0 G Rm j → M.vt j = if j < n0 then tp j else N + (M.vi j - n0)

theorem Alive.congr {n0 : Nat} {G : BG} {Rm Rm' : Nat → Nat → Prop} {k : Nat} (h : (∃ i, Edge G Rm' i k) ↔ ∃ i, Edge G Rm i k) :
    Alive n0 G Rm' k ↔ Alive n0 G Rm k := by
  unfold Alive
  rw [h]

theorem VInv.nodup {n0 N : Nat} {tp : Nat → Nat} {G : BG} {Rm : Nat → Nat → Prop} {M : Mem} (h : VInv n0 N tp G Rm M) : M.vl.Nodup :=
  h.sorted.imp Nat.ne_of_lt

/-- positions from `n0` on are those of new variables -/
theorem VInv.pos {n0 N : Nat} {tp : Nat → Nat} {G : BG} {Rm : Nat → Nat → Prop} {M : Mem} (h : VInv n0 N tp G Rm M) {p j : Nat}
    (hp : M.vl[p]? = some j) : p < n0 ↔ j < n0 := by
  obtain ⟨rest, h1, h2⟩ := h.first
  rw [h1] at hp
  constructor
  · intro hlt
    rw [List.getElem?_append_left (by rw [List.length_range]; exact hlt), List.getElem?_range hlt] at hp
    cases hp
    exact hlt
  · intro hlt
    by_contra hge
    rw [List.getElem?_append_right (by rw [List.length_range]; omega)] at hp
    have := h2 j (List.mem_of_getElem? hp)
    omega

/-- an edge of a removed equation -/
theorem dropEdge_ok {n0 N : Nat} {tp : Nat → Nat} {G : BG} {D : List Nat} (hB : Basis n0 G D) {Rm : Nat → Nat → Prop} {M : Mem}
    (h : VInv n0 N tp G Rm M) (hR : ∀ i j, Rm i j → i ∈ D) {d j : Nat} (hd : d ∈ D) (hj : j ∈ (G.e d).orig) (hn : ¬ Rm d j)
    (fuel : Nat) : ∃ M', dropEdge (fuel + 2) d M j = .ok M' ∧ VInv n0 N tp G (fun i k => Rm i k ∨ (i = d ∧ k = j)) M' ∧
      M'.el = M.el ∧ M'.ei = M.ei ∧ M'.g.e = M.g.e := by
  have hjv := hB.w.bound d j hj
  have haj : Alive n0 G Rm j := ⟨hjv, .inr ⟨d, hj, hn⟩⟩
  obtain ⟨f, a, p1, p2, p3, p4, p5, p6⟩ := hB.parent hd hj
  have hE : ∀ i k, Edge G (fun i k => Rm i k ∨ (i = d ∧ k = j)) i k ↔ Edge G Rm i k ∧ ¬ (i = d ∧ k = j) := by
    intro i k; unfold Edge; tauto
  have hEk : ∀ k, k ≠ j → ∀ i, Edge G (fun i k => Rm i k ∨ (i = d ∧ k = j)) i k ↔ Edge G Rm i k := by
    intro k hk i; rw [hE]; tauto
  generalize hRm : (fun i k => Rm i k ∨ (i = d ∧ k = j)) = Rm' at *
  have hAk : ∀ k, k ≠ j → (Alive n0 G Rm' k ↔ Alive n0 G Rm k) := fun k hk => Alive.congr (exists_congr (hEk k hk))
  unfold dropEdge
  rw [if_pos ⟨(h.mem j).mpr haj, (h.eqs j haj d).mpr ⟨hj, hn⟩⟩]
  generalize hM1 : ({ M with g := M.g.setV j fun n => { n with eqs := n.eqs.erase d } } : Mem) = M1
  have v1 : ∀ k, M1.g.v k = if k = j then { M.g.v k with eqs := (M.g.v k).eqs.erase d } else M.g.v k := by
    intro k; rw [← hM1]; rfl
  have vl1 : M1.vl = M.vl := by rw [← hM1]
  have vi1 : M1.vi = M.vi := by rw [← hM1]
  have vt1 : M1.vt = M.vt := by rw [← hM1]
  have el1 : M1.el = M.el ∧ M1.ei = M.ei ∧ M1.g.e = M.g.e := by rw [← hM1]; exact ⟨rfl, rfl, rfl⟩
  have anti1 : ∀ k, (M1.g.v k).anti = (G.v k).anti := by
    intro k; rw [v1]; split <;> exact h.anti k
  have assign1 : ∀ k, (M1.g.v k).assign = (G.v k).assign := by
    intro k; rw [v1]; split <;> exact h.assign k
  have deriv1 : ∀ k, (M1.g.v k).deriv = (M.g.v k).deriv := by
    intro k; rw [v1]; split <;> rfl
  have nd1 : ∀ k, (M1.g.v k).eqs.Nodup := by
    intro k; rw [v1]; split
    · exact (h.nd k).erase d
    · exact h.nd k
  have eqs1 : ∀ k, Alive n0 G Rm k → ∀ i, i ∈ (M1.g.v k).eqs ↔ Edge G Rm' i k := by
    intro k hk i
    rw [v1, hE]
    split
    · rename_i e
      show i ∈ (M.g.v k).eqs.erase d ↔ _
      rw [(h.nd k).mem_erase_iff, h.eqs k hk]
      tauto
    · rename_i e
      rw [h.eqs k hk]
      tauto
  rw [dropEmpty, vl1, if_pos ((h.mem j).mpr haj)]
  by_cases hemp : (M1.g.v j).eqs = []
  · rw [if_pos hemp]
    have noE : ∀ i, ¬ Edge G Rm' i j := by
      intro i hi
      rw [← eqs1 j haj i, hemp] at hi
      cases hi
    have stay : ¬ ∃ i, i ∉ D ∧ j ∈ (G.e i).orig := by
      rintro ⟨i, h1, h2⟩
      exact noE i ((hE i j).mpr ⟨⟨h2, fun x => h1 (hR i j x)⟩, fun x => h1 (x.1 ▸ hd)⟩)
    have hanti : (G.v j).anti ≠ none := by rw [p3]; nofun
    have hjn : ¬ j < n0 := fun x => stay (hB.good j x hanti)
    have hder : (M1.g.v j).deriv = none := by
      rw [deriv1]
      cases hx : (M.g.v j).deriv with
      | none => rfl
      | some k => exact absurd (hB.stays ((h.deriv j haj k).mp hx).1 hanti) stay
    rw [hder]
    simp only
    have hEa : Edge G Rm f a := ⟨p2, fun x => p1 (hR f a x)⟩
    have haa : Alive n0 G Rm a := ⟨p5, .inr ⟨f, hEa⟩⟩
    obtain ⟨pos, hpos⟩ := List.mem_iff_getElem?.mp ((h.mem j).mpr haj)
    have hvi : M.vi j = pos := h.vi pos j hpos
    have hpn : ¬ pos < n0 := fun x => hjn ((h.pos hpos).mp x)
    unfold eraseVar
    rw [anti1, p3]
    simp only
    rw [vl1, vi1, vt1, hvi, if_pos ⟨hpos, (h.mem a).mpr haa⟩, eraseIdx_pos h.nodup hpos]
    simp only
    generalize hM2 : ({ M1 with
        vl := M.vl.erase j, vi := shift (M.vl.erase j) pos M.vi, vt := shift (M.vl.erase j) pos M.vt,
        g := M1.g.setV a fun n => { n with deriv := none } } : Mem) = M2
    have v2 : ∀ k, M2.g.v k = if k = a then { M1.g.v k with deriv := none } else M1.g.v k := by
      intro k; rw [← hM2]; rfl
    have vl2 : M2.vl = M.vl.erase j := by rw [← hM2]
    have vi2 : M2.vi = shift (M.vl.erase j) pos M.vi := by rw [← hM2]
    have vt2 : M2.vt = shift (M.vl.erase j) pos M.vt := by rw [← hM2]
    have el2 : M2.el = M1.el ∧ M2.ei = M1.ei ∧ M2.g.e = M1.g.e := by rw [← hM2]; exact ⟨rfl, rfl, rfl⟩
    have eqs2 : ∀ k, (M2.g.v k).eqs = (M1.g.v k).eqs := by intro k; rw [v2]; split <;> rfl
    have hA' : ∀ k, Alive n0 G Rm' k ↔ Alive n0 G Rm k ∧ k ≠ j := by
      intro k
      by_cases hk : k = j
      · subst hk
        refine ⟨fun x => ?_, fun x => absurd rfl x.2⟩
        rcases x.2 with x | ⟨i, x⟩
        · exact absurd x hjn
        · exact absurd x (noE i)
      · rw [hAk k hk]
        simp [hk]
    have hmem2 : ∀ k, k ∈ M2.vl ↔ Alive n0 G Rm' k := by
      intro k
      rw [vl2, h.nodup.mem_erase_iff, h.mem, hA']
      tauto
    refine ⟨M2, ?_, ⟨?_, ?_, ?_, ?_, ?_, ?_, hmem2, ?_, ?_, ?_⟩, el2.1.trans el1.1, el2.2.1.trans el1.2.1, el2.2.2.trans el1.2.2⟩
    · rw [dropEmpty, if_pos ((hmem2 a).mpr ((hA' a).mpr ⟨haa, p6⟩)), if_neg]
      intro hx
      rw [eqs2] at hx
      have := (eqs1 a haa f).mpr ((hEk a p6 f).mpr hEa)
      rw [hx] at this
      cases this
    · intro k hk i
      rw [eqs2]
      exact eqs1 k ((hA' k).mp hk).1 i
    · intro k; rw [eqs2]; exact nd1 k
    · intro k; rw [v2]; split <;> exact anti1 k
    · intro k; rw [v2]; split <;> exact assign1 k
    · intro k hk x
      have hk' := ((hA' k).mp hk).1
      rw [v2]
      split
      · rename_i e
        subst e
        simp only [reduceCtorEq, false_iff, not_and]
        intro hx hax
        rw [p4] at hx
        cases hx
        exact ((hA' j).mp hax).2 rfl
      · rename_i e
        rw [deriv1, h.deriv k hk', hA']
        refine and_congr_right fun hx => ⟨fun y => ⟨y, ?_⟩, fun y => y.1⟩
        rintro rfl
        have := (hB.w.link k x hx).2.2
        rw [p3] at this
        cases this
        exact e rfl
    · rw [vl2]; exact h.sorted.sublist List.erase_sublist
    · obtain ⟨rest, r1, r2⟩ := h.first
      refine ⟨rest.erase j, ?_, fun k hk => r2 k (List.mem_of_mem_erase hk)⟩
      rw [vl2, r1, List.erase_append_right]
      rw [List.mem_range]; exact hjn
    · intro p k hk
      rw [vl2] at hk
      obtain ⟨s1, _, s2⟩ := shift_pos h.nodup h.vi hpos hk
      rw [vi2]
      unfold shift
      by_cases hp : pos ≤ p
      · rw [if_pos (s1.mpr hp), s2, if_neg (by omega)]; rfl
      · rw [if_neg (fun x => hp (s1.mp x)), s2, if_pos (by omega)]
    · intro k hk
      obtain ⟨p, hp⟩ := List.mem_iff_getElem?.mp ((hmem2 k).mpr hk)
      rw [vl2] at hp
      have hkA := ((hA' k).mp hk).1
      obtain ⟨s1, _, s2⟩ := shift_pos h.nodup h.vi hpos hp
      rw [vi2, vt2]
      unfold shift
      rw [erase_get h.nodup hpos] at hp
      by_cases hq : pos ≤ p
      · rw [if_pos (s1.mpr hq), if_pos (s1.mpr hq), h.vt k hkA]
        rw [if_neg (show ¬ p < pos by omega)] at hp s2
        have : ¬ k < n0 := fun x => absurd ((h.pos hp).mpr x) (by omega)
        rw [if_neg this, if_neg this, s2]
        omega
      · rw [if_neg (fun x => hq (s1.mp x)), if_neg (fun x => hq (s1.mp x)), h.vt k hkA]
  · rw [if_neg hemp]
    obtain ⟨i, hi⟩ := List.exists_mem_of_ne_nil _ hemp
    rw [eqs1 j haj] at hi
    have hA' : ∀ k, Alive n0 G Rm' k ↔ Alive n0 G Rm k := by
      intro k
      by_cases hk : k = j
      · subst hk
        exact Alive.congr ⟨fun _ => ⟨i, ((hE i k).mp hi).1⟩, fun _ => ⟨i, hi⟩⟩
      · exact hAk k hk
    refine ⟨M1, rfl, ⟨?_, nd1, anti1, assign1, ?_, ?_, ?_, ?_, ?_, ?_⟩, el1⟩
    · intro k hk; exact eqs1 k ((hA' k).mp hk)
    · intro k hk x; rw [deriv1, h.deriv k ((hA' k).mp hk), hA']
    · rw [vl1]; exact h.sorted
    · intro k; rw [vl1, h.mem, hA']
    · rw [vl1]; exact h.first
    · rw [vl1, vi1]; exact h.vi
    · intro k hk; rw [vt1, vi1]; exact h.vt k ((hA' k).mp hk)

end Verif.Dae.Remove
