import Verif.Loops.LemmasHessAn

/-
The writes for one requested Hessian element, one by one, and what follows for the tables.
-/
namespace Verif.Loops

open Verif.Index Verif.Ranges

/-- `g` is the number of a group -/
def Gr (c : Cx) (g : Nat) : Prop := ∃ gr, (g, gr) ∈ c.gs

/-- the iteration belongs to group `g` -/
def In (c : Cx) (g it : Nat) : Prop := ∃ gr, (g, gr) ∈ c.gs ∧ it ∈ gr.its

structure CII (c : Cx) (j1 j2 g it t1 t2 : Nat) : Prop where
  here : In c g it
  lt1 : t1 < c.l.ind.length
  lt2 : t2 < c.l.ind.length
  var1 : c.l.var t1 it = some j1
  var2 : c.l.var t2 it = some j2
  row : t2 ∈ c.row g t1

/-- indexed variable `j1`, non-indexed variable `j2` -/
structure CIN (c : Cx) (j1 j2 g it t1 p2 : Nat) : Prop where
  here : In c g it
  lt1 : t1 < c.l.ind.length
  var1 : c.l.var t1 it = some j1
  non2 : nonTape c.l j2 = some p2
  row : p2 ∈ c.row g t1

structure CIT (c : Cx) (fr : Free) (j1 j2 g it t1 k pk : Nat) : Prop where
  free : c.fr = some fr
  here : In c g it
  lt1 : t1 < c.l.ind.length
  var1 : c.l.var t1 it = some j1
  tmp : TmpOf c fr g t1 j2 k pk

structure CNN (c : Cx) (j1 j2 g p1 p2 : Nat) : Prop where
  grp : Gr c g
  non1 : nonTape c.l j1 = some p1
  non2 : nonTape c.l j2 = some p2
  row : p2 ∈ c.row g p1

structure CNT (c : Cx) (fr : Free) (j1 j2 g p1 k pk : Nat) : Prop where
  free : c.fr = some fr
  grp : Gr c g
  non1 : nonTape c.l j1 = some p1
  tmp : TmpOf c fr g p1 j2 k pk

/-- a temporary of the loop which depends on `j1` -/
structure CT (c : Cx) (fr : Free) (j1 k1 pk : Nat) : Prop where
  free : c.fr = some fr
  dep : fr.dep k1 j1 = true
  tape : tmpTape c.l k1 = some pk

inductive Leaf (c : Cx) (j1 j2 e : Nat) : Nat → Wr → Prop
  | iiP {g it t1 t2} (h : CII c j1 j2 g it t1 t2) : Leaf c j1 j2 e g (.pos .ii (keyOf t1 t2) it e)
  | iiE {g it t1 t2} (h : CII c j1 j2 g it t1 t2) : Leaf c j1 j2 e g (.ev (keyOf t1 t2).1 (keyOf t1 t2).2)
  | inP {g it t1 p2} (h : CIN c j1 j2 g it t1 p2) : Leaf c j1 j2 e g (.pos .ni (p2, t1) it e)
  | inE {g it t1 p2} (h : CIN c j1 j2 g it t1 p2) : Leaf c j1 j2 e g (.ev p2 t1)
  | itN {fr g it t1 k pk} (h : CIT c fr j1 j2 g it t1 k pk) : Leaf c j1 j2 e g (.need (fr.eqs.length + k) j2)
  | itV {fr g it t1 k pk} (h : CIT c fr j1 j2 g it t1 k pk) : Leaf c j1 j2 e g (.itE (t1, j2) k)
  | itE {fr g it t1 k pk} (h : CIT c fr j1 j2 g it t1 k pk) : Leaf c j1 j2 e g (.ev t1 pk)
  | itP {fr g it t1 k pk} (h : CIT c fr j1 j2 g it t1 k pk) : Leaf c j1 j2 e g (.pos .it (t1, j2) it e)
  | niP {g it p1 t2} (h : CIN c j2 j1 g it t2 p1) : Leaf c j1 j2 e g (.pos .ni (p1, t2) it e)
  | niE {g it p1 t2} (h : CIN c j2 j1 g it t2 p1) : Leaf c j1 j2 e g (.ev p1 t2)
  | nnV {g p1 p2} (h : CNN c j1 j2 g p1 p2) : Leaf c j1 j2 e g (.nnE (j1, j2))
  | nnE {g p1 p2} (h : CNN c j1 j2 g p1 p2) : Leaf c j1 j2 e g (.ev p1 p2)
  | nnC {g p1 p2} (h : CNN c j1 j2 g p1 p2) : Leaf c j1 j2 e g (.const (j1, j2) e)
  | ntN {fr g p1 k pk} (h : CNT c fr j1 j2 g p1 k pk) : Leaf c j1 j2 e g (.need (fr.eqs.length + k) j2)
  | ntC {fr g p1 k pk} (h : CNT c fr j1 j2 g p1 k pk) : Leaf c j1 j2 e g (.const (j1, j2) e)
  | ntV {fr g p1 k pk} (h : CNT c fr j1 j2 g p1 k pk) : Leaf c j1 j2 e g (.ntE (j1, j2) k)
  | ntE {fr g p1 k pk} (h : CNT c fr j1 j2 g p1 k pk) : Leaf c j1 j2 e g (.ev p1 pk)
  | tiE {fr g it t2 k pk} (h : CT c fr j1 k pk) (hi : In c g it) (hl : t2 < c.l.ind.length) (hv : c.l.var t2 it = some j2) (hr : t2 ∈ c.row g pk) :
      Leaf c j1 j2 e g (.ev t2 pk)
  | tiV {fr g it t2 k pk} (h : CT c fr j1 k pk) (hi : In c g it) (hl : t2 < c.l.ind.length) (hv : c.l.var t2 it = some j2) (hr : t2 ∈ c.row g pk) :
      Leaf c j1 j2 e g (.itE (t2, j1) k)
  | tiP {fr g it t2 k pk} (h : CT c fr j1 k pk) (hi : In c g it) (hl : t2 < c.l.ind.length) (hv : c.l.var t2 it = some j2) (hr : t2 ∈ c.row g pk)
      (hu : usedTape c fr j1 g k t2 = false) : Leaf c j1 j2 e g (.pos .it (t2, j1) it e)
  | tnC {fr g p2 k pk} (h : CT c fr j1 k pk) (hg : Gr c g) (hn : nonTape c.l j2 = some p2) (hr : j2 ∈ c.row g pk) : Leaf c j1 j2 e g (.const (j1, j2) e)
  | tnV {fr g p2 k pk} (h : CT c fr j1 k pk) (hg : Gr c g) (hn : nonTape c.l j2 = some p2) (hr : j2 ∈ c.row g pk) : Leaf c j1 j2 e g (.tnE (j1, j2) k)
  | tnE {fr g p2 k pk} (h : CT c fr j1 k pk) (hg : Gr c g) (hn : nonTape c.l j2 = some p2) (hr : j2 ∈ c.row g pk) : Leaf c j1 j2 e g (.ev pk p2)
  | ttC {fr g k pk k2 pk2} (h : CT c fr j1 k pk) (hg : Gr c g) (ht : TmpOf c fr g pk j2 k2 pk2) : Leaf c j1 j2 e g (.const (j1, j2) e)
  | ttV {fr g k pk k2 pk2} (h : CT c fr j1 k pk) (hg : Gr c g) (ht : TmpOf c fr g pk j2 k2 pk2) : Leaf c j1 j2 e g (.ttE (j1, j2) k k2)
  | ttE {fr g k pk k2 pk2} (h : CT c fr j1 k pk) (hg : Gr c g) (ht : TmpOf c fr g pk j2 k2 pk2) : Leaf c j1 j2 e g (.ev pk pk2)
  | ttN {fr g k pk k2 pk2} (h : CT c fr j1 k pk) (hg : Gr c g) (ht : TmpOf c fr g pk j2 k2 pk2) : Leaf c j1 j2 e g (.need (fr.eqs.length + k2) j2)
  | tN {fr k pk} (h : CT c fr j1 k pk) : Leaf c j1 j2 e 0 (.need (fr.eqs.length + k) j1)
  | dzC {fr k pk} {i : Nat} {row} (h : CT c fr j1 k pk) (hh : j2 ∈ c.hesTmp j1) (hi : c.jac[i]? = some row) (hr : pk ∈ row) : Leaf c j1 j2 e 0 (.const (j1, j2) e)
  | dzN {fr k pk} {i : Nat} {row} (h : CT c fr j1 k pk) (hh : j2 ∈ c.hesTmp j1) (hi : c.jac[i]? = some row) (hr : pk ∈ row) : Leaf c j1 j2 e 0 (.nl (j1, j2) k)
  | dzE {fr k pk} {i : Nat} {row} (h : CT c fr j1 k pk) (hh : j2 ∈ c.hesTmp j1) (hi : c.jac[i]? = some row) (hr : pk ∈ row) : Leaf c j1 j2 e 0 (.evJac i pk)
  | dzH {fr k pk} {i : Nat} {row} (h : CT c fr j1 k pk) (hh : j2 ∈ c.hesTmp j1) (hi : c.jac[i]? = some row) (hr : pk ∈ row) : Leaf c j1 j2 e 0 (.tmpHes j1 j2)

theorem CxOk.mem_gs {c : Cx} (hc : CxOk c) {g : Nat} {gr : Group} : (g, gr) ∈ c.gs ↔ (groups c.l)[g]? = some gr := by
  rw [hc.gs, List.mem_map]
  constructor
  · rintro ⟨⟨gr', g'⟩, h1, h2⟩
    obtain ⟨rfl, rfl⟩ := Prod.mk.inj h2
    have := List.mem_zipIdx h1
    simp only [Nat.zero_add, Nat.sub_zero] at this
    rw [List.getElem?_eq_some_iff]
    exact ⟨this.2.1, this.2.2.symm⟩
  · intro h
    refine ⟨(gr, g), ?_, rfl⟩
    rw [List.mk_mem_zipIdx_iff_getElem?]
    exact h

theorem CxOk.tmp_lt {c : Cx} (hc : CxOk c) {fr : Free} (hf : c.fr = some fr) {k pk : Nat} (h : tmpTape c.l k = some pk) : k < fr.jac.length - fr.eqs.length := by
  obtain ⟨p, h1, _⟩ := (tmpTape_eq hc.tmp).mp h
  obtain ⟨fr', h2, h3⟩ := hc.temps k (List.mem_of_getElem? h1)
  rw [hf] at h2
  obtain rfl := Option.some.inj h2
  omega

theorem CxOk.in_lt {c : Cx} (hc : CxOk c) {g it : Nat} (h : In c g it) : it < c.l.iters := by
  obtain ⟨gr, h1, h2⟩ := h
  exact group_its_lt (List.mem_of_getElem? (hc.mem_gs.mp h1)) it h2

theorem mem_leaf {c : Cx} (hc : CxOk c) {j1 j2 e g : Nat} {w : Wr} : (g, w) ∈ wLoop c (j1, j2, e) ↔ Leaf c j1 j2 e g w := by
  rw [mem_wLoop]
  constructor
  · rintro (⟨⟨g', gr⟩, h, h1⟩ | ⟨⟨g', gr⟩, h, h1⟩ | ⟨fr, hf, it, hit, ⟨g', gr⟩, h, h1⟩ | ⟨⟨g', gr⟩, h, h1⟩ | ⟨⟨g', gr⟩, h, h1⟩ | ⟨fr, hf, ⟨g', gr⟩, h, h1⟩ | ⟨fr, hf, k1, hk1, h1⟩)
    · obtain ⟨it, hit, t1, t2, a1, a2, a3, a4, a5, a6⟩ := (mem_wII hc).mp h1
      have ha : CII c j1 j2 g' it t1 t2 := ⟨⟨gr, h, hit⟩, a1, a2, a3, a4, a5⟩
      rcases a6 with a6 | a6 <;> obtain ⟨rfl, rfl⟩ := Prod.mk.inj a6
      · exact .iiP ha
      · exact .iiE ha
    · obtain ⟨p2, hp, it, hit, t1, a1, a2, a3, a6⟩ := (mem_wIN hc).mp h1
      have ha : CIN c j1 j2 g' it t1 p2 := ⟨⟨gr, h, hit⟩, a1, a2, hp, a3⟩
      rcases a6 with a6 | a6 <;> obtain ⟨rfl, rfl⟩ := Prod.mk.inj a6
      · exact .inP ha
      · exact .inE ha
    · obtain ⟨hit', t1, a1, a2, k, pk, a3, a6⟩ := (mem_wIT hc).mp h1
      have ha : CIT c fr j1 j2 g' it t1 k pk := ⟨hf, ⟨gr, h, hit'⟩, a1, a2, a3⟩
      rcases a6 with a6 | a6 | a6 | a6 <;> obtain ⟨rfl, rfl⟩ := Prod.mk.inj a6
      · exact .itN ha
      · exact .itV ha
      · exact .itE ha
      · exact .itP ha
    · obtain ⟨p1, hp, it, hit, t2, a1, a2, a3, a6⟩ := (mem_wNI hc).mp h1
      have ha : CIN c j2 j1 g' it t2 p1 := ⟨⟨gr, h, hit⟩, a1, a2, hp, hc.rowSym _ _ _ a3⟩
      rcases a6 with a6 | a6 <;> obtain ⟨rfl, rfl⟩ := Prod.mk.inj a6
      · exact .niP ha
      · exact .niE ha
    · obtain ⟨p1, p2, a1, a2, a3, a6⟩ := (mem_wNN hc (hc.its _ h)).mp h1
      have ha : CNN c j1 j2 g' p1 p2 := ⟨⟨gr, h⟩, a1, a2, a3⟩
      rcases a6 with a6 | a6 | a6 <;> obtain ⟨rfl, rfl⟩ := Prod.mk.inj a6
      · exact .nnV ha
      · exact .nnE ha
      · exact .nnC ha
    · obtain ⟨p1, a1, k, pk, a3, a6⟩ := (mem_wNT hc).mp h1
      have ha : CNT c fr j1 j2 g' p1 k pk := ⟨hf, ⟨gr, h⟩, a1, a3⟩
      rcases a6 with a6 | a6 | a6 | a6 <;> obtain ⟨rfl, rfl⟩ := Prod.mk.inj a6
      · exact .ntN ha
      · exact .ntC ha
      · exact .ntV ha
      · exact .ntE ha
    · obtain ⟨hd, pk, ht, h2⟩ := mem_wTmp.mp h1
      have ha : CT c fr j1 k1 pk := ⟨hf, hd, ht⟩
      rcases h2 with ⟨⟨g', gr⟩, h, h2 | h2 | h2⟩ | h2 | h2
      · obtain ⟨it, hit, t2, a1, a2, a3, a6⟩ := (mem_wTI hc).mp h2
        have hi : In c g' it := ⟨gr, h, hit⟩
        rcases a6 with a6 | a6 | ⟨hu, a6⟩ <;> obtain ⟨rfl, rfl⟩ := Prod.mk.inj a6
        · exact .tiE ha hi a1 a2 a3
        · exact .tiV ha hi a1 a2 a3
        · exact .tiP ha hi a1 a2 a3 hu
      · obtain ⟨p2, a1, a2, a6⟩ := mem_wTN.mp h2
        have hg : Gr c g' := ⟨gr, h⟩
        rcases a6 with a6 | a6 | a6 <;> obtain ⟨rfl, rfl⟩ := Prod.mk.inj a6
        · exact .tnC ha hg a1 a2
        · exact .tnV ha hg a1 a2
        · exact .tnE ha hg a1 a2
      · obtain ⟨k2, pk2, a1, a6⟩ := (mem_wTT hc).mp h2
        have hg : Gr c g' := ⟨gr, h⟩
        rcases a6 with a6 | a6 | a6 | a6 <;> obtain ⟨rfl, rfl⟩ := Prod.mk.inj a6
        · exact .ttC ha hg a1
        · exact .ttV ha hg a1
        · exact .ttE ha hg a1
        · exact .ttN ha hg a1
      · obtain ⟨rfl, rfl⟩ := Prod.mk.inj h2
        exact .tN ha
      · obtain ⟨a1, i, row, a2, a3, a6⟩ := mem_wDZ.mp h2
        rcases a6 with a6 | a6 | a6 | a6 <;> obtain ⟨rfl, rfl⟩ := Prod.mk.inj a6
        · exact .dzC ha a1 a2 a3
        · exact .dzN ha a1 a2 a3
        · exact .dzE ha a1 a2 a3
        · exact .dzH ha a1 a2 a3
  · intro h
    have tmpIn : ∀ {fr k pk}, CT c fr j1 k pk → ∀ w : Nat × Wr, ((∃ gp ∈ c.gs, w ∈ wTI c fr j1 j2 e k pk gp.1 gp.2 ∨ w ∈ wTN c j1 j2 e k pk gp.1 ∨ w ∈ wTT c fr j1 j2 e k pk gp.1) ∨
        w = (0, .need (fr.eqs.length + k) j1) ∨ w ∈ wDZ c j1 j2 e k pk) →
        ∃ fr, c.fr = some fr ∧ ∃ k1 < fr.jac.length - fr.eqs.length, w ∈ wTmp c fr j1 j2 e k1 := by
      intro fr k pk h w hw
      exact ⟨fr, h.free, k, hc.tmp_lt h.free h.tape, mem_wTmp.mpr ⟨h.dep, pk, h.tape, hw⟩⟩
    cases h with
    | iiP h =>
      obtain ⟨gr, h1, h2⟩ := h.here
      exact Or.inl ⟨_, h1, (mem_wII hc).mpr ⟨_, h2, _, _, h.lt1, h.lt2, h.var1, h.var2, h.row, Or.inl rfl⟩⟩
    | iiE h =>
      obtain ⟨gr, h1, h2⟩ := h.here
      exact Or.inl ⟨_, h1, (mem_wII hc).mpr ⟨_, h2, _, _, h.lt1, h.lt2, h.var1, h.var2, h.row, Or.inr rfl⟩⟩
    | inP h =>
      obtain ⟨gr, h1, h2⟩ := h.here
      exact Or.inr (Or.inl ⟨_, h1, (mem_wIN hc).mpr ⟨_, h.non2, _, h2, _, h.lt1, h.var1, h.row, Or.inl rfl⟩⟩)
    | inE h =>
      obtain ⟨gr, h1, h2⟩ := h.here
      exact Or.inr (Or.inl ⟨_, h1, (mem_wIN hc).mpr ⟨_, h.non2, _, h2, _, h.lt1, h.var1, h.row, Or.inr rfl⟩⟩)
    | itN h =>
      obtain ⟨gr, h1, h2⟩ := h.here
      exact Or.inr (Or.inr (Or.inl ⟨_, h.free, _, hc.in_lt h.here, _, h1, (mem_wIT hc).mpr ⟨h2, _, h.lt1, h.var1, _, _, h.tmp, Or.inl rfl⟩⟩))
    | itV h =>
      obtain ⟨gr, h1, h2⟩ := h.here
      exact Or.inr (Or.inr (Or.inl ⟨_, h.free, _, hc.in_lt h.here, _, h1, (mem_wIT hc).mpr ⟨h2, _, h.lt1, h.var1, _, _, h.tmp, Or.inr (Or.inl rfl)⟩⟩))
    | itE h =>
      obtain ⟨gr, h1, h2⟩ := h.here
      exact Or.inr (Or.inr (Or.inl ⟨_, h.free, _, hc.in_lt h.here, _, h1, (mem_wIT hc).mpr ⟨h2, _, h.lt1, h.var1, _, _, h.tmp, Or.inr (Or.inr (Or.inl rfl))⟩⟩))
    | itP h =>
      obtain ⟨gr, h1, h2⟩ := h.here
      exact Or.inr (Or.inr (Or.inl ⟨_, h.free, _, hc.in_lt h.here, _, h1, (mem_wIT hc).mpr ⟨h2, _, h.lt1, h.var1, _, _, h.tmp, Or.inr (Or.inr (Or.inr rfl))⟩⟩))
    | niP h =>
      obtain ⟨gr, h1, h2⟩ := h.here
      exact Or.inr (Or.inr (Or.inr (Or.inl ⟨_, h1, (mem_wNI hc).mpr ⟨_, h.non2, _, h2, _, h.lt1, h.var1, hc.rowSym _ _ _ h.row, Or.inl rfl⟩⟩)))
    | niE h =>
      obtain ⟨gr, h1, h2⟩ := h.here
      exact Or.inr (Or.inr (Or.inr (Or.inl ⟨_, h1, (mem_wNI hc).mpr ⟨_, h.non2, _, h2, _, h.lt1, h.var1, hc.rowSym _ _ _ h.row, Or.inr rfl⟩⟩)))
    | nnV h =>
      obtain ⟨gr, h1⟩ := h.grp
      exact Or.inr (Or.inr (Or.inr (Or.inr (Or.inl ⟨_, h1, (mem_wNN hc (hc.its _ h1)).mpr ⟨_, _, h.non1, h.non2, h.row, Or.inl rfl⟩⟩))))
    | nnE h =>
      obtain ⟨gr, h1⟩ := h.grp
      exact Or.inr (Or.inr (Or.inr (Or.inr (Or.inl ⟨_, h1, (mem_wNN hc (hc.its _ h1)).mpr ⟨_, _, h.non1, h.non2, h.row, Or.inr (Or.inl rfl)⟩⟩))))
    | nnC h =>
      obtain ⟨gr, h1⟩ := h.grp
      exact Or.inr (Or.inr (Or.inr (Or.inr (Or.inl ⟨_, h1, (mem_wNN hc (hc.its _ h1)).mpr ⟨_, _, h.non1, h.non2, h.row, Or.inr (Or.inr rfl)⟩⟩))))
    | ntN h =>
      obtain ⟨gr, h1⟩ := h.grp
      exact Or.inr (Or.inr (Or.inr (Or.inr (Or.inr (Or.inl ⟨_, h.free, _, h1, (mem_wNT hc).mpr ⟨_, h.non1, _, _, h.tmp, Or.inl rfl⟩⟩)))))
    | ntC h =>
      obtain ⟨gr, h1⟩ := h.grp
      exact Or.inr (Or.inr (Or.inr (Or.inr (Or.inr (Or.inl ⟨_, h.free, _, h1, (mem_wNT hc).mpr ⟨_, h.non1, _, _, h.tmp, Or.inr (Or.inl rfl)⟩⟩)))))
    | ntV h =>
      obtain ⟨gr, h1⟩ := h.grp
      exact Or.inr (Or.inr (Or.inr (Or.inr (Or.inr (Or.inl ⟨_, h.free, _, h1, (mem_wNT hc).mpr ⟨_, h.non1, _, _, h.tmp, Or.inr (Or.inr (Or.inl rfl))⟩⟩)))))
    | ntE h =>
      obtain ⟨gr, h1⟩ := h.grp
      exact Or.inr (Or.inr (Or.inr (Or.inr (Or.inr (Or.inl ⟨_, h.free, _, h1, (mem_wNT hc).mpr ⟨_, h.non1, _, _, h.tmp, Or.inr (Or.inr (Or.inr rfl))⟩⟩)))))
    | tiE h hi hl hv hr =>
      obtain ⟨gr, h1, h2⟩ := hi
      exact Or.inr (Or.inr (Or.inr (Or.inr (Or.inr (Or.inr (tmpIn h _ (Or.inl ⟨_, h1, Or.inl ((mem_wTI hc).mpr ⟨_, h2, _, hl, hv, hr, Or.inl rfl⟩)⟩)))))))
    | tiV h hi hl hv hr =>
      obtain ⟨gr, h1, h2⟩ := hi
      exact Or.inr (Or.inr (Or.inr (Or.inr (Or.inr (Or.inr (tmpIn h _ (Or.inl ⟨_, h1, Or.inl ((mem_wTI hc).mpr ⟨_, h2, _, hl, hv, hr, Or.inr (Or.inl rfl)⟩)⟩)))))))
    | tiP h hi hl hv hr hu =>
      obtain ⟨gr, h1, h2⟩ := hi
      exact Or.inr (Or.inr (Or.inr (Or.inr (Or.inr (Or.inr (tmpIn h _ (Or.inl ⟨_, h1, Or.inl ((mem_wTI hc).mpr ⟨_, h2, _, hl, hv, hr, Or.inr (Or.inr ⟨hu, rfl⟩)⟩)⟩)))))))
    | tnC h hg hn hr =>
      obtain ⟨gr, h1⟩ := hg
      exact Or.inr (Or.inr (Or.inr (Or.inr (Or.inr (Or.inr (tmpIn h _ (Or.inl ⟨_, h1, Or.inr (Or.inl (mem_wTN.mpr ⟨_, hn, hr, Or.inl rfl⟩))⟩)))))))
    | tnV h hg hn hr =>
      obtain ⟨gr, h1⟩ := hg
      exact Or.inr (Or.inr (Or.inr (Or.inr (Or.inr (Or.inr (tmpIn h _ (Or.inl ⟨_, h1, Or.inr (Or.inl (mem_wTN.mpr ⟨_, hn, hr, Or.inr (Or.inl rfl)⟩))⟩)))))))
    | tnE h hg hn hr =>
      obtain ⟨gr, h1⟩ := hg
      exact Or.inr (Or.inr (Or.inr (Or.inr (Or.inr (Or.inr (tmpIn h _ (Or.inl ⟨_, h1, Or.inr (Or.inl (mem_wTN.mpr ⟨_, hn, hr, Or.inr (Or.inr rfl)⟩))⟩)))))))
    | ttC h hg ht =>
      obtain ⟨gr, h1⟩ := hg
      exact Or.inr (Or.inr (Or.inr (Or.inr (Or.inr (Or.inr (tmpIn h _ (Or.inl ⟨_, h1, Or.inr (Or.inr ((mem_wTT hc).mpr ⟨_, _, ht, Or.inl rfl⟩))⟩)))))))
    | ttV h hg ht =>
      obtain ⟨gr, h1⟩ := hg
      exact Or.inr (Or.inr (Or.inr (Or.inr (Or.inr (Or.inr (tmpIn h _ (Or.inl ⟨_, h1, Or.inr (Or.inr ((mem_wTT hc).mpr ⟨_, _, ht, Or.inr (Or.inl rfl)⟩))⟩)))))))
    | ttE h hg ht =>
      obtain ⟨gr, h1⟩ := hg
      exact Or.inr (Or.inr (Or.inr (Or.inr (Or.inr (Or.inr (tmpIn h _ (Or.inl ⟨_, h1, Or.inr (Or.inr ((mem_wTT hc).mpr ⟨_, _, ht, Or.inr (Or.inr (Or.inl rfl))⟩))⟩)))))))
    | ttN h hg ht =>
      obtain ⟨gr, h1⟩ := hg
      exact Or.inr (Or.inr (Or.inr (Or.inr (Or.inr (Or.inr (tmpIn h _ (Or.inl ⟨_, h1, Or.inr (Or.inr ((mem_wTT hc).mpr ⟨_, _, ht, Or.inr (Or.inr (Or.inr rfl))⟩))⟩)))))))
    | tN h => exact Or.inr (Or.inr (Or.inr (Or.inr (Or.inr (Or.inr (tmpIn h _ (Or.inr (Or.inl rfl))))))))
    | dzC h hh hi hr => exact Or.inr (Or.inr (Or.inr (Or.inr (Or.inr (Or.inr (tmpIn h _ (Or.inr (Or.inr (mem_wDZ.mpr ⟨hh, _, _, hi, hr, Or.inl rfl⟩)))))))))
    | dzN h hh hi hr => exact Or.inr (Or.inr (Or.inr (Or.inr (Or.inr (Or.inr (tmpIn h _ (Or.inr (Or.inr (mem_wDZ.mpr ⟨hh, _, _, hi, hr, Or.inr (Or.inl rfl)⟩)))))))))
    | dzE h hh hi hr => exact Or.inr (Or.inr (Or.inr (Or.inr (Or.inr (Or.inr (tmpIn h _ (Or.inr (Or.inr (mem_wDZ.mpr ⟨hh, _, _, hi, hr, Or.inr (Or.inr (Or.inl rfl))⟩)))))))))
    | dzH h hh hi hr => exact Or.inr (Or.inr (Or.inr (Or.inr (Or.inr (Or.inr (tmpIn h _ (Or.inr (Or.inr (mem_wDZ.mpr ⟨hh, _, _, hi, hr, Or.inr (Or.inr (Or.inr rfl))⟩)))))))))

/-! ### all requests -/

/-- requests: no pair of variables twice, locations not shared -/
structure ReqOk (req : List (Nat × Nat × Nat)) : Prop where
  pair : ∀ r ∈ req, ∀ r' ∈ req, (r.1 = r'.1 ∧ r.2.1 = r'.2.1) ∨ (r.1 = r'.2.1 ∧ r.2.1 = r'.1) → r = r'
  loc : (req.map fun r => r.2.2).Nodup

theorem ReqOk.same {req : List (Nat × Nat × Nat)} (h : ReqOk req) {r r' : Nat × Nat × Nat} (hr : r ∈ req) (hr' : r' ∈ req) (he : r.2.2 = r'.2.2) : r = r' :=
  List.inj_on_of_nodup_map h.loc hr hr' he

theorem mem_ws {c : Cx} (hc : CxOk c) {req : List (Nat × Nat × Nat)} {g : Nat} {w : Wr} : (g, w) ∈ req.flatMap (wLoop c) ↔
    ∃ j1 j2 e, (j1, j2, e) ∈ req ∧ Leaf c j1 j2 e g w := by
  rw [List.mem_flatMap]
  constructor
  · rintro ⟨⟨j1, j2, e⟩, h1, h2⟩
    exact ⟨j1, j2, e, h1, (mem_leaf hc).mp h2⟩
  · rintro ⟨j1, j2, e, h1, h2⟩
    exact ⟨_, h1, (mem_leaf hc).mpr h2⟩

theorem keyOf_var {l : Loop} {t1 t2 it j1 j2 : Nat} (h1 : l.var t1 it = some j1) (h2 : l.var t2 it = some j2) :
    (l.var (keyOf t1 t2).1 it = some j1 ∧ l.var (keyOf t1 t2).2 it = some j2) ∨ (l.var (keyOf t1 t2).1 it = some j2 ∧ l.var (keyOf t1 t2).2 it = some j1) := by
  unfold keyOf
  split
  · exact Or.inr ⟨h2, h1⟩
  · exact Or.inl ⟨h1, h2⟩

theorem posGood_of {n g : Nat} {cat : Cat} {ws : List (Nat × Wr)} (h1 : ∀ K it e, (g, Wr.pos cat K it e) ∈ ws → it < n)
    (h2 : ∀ K it e e', (g, Wr.pos cat K it e) ∈ ws → (g, Wr.pos cat K it e') ∈ ws → e = e') : PosGood n (posWr ws g cat) := by
  have key : ∀ p ∈ posWr ws g cat, (g, Wr.pos cat p.1 p.2.1 p.2.2) ∈ ws := by
    intro p hp
    unfold posWr at hp
    obtain ⟨⟨g', w⟩, hw, hm⟩ := List.mem_filterMap.mp hp
    simp only at hm
    split at hm
    · split at hm
      · rename_i hg
        obtain ⟨rfl, rfl⟩ := hg
        obtain rfl := Option.some.inj hm
        exact hw
      · simp at hm
    · simp at hm
  refine ⟨fun p hp => h1 _ _ _ (key p hp), fun p hp p' hp' e1 e2 => ?_⟩
  have := key p hp
  rw [e1, e2] at this
  exact h2 _ _ _ _ this (key p' hp')

/-- at most one location for each position -/
theorem posGood_ws {c : Cx} (hc : CxOk c) {req : List (Nat × Nat × Nat)} (hr : ReqOk req) (g : Nat) (cat : Cat) :
    PosGood c.l.iters (posWr (req.flatMap (wLoop c)) g cat) := by
  refine posGood_of ?_ ?_
  · intro K it e h
    obtain ⟨j1, j2, e0, _, hl⟩ := (mem_ws hc).mp h
    cases hl with
    | iiP h => exact hc.in_lt h.here
    | inP h => exact hc.in_lt h.here
    | itP h => exact hc.in_lt h.here
    | niP h => exact hc.in_lt h.here
    | tiP _ h => exact hc.in_lt h
  · intro K it e e' h h'
    have key : ∀ {e}, (g, Wr.pos cat K it e) ∈ req.flatMap (wLoop c) → ∃ j1 j2, (j1, j2, e) ∈ req ∧ ∀ a b : Option Nat,
        (match cat with
          | .ii => (a, b) = (c.l.var K.1 it, c.l.var K.2 it)
          | .it => (a, b) = (c.l.var K.1 it, some K.2)
          | .ni => nonTape c.l (b.getD 0) = some K.1 ∧ b ≠ none ∧ a = c.l.var K.2 it
          | _ => False) → (a = some j1 ∧ b = some j2) ∨ (a = some j2 ∧ b = some j1) := by
      intro e h
      obtain ⟨j1, j2, e0, hm, hl⟩ := (mem_ws hc).mp h
      have nonInj : ∀ {j p : Nat} {b : Option Nat}, nonTape c.l j = some p → nonTape c.l (b.getD 0) = some p → b ≠ none → b = some j := by
        intro j p b h1 h2 h3
        obtain ⟨b, rfl⟩ := Option.ne_none_iff_exists'.mp h3
        obtain ⟨q, a1, a2⟩ := (nonTape_eq hc.non).mp h1
        obtain ⟨q', a3, a4⟩ := (nonTape_eq hc.non).mp h2
        obtain rfl : q = q' := by omega
        rw [Option.getD_some] at a3
        rw [a1] at a3
        rw [Option.some.inj a3]
      cases hl with
      | iiP h =>
        refine ⟨j1, j2, hm, fun a b hab => ?_⟩
        simp only [Prod.mk.injEq] at hab
        rw [hab.1, hab.2]
        exact keyOf_var h.var1 h.var2
      | inP h =>
        refine ⟨j1, j2, hm, fun a b hab => ?_⟩
        simp only at hab
        exact Or.inl ⟨hab.2.2.trans h.var1, nonInj h.non2 hab.1 hab.2.1⟩
      | itP h =>
        refine ⟨j1, j2, hm, fun a b hab => ?_⟩
        simp only [Prod.mk.injEq] at hab
        exact Or.inl ⟨hab.1.trans h.var1, hab.2⟩
      | niP h =>
        refine ⟨j1, j2, hm, fun a b hab => ?_⟩
        simp only at hab
        exact Or.inr ⟨hab.2.2.trans h.var1, nonInj h.non2 hab.1 hab.2.1⟩
      | tiP _ _ _ hv =>
        refine ⟨j1, j2, hm, fun a b hab => ?_⟩
        simp only [Prod.mk.injEq] at hab
        exact Or.inr ⟨hab.1.trans hv, hab.2⟩
    have fin : ∀ {j1 j2 j1' j2' e e' : Nat} {a b : Option Nat}, (j1, j2, e) ∈ req → (j1', j2', e') ∈ req →
        (a = some j1 ∧ b = some j2) ∨ (a = some j2 ∧ b = some j1) → (a = some j1' ∧ b = some j2') ∨ (a = some j2' ∧ b = some j1') → e = e' := by
      intro j1 j2 j1' j2' e e' a b m m' h h'
      have : (j1, j2, e) = (j1', j2', e') := hr.pair _ m _ m' (by
        rcases h with ⟨rfl, rfl⟩ | ⟨rfl, rfl⟩ <;> rcases h' with ⟨h1, h2⟩ | ⟨h1, h2⟩
        · exact Or.inl ⟨Option.some.inj h1, Option.some.inj h2⟩
        · exact Or.inr ⟨Option.some.inj h1, Option.some.inj h2⟩
        · exact Or.inr ⟨Option.some.inj h2, Option.some.inj h1⟩
        · exact Or.inl ⟨Option.some.inj h2, Option.some.inj h1⟩)
      exact (Prod.mk.inj (Prod.mk.inj this).2).2
    obtain ⟨j1, j2, m, k⟩ := key h
    obtain ⟨j1', j2', m', k'⟩ := key h'
    cases cat with
    | ii => exact fin m m' (k _ _ rfl) (k' _ _ rfl)
    | it => exact fin m m' (k _ _ rfl) (k' _ _ rfl)
    | ni =>
      have : ∃ j, nonTape c.l j = some K.1 := by
        obtain ⟨j1, j2, e0, hm, hl⟩ := (mem_ws hc).mp h
        cases hl with
        | inP h => exact ⟨_, h.non2⟩
        | niP h => exact ⟨_, h.non2⟩
      obtain ⟨j, hj⟩ := this
      exact fin m m' (k (c.l.var K.2 it) (some j) ⟨hj, by simp, rfl⟩) (k' (c.l.var K.2 it) (some j) ⟨hj, by simp, rfl⟩)
    | inn =>
      obtain ⟨j1, j2, e0, hm, hl⟩ := (mem_ws hc).mp h
      cases hl
    | ti =>
      obtain ⟨j1, j2, e0, hm, hl⟩ := (mem_ws hc).mp h
      cases hl

end Verif.Loops
