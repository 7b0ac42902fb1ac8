import Verif.Cg.LemmasWorld
namespace Verif.Cg
open Verif.Codegen
variable {α : Type}

structure Rel (K : Prop) (val : Nat → α) (s : RState α) (d : DState α) : Prop where
  len : s.regs.length = d.regs.length
  good : ∀ (i : Nat) (c : Cg α) (p : α), s.regs[i]? = some c → d.regs[i]? = some p → Good K val c p
  indeps : d.nIndep = s.world.indeps.length

variable {K : Prop} {val : Nat → α}

theorem Rel.append {s : RState α} {d : DState α} (h : Rel K val s d) {c : Cg α} {p : α}
    (hg : Good K val c p) (w : World α) (hw : w.indeps = s.world.indeps) :
    Rel K val ⟨s.regs ++ [c], w⟩ { d with regs := d.regs ++ [p] } := by
  refine ⟨by simp [h.len], ?_, by simp [hw, h.indeps]⟩
  intro i c' p' h1 h2
  simp only at h1 h2
  rw [List.getElem?_append] at h1 h2
  by_cases hi : i < s.regs.length
  · rw [if_pos hi] at h1
    rw [if_pos (h.len ▸ hi)] at h2
    exact h.good i c' p' h1 h2
  · rw [if_neg hi, List.getElem?_singleton] at h1
    rw [if_neg (h.len ▸ hi), List.getElem?_singleton] at h2
    split at h1
    · split at h2
      · cases h1; cases h2; exact hg
      · cases h2
    · cases h1

theorem Rel.set {s : RState α} {d : DState α} (h : Rel K val s d) {c : Cg α} {p : α} (j : Nat)
    (hg : Good K val c p) (w : World α) (hw : w.indeps = s.world.indeps) :
    Rel K val ⟨s.regs.set j c, w⟩ { d with regs := d.regs.set j p } := by
  refine ⟨by simp [h.len], ?_, by simp [hw, h.indeps]⟩
  intro i c' p' h1 h2
  simp only at h1 h2
  rw [List.getElem?_set] at h1 h2
  by_cases hi : j = i
  · rw [if_pos hi] at h1 h2
    split at h1
    · split at h2
      · cases h1; cases h2; exact hg
      · cases h2
    · cases h1
  · rw [if_neg hi] at h1 h2
    exact h.good i c' p' h1 h2

theorem binary_indeps {I : Interp α} {o : Bin} {w w' : World α} {a b r : Cg α}
    (e : binary I o w a b = .ok (r, w')) : w'.indeps = w.indeps := by
  have hb : ∀ h, binNode I o w h a b = .ok (r, w') → w'.indeps = w.indeps := by
    intro h e
    unfold binNode at e
    obtain ⟨u, _, e⟩ := bind_ok e
    obtain ⟨v, _, e⟩ := bind_ok e
    cases e; rfl
  unfold binary at e
  split at e
  · unfold fold at e
    obtain ⟨u, _, e⟩ := bind_ok e
    obtain ⟨v, _, e⟩ := bind_ok e
    cases e; rfl
  · cases o <;> simp only at e
    all_goals
      repeat' split at e
    all_goals first
      | (cases e; rfl)
      | (obtain ⟨h, _, e⟩ := bind_ok e; exact hb h e)
      | exact hb _ e
      | cases e

theorem compound_indeps {I : Interp α} {o : Bin} {w w' : World α} {a b r : Cg α}
    (e : compound I o w a b = .ok (r, w')) : w'.indeps = w.indeps := by
  have hb : ∀ h, binNode I o w h a b = .ok (r, w') → w'.indeps = w.indeps := by
    intro h e
    unfold binNode at e
    obtain ⟨u, _, e⟩ := bind_ok e
    obtain ⟨v, _, e⟩ := bind_ok e
    cases e; rfl
  unfold compound at e
  split at e
  · cases e
  split at e
  · unfold fold at e
    obtain ⟨u, _, e⟩ := bind_ok e
    obtain ⟨v, _, e⟩ := bind_ok e
    cases e; rfl
  · cases o <;> simp only at e
    all_goals
      repeat' split at e
    all_goals first
      | (cases e; rfl)
      | (obtain ⟨h, _, e⟩ := bind_ok e; exact hb h e)
      | cases e

theorem unary_indeps {op : Op} {g : α → α} {w w' : World α} {a r : Cg α}
    (e : unary op g w a = .ok (r, w')) : w'.indeps = w.indeps := by
  unfold unary at e
  split at e
  · obtain ⟨v, _, e⟩ := bind_ok e
    cases e; rfl
  · split at e
    · cases e
    · obtain ⟨u, _, e⟩ := bind_ok e
      cases e; rfl

theorem condExp_indeps {I : Interp α} {c : Cmp} {w w' : World α} {l r t f q : Cg α}
    (e : condExp I c w l r t f = .ok (q, w')) : w'.indeps = w.indeps := by
  unfold condExp at e
  split at e
  · obtain ⟨u, _, e⟩ := bind_ok e
    obtain ⟨v, _, e⟩ := bind_ok e
    split at e <;> (cases e; rfl)
  · split at e
    · cases e; rfl
    · obtain ⟨h, _, e⟩ := bind_ok e
      obtain ⟨_, _, e⟩ := bind_ok e
      obtain ⟨_, _, e⟩ := bind_ok e
      obtain ⟨_, _, e⟩ := bind_ok e
      obtain ⟨_, _, e⟩ := bind_ok e
      cases e; rfl

theorem bind_some {β γ : Type} {x : Option β} {f : β → Option γ} {r : γ}
    (h : (x >>= f) = some r) : ∃ y, x = some y ∧ f y = some r := by
  cases x with
  | none => cases h
  | some y => exact ⟨y, rfl, h⟩

theorem step_sim [DecidableEq α] {I : Interp α} (L : Laws I) {x : Nat → α} {s s' : RState α}
    {d d' : DState α} {i : Instr α} (h : Rel K val s d) (e : step I s i = .ok s')
    (ed : i.direct I x d = some d') (hv : s'.world.Val I x val)
    (hk : ∀ hh v, i = .indep hh (some v) → K → x d.nIndep = v) : Rel K val s' d' := by
  cases i with
  | const v =>
    cases e; cases ed
    exact h.append (good_const v) _ rfl
  | indep hh v =>
    cases e; cases ed
    have hval : val s.world.nodes.length = x d.nIndep := by
      refine hv.1 d.nIndep s.world.nodes.length ?_
      simp [makeIndep, h.indeps]
    have hg : Good K val (makeIndep s.world hh v).1 (x d.nIndep) := by
      refine ⟨hval, ?_⟩
      intro k u hu
      simp only [makeIndep] at hu
      subst hu
      exact (hk hh u rfl k).symm
    have := h.append hg s.world rfl
    exact ⟨this.len, this.good, by simp [makeIndep, h.indeps]⟩
  | bin o i j =>
    obtain ⟨a, ea, e⟩ := bind_ok e
    obtain ⟨b, eb, e⟩ := bind_ok e
    obtain ⟨⟨r, w'⟩, er, e⟩ := bind_ok e
    cases e
    obtain ⟨pa, fa, ed⟩ := bind_some ed
    obtain ⟨pb, fb, ed⟩ := bind_some ed
    obtain ⟨p, fp, ed⟩ := bind_some ed
    cases ed
    exact h.append (binary_good L (h.good i a pa (reg_ok ea) fa) (h.good j b pb (reg_ok eb) fb) er hv fp)
      _ (binary_indeps er)
  | upd o i j =>
    obtain ⟨a, ea, e⟩ := bind_ok e
    obtain ⟨b, eb, e⟩ := bind_ok e
    obtain ⟨⟨r, w'⟩, er, e⟩ := bind_ok e
    cases e
    obtain ⟨pa, fa, ed⟩ := bind_some ed
    obtain ⟨pb, fb, ed⟩ := bind_some ed
    obtain ⟨p, fp, ed⟩ := bind_some ed
    cases ed
    exact h.set i (compound_good L (h.good i a pa (reg_ok ea) fa) (h.good j b pb (reg_ok eb) fb) er hv fp)
      _ (compound_indeps er)
  | copy i j =>
    obtain ⟨a, ea, e⟩ := bind_ok e
    obtain ⟨b, eb, e⟩ := bind_ok e
    cases e
    obtain ⟨pa, fa, ed⟩ := bind_some ed
    obtain ⟨pb, fb, ed⟩ := bind_some ed
    cases ed
    exact h.set i (h.good j b pb (reg_ok eb) fb) _ rfl
  | un f i =>
    obtain ⟨a, ea, e⟩ := bind_ok e
    obtain ⟨⟨r, w'⟩, er, e⟩ := bind_ok e
    cases e
    obtain ⟨pa, fa, ed⟩ := bind_some ed
    cases ed
    exact h.append (unary_good (I := I) (op := .un f) (by simp) (fun _ => rfl)
      (h.good i a pa (reg_ok ea) fa) er hv) _ (unary_indeps er)
  | neg i =>
    obtain ⟨a, ea, e⟩ := bind_ok e
    obtain ⟨⟨r, w'⟩, er, e⟩ := bind_ok e
    cases e
    obtain ⟨pa, fa, ed⟩ := bind_some ed
    cases ed
    exact h.append (unary_good (I := I) (op := .neg) (by simp) (fun _ => rfl)
      (h.good i a pa (reg_ok ea) fa) er hv) _ (unary_indeps er)
  | sign i =>
    obtain ⟨a, ea, e⟩ := bind_ok e
    obtain ⟨⟨r, w'⟩, er, e⟩ := bind_ok e
    cases e
    obtain ⟨pa, fa, ed⟩ := bind_some ed
    cases ed
    rw [show signValue I = I.sign from funext (signValue_eq L)] at er
    exact h.append (unary_good (I := I) (op := .sign) (by simp) (fun _ => rfl)
      (h.good i a pa (reg_ok ea) fa) er hv) _ (unary_indeps er)
  | cond c l r t f =>
    obtain ⟨a, ea, e⟩ := bind_ok e
    obtain ⟨b, eb, e⟩ := bind_ok e
    obtain ⟨u, eu, e⟩ := bind_ok e
    obtain ⟨v, ev, e⟩ := bind_ok e
    obtain ⟨⟨q, w'⟩, er, e⟩ := bind_ok e
    cases e
    obtain ⟨pa, fa, ed⟩ := bind_some ed
    obtain ⟨pb, fb, ed⟩ := bind_some ed
    obtain ⟨pu, fu, ed⟩ := bind_some ed
    obtain ⟨pv, fv, ed⟩ := bind_some ed
    cases ed
    exact h.append (condExp_good (fun a b => (L.eq_iff a b).1) (h.good l a pa (reg_ok ea) fa)
      (h.good r b pb (reg_ok eb) fb) (h.good t u pu (reg_ok eu) fu) (h.good f v pv (reg_ok ev) fv) er hv)
      _ (condExp_indeps er)

theorem direct_nIndep [DecidableEq α] {I : Interp α} {x : Nat → α} {d d' : DState α} {i : Instr α}
    (ed : i.direct I x d = some d') :
    d'.nIndep = d.nIndep + (match i with | .indep _ _ => 1 | _ => 0) := by
  cases i with
  | const v => cases ed; rfl
  | indep hh v => cases ed; rfl
  | bin o i j =>
    obtain ⟨pa, fa, ed⟩ := bind_some ed
    obtain ⟨pb, fb, ed⟩ := bind_some ed
    obtain ⟨p, fp, ed⟩ := bind_some ed
    cases ed; rfl
  | upd o i j =>
    obtain ⟨pa, fa, ed⟩ := bind_some ed
    obtain ⟨pb, fb, ed⟩ := bind_some ed
    obtain ⟨p, fp, ed⟩ := bind_some ed
    cases ed; rfl
  | copy i j =>
    obtain ⟨pa, fa, ed⟩ := bind_some ed
    obtain ⟨pb, fb, ed⟩ := bind_some ed
    cases ed; rfl
  | un f i => obtain ⟨pa, fa, ed⟩ := bind_some ed; cases ed; rfl
  | neg i => obtain ⟨pa, fa, ed⟩ := bind_some ed; cases ed; rfl
  | sign i => obtain ⟨pa, fa, ed⟩ := bind_some ed; cases ed; rfl
  | cond c l r t f =>
    obtain ⟨pa, fa, ed⟩ := bind_some ed
    obtain ⟨pb, fb, ed⟩ := bind_some ed
    obtain ⟨pu, fu, ed⟩ := bind_some ed
    obtain ⟨pv, fv, ed⟩ := bind_some ed
    cases ed; rfl

theorem record_sim [DecidableEq α] {I : Interp α} (L : Laws I) {x : Nat → α} {is : List (Instr α)} :
    ∀ {s s' : RState α} {d d' : DState α}, StOk s → Rel K val s d → record I s is = .ok s' →
      runDirect I x d is = some d' → s'.world.Val I x val → (K → Agrees x d.nIndep is) →
      Rel K val s' d' := by
  induction is with
  | nil =>
    intro s s' d d' _ h e ed _ _
    cases e; cases ed
    exact h
  | cons i is ih =>
    intro s s' d d' hs h e ed hv hk
    unfold record at e
    cases h1 : step I s i with
    | error z => rw [h1] at e; cases e
    | ok s1 =>
      rw [h1] at e
      unfold runDirect at ed
      cases h2 : i.direct I x d with
      | none => rw [h2] at ed; cases ed
      | some d1 =>
        rw [h2] at ed
        simp only [Option.bind_some] at ed
        obtain ⟨hs1, _⟩ := step_ok hs h1
        have hv1 : s1.world.Val I x val := (record_ok hs1 e).2.val hv
        have hr1 : Rel K val s1 d1 := by
          refine step_sim L h h1 h2 hv1 ?_
          intro hh v hi k
          subst hi
          exact (hk k).1 v rfl
        refine ih hs1 hr1 e ed hv ?_
        intro k
        have := hk k
        rw [direct_nIndep h2]
        cases i <;> first | exact this | exact this.2

/-! ### recording in one handler does not fail -/

/-- every node belongs to handler `h0` -/
def Own (h0 : Nat) (w : World α) : Prop :=
  ∀ (n : Nat) (nd : Node α) (h : Nat), w.nodes[n]? = some (nd, h) → h = h0

theorem own_add {h0 : Nat} {w : World α} (h : Own h0 w) (op : Op) (args : List (Arg α)) :
    Own h0 (w.add h0 op args).1 := by
  intro n nd h' hn
  simp only [World.add] at hn
  rw [List.getElem?_append] at hn
  split at hn
  · exact h n nd h' hn
  · rw [List.getElem?_singleton] at hn
    split at hn
    · cases hn; rfl
    · cases hn

theorem OkReg.handler {h0 : Nat} {w : World α} (ho : Own h0 w) {c : Cg α} (hc : OkReg w c) :
    (c.isPar = true ∧ c.handler w = none ∧ ∃ v, c.value = some v) ∨
      (c.isPar = false ∧ c.handler w = some h0) := by
  unfold OkReg at hc
  unfold Cg.isPar Cg.handler
  cases hn : c.node with
  | none =>
    rw [hn] at hc
    exact Or.inl ⟨rfl, rfl, Option.isSome_iff_exists.1 hc⟩
  | some n =>
    rw [hn] at hc
    simp only at hc
    right
    refine ⟨rfl, ?_⟩
    have hq' : w.nodes[n]? = some ((w.nodes[n]).1, (w.nodes[n]).2) := List.getElem?_eq_getElem hc
    have := ho n _ _ hq'
    simp only [hq', Option.map_some, Option.bind_some, this]

/-- the outcome is a value recorded in handler `h0` -/
def Fine (h0 : Nat) (r : Except Err (Cg α × World α)) : Prop := ∃ q w', r = .ok (q, w') ∧ Own h0 w'

theorem binNode_fine {I : Interp α} {o : Bin} {h0 : Nat} {w : World α} (ho : Own h0 w) {a b : Cg α}
    (ha : OkReg w a) (hb : OkReg w b) : Fine h0 (binNode I o w h0 a b) := by
  obtain ⟨u, hu, _⟩ := ha.arg
  obtain ⟨v, hv, _⟩ := hb.arg
  unfold binNode
  rw [hu, hv]
  exact ⟨_, _, rfl, own_add ho _ _⟩

theorem handler_fine {h0 : Nat} {w : World α} (ho : Own h0 w) {a b : Cg α} (ha : OkReg w a)
    (hb : OkReg w b) (hp : ¬ (a.isPar && b.isPar) = true) :
    getHandler (a.handler w) (b.handler w) = .ok h0 ∧ assignHandler w a b = .ok h0 ∧
      (if b.isPar then a.handler w else b.handler w) = some h0 := by
  rw [Bool.and_eq_true] at hp
  unfold assignHandler
  rcases ha.handler ho with ⟨h1, h2, _⟩ | ⟨h1, h2⟩ <;>
    rcases hb.handler ho with ⟨h3, h4, _⟩ | ⟨h3, h4⟩ <;>
    simp_all [getHandler]

theorem binary_fine {I : Interp α} {o : Bin} {h0 : Nat} {w : World α} (ho : Own h0 w) {a b : Cg α}
    (ha : OkReg w a) (hb : OkReg w b) : Fine h0 (binary I o w a b) := by
  unfold binary
  split
  · rename_i hp
    rw [Bool.and_eq_true] at hp
    rcases ha.handler ho with ⟨_, _, u, h1⟩ | ⟨h1, _⟩
    · rcases hb.handler ho with ⟨_, _, v, h2⟩ | ⟨h2, _⟩
      · unfold fold Cg.getValue
        rw [h1, h2]
        exact ⟨_, _, rfl, ho⟩
      · rw [h2] at hp; simp at hp
    · rw [h1] at hp; simp at hp
  · rename_i hp
    obtain ⟨g1, g2, g3⟩ := handler_fine ho ha hb hp
    cases o <;> simp only
    all_goals
      repeat' split
    all_goals first
      | exact ⟨_, _, rfl, ho⟩
      | (rw [g1]; exact binNode_fine ho ha hb)
      | (rename_i h; rw [g3] at h; cases h)
    exact binNode_fine ho ha hb

theorem compound_fine {I : Interp α} {o : Bin} (hop : o ≠ .pow) {h0 : Nat} {w : World α} (ho : Own h0 w)
    {a b : Cg α} (ha : OkReg w a) (hb : OkReg w b) : Fine h0 (compound I o w a b) := by
  unfold compound
  rw [if_neg hop]
  split
  · rename_i hp
    rw [Bool.and_eq_true] at hp
    rcases ha.handler ho with ⟨_, _, u, h1⟩ | ⟨h1, _⟩
    · rcases hb.handler ho with ⟨_, _, v, h2⟩ | ⟨h2, _⟩
      · unfold fold Cg.getValue
        rw [h1, h2]
        exact ⟨_, _, rfl, ho⟩
      · rw [h2] at hp; simp at hp
    · rw [h1] at hp; simp at hp
  · rename_i hp
    obtain ⟨g1, g2, g3⟩ := handler_fine ho ha hb hp
    cases o <;> simp only
    case pow => exact absurd rfl hop
    all_goals
      repeat' split
    all_goals first
      | exact ⟨_, _, rfl, ho⟩
      | (rw [g2]; exact binNode_fine ho ha hb)

theorem unary_fine {op : Op} {g : α → α} {h0 : Nat} {w : World α} (ho : Own h0 w) {a : Cg α}
    (ha : OkReg w a) : Fine h0 (unary op g w a) := by
  unfold unary
  rcases ha.handler ho with ⟨h1, _, v, h2⟩ | ⟨h1, h2⟩
  · rw [if_pos h1]
    unfold Cg.getValue
    rw [h2]
    exact ⟨_, _, rfl, ho⟩
  · rw [if_neg (by rw [h1]; simp), h2]
    obtain ⟨u, hu, _⟩ := ha.arg
    simp only [hu]
    exact ⟨_, _, rfl, own_add ho _ _⟩

theorem condExp_fine {I : Interp α} {c : Cmp} {h0 : Nat} {w : World α} (ho : Own h0 w) {l r t f : Cg α}
    (hl : OkReg w l) (hr : OkReg w r) (ht : OkReg w t) (hf : OkReg w f) :
    Fine h0 (condExp I c w l r t f) := by
  unfold condExp
  split
  · rename_i hp
    rw [Bool.and_eq_true] at hp
    rcases hl.handler ho with ⟨_, _, u, h1⟩ | ⟨h1, _⟩
    · rcases hr.handler ho with ⟨_, _, v, h2⟩ | ⟨h2, _⟩
      · unfold Cg.getValue
        rw [h1, h2]
        simp only [bind, Except.bind]
        split <;> exact ⟨_, _, rfl, ho⟩
      · rw [h2] at hp; simp at hp
    · rw [h1] at hp; simp at hp
  · rename_i hp
    split
    · exact ⟨_, _, rfl, ho⟩
    · have hfind : findHandler w l r t f = .ok h0 := by
        rw [Bool.and_eq_true] at hp
        unfold findHandler
        rcases hl.handler ho with ⟨h1, h2, _⟩ | ⟨h1, h2⟩ <;>
          rcases hr.handler ho with ⟨h3, h4, _⟩ | ⟨h3, h4⟩ <;>
          rcases ht.handler ho with ⟨h5, h6, _⟩ | ⟨h5, h6⟩ <;>
          rcases hf.handler ho with ⟨h7, h8, _⟩ | ⟨h7, h8⟩ <;>
          simp_all
      rw [hfind]
      obtain ⟨_, g1, _⟩ := hl.arg
      obtain ⟨_, g2, _⟩ := hr.arg
      obtain ⟨_, g3, _⟩ := ht.arg
      obtain ⟨_, g4, _⟩ := hf.arg
      rw [g1, g2, g3, g4]
      exact ⟨_, _, rfl, own_add ho _ _⟩

theorem reg_some {s : RState α} {i : Nat} {c : Cg α} (h : s.regs[i]? = some c) : reg s i = .ok c := by
  unfold reg; rw [h]

/-- recording in one handler succeeds whenever the program makes sense (registers exist) -/
theorem step_fine [DecidableEq α] {I : Interp α} {h0 : Nat} {x : Nat → α} {s : RState α}
    {d d' : DState α} {i : Instr α} (hs : StOk s) (ho : Own h0 s.world)
    (hlen : s.regs.length = d.regs.length) (ed : i.direct I x d = some d')
    (h1 : ∀ h v, i = .indep h v → h = h0) (h2 : ∀ j k, i ≠ .upd .pow j k) :
    ∃ s', step I s i = .ok s' ∧ Own h0 s'.world ∧ s'.regs.length = d'.regs.length := by
  have hreg : ∀ {i : Nat} {p : α}, d.regs[i]? = some p → ∃ c, reg s i = .ok c ∧ OkReg s.world c := by
    intro i p h
    have hi := (List.getElem?_eq_some_iff.1 h).1
    have hi' : i < s.regs.length := by omega
    have hg : s.regs[i]? = some s.regs[i] := List.getElem?_eq_getElem hi'
    exact ⟨_, reg_some hg, hs.regs _ (List.getElem_mem hi')⟩
  cases i with
  | const v => cases ed; exact ⟨_, rfl, ho, by simp [hlen]⟩
  | indep hh v =>
    cases ed
    have := h1 hh v rfl
    subst this
    refine ⟨_, rfl, ?_, by simp [hlen]⟩
    intro n nd h' hn
    simp only [makeIndep] at hn
    rw [List.getElem?_append] at hn
    split at hn
    · exact ho n nd h' hn
    · rw [List.getElem?_singleton] at hn
      split at hn
      · cases hn; rfl
      · cases hn
  | bin o i j =>
    obtain ⟨pa, fa, ed⟩ := bind_some ed
    obtain ⟨pb, fb, ed⟩ := bind_some ed
    obtain ⟨p, fp, ed⟩ := bind_some ed
    cases ed
    obtain ⟨a, ea, ka⟩ := hreg fa
    obtain ⟨b, eb, kb⟩ := hreg fb
    obtain ⟨q, w', e, hw⟩ := binary_fine (I := I) (o := o) ho ka kb
    exact ⟨_, by simp only [step, ea, eb, e, bind, Except.bind]; rfl, hw, by simp [hlen]⟩
  | upd o i j =>
    obtain ⟨pa, fa, ed⟩ := bind_some ed
    obtain ⟨pb, fb, ed⟩ := bind_some ed
    obtain ⟨p, fp, ed⟩ := bind_some ed
    cases ed
    obtain ⟨a, ea, ka⟩ := hreg fa
    obtain ⟨b, eb, kb⟩ := hreg fb
    obtain ⟨q, w', e, hw⟩ := compound_fine (I := I) (o := o) (fun hc => h2 i j (by rw [hc])) ho ka kb
    exact ⟨_, by simp only [step, ea, eb, e, bind, Except.bind]; rfl, hw, by simp [hlen]⟩
  | copy i j =>
    obtain ⟨pa, fa, ed⟩ := bind_some ed
    obtain ⟨pb, fb, ed⟩ := bind_some ed
    cases ed
    obtain ⟨a, ea, ka⟩ := hreg fa
    obtain ⟨b, eb, kb⟩ := hreg fb
    exact ⟨⟨s.regs.set i b, s.world⟩, by simp only [step, ea, eb, bind, Except.bind]; rfl, ho, by simp [hlen]⟩
  | un f i =>
    obtain ⟨pa, fa, ed⟩ := bind_some ed
    cases ed
    obtain ⟨a, ea, ka⟩ := hreg fa
    obtain ⟨q, w', e, hw⟩ := unary_fine (op := .un f) (g := I.un f) ho ka
    exact ⟨_, by simp only [step, ea, e, bind, Except.bind]; rfl, hw, by simp [hlen]⟩
  | neg i =>
    obtain ⟨pa, fa, ed⟩ := bind_some ed
    cases ed
    obtain ⟨a, ea, ka⟩ := hreg fa
    obtain ⟨q, w', e, hw⟩ := unary_fine (op := .neg) (g := I.neg) ho ka
    exact ⟨_, by simp only [step, ea, e, bind, Except.bind]; rfl, hw, by simp [hlen]⟩
  | sign i =>
    obtain ⟨pa, fa, ed⟩ := bind_some ed
    cases ed
    obtain ⟨a, ea, ka⟩ := hreg fa
    obtain ⟨q, w', e, hw⟩ := unary_fine (op := .sign) (g := signValue I) ho ka
    exact ⟨_, by simp only [step, ea, e, bind, Except.bind]; rfl, hw, by simp [hlen]⟩
  | cond c l r t f =>
    obtain ⟨pa, fa, ed⟩ := bind_some ed
    obtain ⟨pb, fb, ed⟩ := bind_some ed
    obtain ⟨pu, fu, ed⟩ := bind_some ed
    obtain ⟨pv, fv, ed⟩ := bind_some ed
    cases ed
    obtain ⟨a, ea, ka⟩ := hreg fa
    obtain ⟨b, eb, kb⟩ := hreg fb
    obtain ⟨u, eu, ku⟩ := hreg fu
    obtain ⟨v, ev, kv⟩ := hreg fv
    obtain ⟨q, w', e, hw⟩ := condExp_fine (I := I) (c := c) ho ka kb ku kv
    exact ⟨_, by simp only [step, ea, eb, eu, ev, e, bind, Except.bind]; rfl, hw, by simp [hlen]⟩

theorem record_fine [DecidableEq α] {I : Interp α} {h0 : Nat} {x : Nat → α} {is : List (Instr α)} :
    ∀ {s : RState α} {d d' : DState α}, StOk s → Own h0 s.world → s.regs.length = d.regs.length →
      runDirect I x d is = some d' → OneHandler h0 is → (∀ i ∈ is, ∀ j k, i ≠ .upd .pow j k) →
      ∃ s', record I s is = .ok s' ∧ Own h0 s'.world ∧ s'.regs.length = d'.regs.length := by
  induction is with
  | nil =>
    intro s d d' hs ho hl ed _ _
    cases ed
    exact ⟨s, rfl, ho, hl⟩
  | cons i is ih =>
    intro s d d' hs ho hl ed h1 h2
    unfold runDirect at ed
    cases e1 : i.direct I x d with
    | none => rw [e1] at ed; cases ed
    | some d1 =>
      rw [e1] at ed
      simp only [Option.bind_some] at ed
      obtain ⟨s1, e, ho1, hl1⟩ := step_fine hs ho hl e1 (h1 i (by simp)) (h2 i (by simp))
      obtain ⟨s', e', r⟩ := ih (step_ok hs e).1 ho1 hl1 ed
        (fun j hj => h1 j (List.mem_cons_of_mem _ hj)) (fun j hj => h2 j (List.mem_cons_of_mem _ hj))
      exact ⟨s', by unfold record; rw [e]; exact e', r⟩

end Verif.Cg
