import Verif.Library.ModelLife

/-
Lemmas about the life of libraries and models.
-/
namespace Verif.Library

theorem upd_same {α : Type} (f : Nat → α) (k : Nat) (v : α) : upd f k v k = v := by simp [upd]

theorem upd_ne {α : Type} (f : Nat → α) {k i : Nat} (v : α) (h : i ≠ k) : upd f k v i = f i := by simp [upd, h]

theorem upd_cases {α : Type} {f : Nat → α} {k i : Nat} {v w : α} (h : upd f k v i = w) : i = k ∧ v = w ∨ i ≠ k ∧ f i = w := by
  by_cases e : i = k
  · subst e; rw [upd_same] at h; exact .inl ⟨rfl, h⟩
  · rw [upd_ne _ _ e] at h; exact .inr ⟨e, h⟩

/-- the objects of the code are as in the specification -/
structure Rel (sp : SSt) (st : St) : Prop where
  next : st.next = sp.next
  libs : ∀ l, sp.libs l = none ↔ st.libs l = none
  lib : ∀ l a b, sp.libs l = some a → st.libs l = some b → b.handle = a.file ∧ b.names = a.names ∧
    (∀ m, m ∈ b.models ↔ ∃ d, sp.mdls m = some d ∧ d.lib = some l) ∧ (∀ h, a.file = some h → st.files h = true ∧ b.onClose = true ∧ h < sp.next) ∧
    (a.file = none → a.names = [])
  single : ∀ l l' a a' h, sp.libs l = some a → sp.libs l' = some a' → a.file = some h → a'.file = some h → l = l'
  mdls : ∀ m, sp.mdls m = none ↔ st.mdls m = none
  mdl : ∀ m d e, sp.mdls m = some d → st.mdls m = some e →
    ((∃ l a h, d.lib = some l ∧ sp.libs l = some a ∧ a.file = some h ∧ e.lib = some l ∧ e.ready = true ∧ e.fns = some h) ∨
      ((∀ l, d.lib = some l → sp.libs l = none) ∧ e.lib = none ∧ e.ready = false)) ∧ ∀ a, e.atomic = some a ↔ sp.atoms a = some m
  atoms : st.atoms = sp.atoms
  atom : ∀ a m, sp.atoms a = some m → sp.mdls m ≠ none ∧ a < sp.next
  libLt : ∀ l, sp.libs l ≠ none → l < sp.next
  mdlLt : ∀ m d, sp.mdls m = some d → m < sp.next ∧ ∀ l, d.lib = some l → l < sp.next

theorem rel_init : Rel .init .init := by
  constructor <;> simp [SSt.init, St.init]

variable {sp : SSt} {st : St}

theorem Rel.lib_some (h : Rel sp st) {l : Nat} {a : SLib} (e : sp.libs l = some a) : ∃ b, st.libs l = some b := by
  cases hb : st.libs l with
  | none => rw [(h.libs l).2 hb] at e; cases e
  | some b => exact ⟨b, rfl⟩

theorem Rel.mdl_some (h : Rel sp st) {m : Nat} {d : SMdl} (e : sp.mdls m = some d) : ∃ b, st.mdls m = some b := by
  cases hb : st.mdls m with
  | none => rw [(h.mdls m).2 hb] at e; cases e
  | some b => exact ⟨b, rfl⟩

theorem evaluate_eq (h : Rel sp st) {m : Nat} (hm : sp.mdls m ≠ none) : st.evaluate m = sp.evaluate m := by
  cases hd : sp.mdls m with
  | none => exact absurd hd hm
  | some d =>
    obtain ⟨e, he⟩ := h.mdl_some hd
    unfold St.evaluate SSt.evaluate
    rw [hd, he]
    rcases (h.mdl m d e hd he).1 with ⟨l, a, f, h1, h2, h3, _, h5, h6⟩ | ⟨h1, _, h3⟩
    · obtain ⟨b, hb⟩ := h.lib_some h2
      obtain ⟨hf, names⟩ := a
      simp only at h3
      subst h3
      simp [h1, h2, h5, h6, ((h.lib l _ b h2 hb).2.2.2.1 f rfl).1]
    · cases hl : d.lib with
      | none => simp [h3, hl]
      | some l => simp [h3, hl, h1 l hl]

theorem closeModels_ok : ∀ (ms : List Nat) (f : Nat → Option Mdl), (∀ m ∈ ms, f m ≠ none) → ∃ f', closeModels ms f = some f' ∧
    (∀ m, m ∉ ms → f' m = f m) ∧ ∀ m d, m ∈ ms → f m = some d → f' m = some { d with lib := none, ready := false, fns := none } := by
  intro ms
  induction ms with
  | nil => intro f _; exact ⟨f, rfl, by simp, by simp⟩
  | cons x ms ih =>
    intro f hf
    cases hx : f x with
    | none => exact absurd hx (hf x (by simp))
    | some d =>
      obtain ⟨f', h1, h2, h3⟩ := ih (upd f x (some { d with lib := none, ready := false, fns := none })) (fun m hm => by
        by_cases e : m = x
        · rw [e, upd_same]; simp
        · rw [upd_ne _ _ e]; exact hf m (by simp [hm]))
      refine ⟨f', by unfold closeModels; rw [hx]; exact h1, ?_, ?_⟩
      · intro m hm
        simp only [List.mem_cons, not_or] at hm
        rw [h2 m hm.2, upd_ne _ _ hm.1]
      · intro m e hm he
        by_cases hmx : m = x
        · subst hmx
          rw [hx] at he; cases he
          by_cases hin : m ∈ ms
          · rw [h3 m _ hin (upd_same _ _ _)]
          · rw [h2 m hin, upd_same]
        · have hin : m ∈ ms := by simpa [hmx] using hm
          exact h3 m e hin (by rw [upd_ne _ _ hmx]; exact he)

theorem rel_openLib (h : Rel sp st) (names : List Nat) : (st.step (.openLib names)).1 = (sp.step (.openLib names)).1 ∧
    Rel (sp.step (.openLib names)).2 (st.step (.openLib names)).2 := by
  have hfresh : ∀ l a, sp.libs l = some a → l ≠ sp.next := fun l a e => by
    have := h.libLt l (by rw [e]; simp); omega
  refine ⟨by simp [St.step, SSt.step, h.next], ?_⟩
  simp only [St.step, SSt.step, h.next]
  constructor
  · rfl
  · intro l
    simp only [upd]; split
    · simp
    · exact h.libs l
  · intro l a b ha hb
    have hz := upd_cases ha; clear ha; rcases hz with ⟨rfl, ha⟩ | ⟨hl, ha⟩
    · simp only [upd_same] at hb
      cases ha; cases hb
      refine ⟨rfl, rfl, ?_, ?_, by simp⟩
      · intro m
        constructor
        · intro hm; cases hm
        · rintro ⟨d, hd, hl⟩
          have := (h.mdlLt m d hd).2 _ hl; omega
      · intro f hf
        cases hf
        exact ⟨upd_same _ _ _, rfl, by simp⟩
    · simp only [upd_ne _ _ hl] at hb
      obtain ⟨h1, h2, h3, h4, h5⟩ := h.lib l a b ha hb
      refine ⟨h1, h2, h3, ?_, h5⟩
      intro f hf
      obtain ⟨q1, q2, q3⟩ := h4 f hf
      exact ⟨by simp only [upd]; split <;> simp_all, q2, by simp only; omega⟩
  · intro l l' a a' f ha ha' hf hf'
    have hz' := upd_cases ha; clear ha; have hz := upd_cases ha'; clear ha'; rcases hz' with ⟨rfl, ha⟩ | ⟨hl, ha⟩ <;> rcases hz with ⟨rfl, ha'⟩ | ⟨hl', ha'⟩
    · rfl
    · cases ha; cases hf
      obtain ⟨b, hb⟩ := h.lib_some ha'
      have := ((h.lib l' a' b ha' hb).2.2.2.1 _ hf').2.2
      omega
    · cases ha'; cases hf'
      obtain ⟨b, hb⟩ := h.lib_some ha
      have := ((h.lib l a b ha hb).2.2.2.1 _ hf).2.2
      omega
    · exact h.single l l' a a' f ha ha' hf hf'
  · exact h.mdls
  · intro m d e hd he
    refine ⟨?_, (h.mdl m d e hd he).2⟩
    rcases (h.mdl m d e hd he).1 with ⟨l, a, f, h1, h2, h3⟩ | ⟨h1, h2⟩
    · exact .inl ⟨l, a, f, h1, by simp only [upd_ne _ _ (hfresh l a h2)]; exact h2, h3⟩
    · refine .inr ⟨fun l hl => ?_, h2⟩
      have := (h.mdlLt m d hd).2 l hl
      simp only [upd_ne _ _ (by omega : l ≠ sp.next)]
      exact h1 l hl
  · exact h.atoms
  · intro a m ha
    obtain ⟨q1, q2⟩ := h.atom a m ha
    exact ⟨q1, by simp only; omega⟩
  · intro l hl
    by_cases e : l = sp.next
    · simp only; omega
    · simp only [upd_ne _ _ e] at hl
      have := h.libLt l hl
      simp only; omega
  · intro m d hd
    obtain ⟨q1, q2⟩ := h.mdlLt m d hd
    exact ⟨by simp only; omega, fun l hl => by have := q2 l hl; simp only; omega⟩

theorem rel_getModel (h : Rel sp st) (l name : Nat) : (st.step (.getModel l name)).1 = (sp.step (.getModel l name)).1 ∧
    Rel (sp.step (.getModel l name)).2 (st.step (.getModel l name)).2 := by
  cases ha : sp.libs l with
  | none => simp only [St.step, SSt.step, ha, (h.libs l).1 ha]; exact ⟨trivial, h⟩
  | some a =>
    obtain ⟨b, hb⟩ := h.lib_some ha
    obtain ⟨h1, h2, h3, h4, h5⟩ := h.lib l a b ha hb
    simp only [St.step, SSt.step, ha, hb, h2]
    by_cases hn : name ∈ a.names
    · rw [if_pos hn, if_pos hn]
      cases hf : a.file with
      | none => rw [h5 hf] at hn; cases hn
      | some f =>
        obtain ⟨q1, q2, q3⟩ := h4 f hf
        simp only [h1, hf, q1, if_true, h.next]
        have hold : ∀ m d, sp.mdls m = some d → m ≠ sp.next := fun m d e => by
          have := (h.mdlLt m d e).1; omega
        refine ⟨trivial, ?_⟩
        constructor
        · rfl
        · intro l'
          simp only [upd]; split
          · rename_i e; subst e; simp [ha]
          · exact h.libs l'
        · intro l' a' b' ha' hb'
          simp only at ha'
          have hmd : ∀ m d, upd sp.mdls sp.next (some ⟨some l⟩) m = some d ∧ d.lib = some l' ↔
              (m = sp.next ∧ l' = l ∧ d = ⟨some l⟩) ∨ (sp.mdls m = some d ∧ d.lib = some l') := by
            intro m d
            constructor
            · rintro ⟨e1, e2⟩
              have hz := upd_cases e1; clear e1; rcases hz with ⟨rfl, e1⟩ | ⟨_, e1⟩
              · cases e1; cases e2; exact .inl ⟨rfl, rfl, rfl⟩
              · exact .inr ⟨e1, e2⟩
            · rintro (⟨rfl, rfl, rfl⟩ | ⟨e1, e2⟩)
              · exact ⟨upd_same _ _ _, rfl⟩
              · exact ⟨by rw [upd_ne _ _ (hold m d e1)]; exact e1, e2⟩
          have hz := upd_cases hb'; clear hb'; rcases hz with ⟨rfl, hb'⟩ | ⟨hl, hb'⟩
          · rw [ha] at ha'; cases ha'; cases hb'
            refine ⟨hf.symm, rfl, ?_, fun f' hf' => ?_, h5⟩
            · intro m
              simp only [List.mem_cons, hmd, h3]
              constructor
              · rintro (rfl | ⟨d, e⟩)
                · exact ⟨⟨some l'⟩, .inl ⟨rfl, trivial, rfl⟩⟩
                · exact ⟨d, .inr e⟩
              · rintro ⟨d, ⟨e, _⟩ | e⟩
                · exact .inl e
                · exact .inr ⟨d, e⟩
            · obtain ⟨w1, w2, w3⟩ := h4 f' hf'
              exact ⟨w1, w2, by simp only; omega⟩
          · obtain ⟨g1, g2, g3, g4, g5⟩ := h.lib l' a' b' ha' hb'
            refine ⟨g1, g2, ?_, fun f' hf' => ?_, g5⟩
            · intro m
              rw [g3]
              constructor
              · rintro ⟨d, e⟩; exact ⟨d, (hmd m d).2 (.inr e)⟩
              · rintro ⟨d, e⟩
                rcases (hmd m d).1 e with ⟨_, e, _⟩ | e
                · exact absurd e hl
                · exact ⟨d, e⟩
            · obtain ⟨w1, w2, w3⟩ := g4 f' hf'
              exact ⟨w1, w2, by simp only; omega⟩
        · exact h.single
        · intro m
          simp only [upd]; split
          · simp
          · exact h.mdls m
        · intro m d e hd he
          have hz := upd_cases hd; clear hd; rcases hz with ⟨rfl, hd⟩ | ⟨hm, hd⟩
          · simp only [upd_same] at he
            cases hd; cases he
            refine ⟨.inl ⟨l, a, f, rfl, ha, hf, rfl, rfl, rfl⟩, ?_⟩
            intro x
            constructor
            · intro e; cases e
            · intro e
              obtain ⟨w, _⟩ := h.atom x _ e
              cases hw : sp.mdls sp.next with
              | none => exact absurd hw w
              | some d => exact absurd rfl (hold _ d hw)
          · simp only [upd_ne _ _ hm] at he
            exact h.mdl m d e hd he
        · exact h.atoms
        · intro x m hx
          obtain ⟨w1, w2⟩ := h.atom x m hx
          refine ⟨?_, by simp only; omega⟩
          cases hw : sp.mdls m with
          | none => exact absurd hw w1
          | some d => simp only [upd_ne _ _ (hold m d hw), hw]; simp
        · intro l' hl'
          have := h.libLt l' hl'
          simp only; omega
        · intro m d hd
          have hz := upd_cases hd; clear hd; rcases hz with ⟨rfl, hd⟩ | ⟨hm, hd⟩
          · cases hd
            refine ⟨by simp only; omega, ?_⟩
            intro l' hl'
            cases hl'
            have := h.libLt l (by rw [ha]; simp)
            simp only; omega
          · obtain ⟨w1, w2⟩ := h.mdlLt m d hd
            exact ⟨by simp only; omega, fun l' hl' => by have := w2 l' hl'; simp only; omega⟩
    · rw [if_neg hn, if_neg hn]; exact ⟨rfl, h⟩

theorem rel_delModel (h : Rel sp st) (m : Nat) : (st.step (.delModel m)).1 = (sp.step (.delModel m)).1 ∧
    Rel (sp.step (.delModel m)).2 (st.step (.delModel m)).2 := by
  cases hd : sp.mdls m with
  | none => simp only [St.step, SSt.step, hd, (h.mdls m).1 hd]; exact ⟨trivial, h⟩
  | some d =>
    obtain ⟨e, he⟩ := h.mdl_some hd
    obtain ⟨hcase, hat⟩ := h.mdl m d e hd he
    have hatoms1 : e.atomic = none → st.atoms = fun a => if sp.atoms a = some m then none else sp.atoms a := by
      intro ho
      funext x
      simp only [h.atoms]
      rw [if_neg]
      rw [← hat, ho]; simp
    have hatoms2 : ∀ a, e.atomic = some a → upd st.atoms a none = fun a => if sp.atoms a = some m then none else sp.atoms a := by
      intro a ho
      funext x
      simp only [h.atoms, upd]
      have : sp.atoms x = some m ↔ x = a := by rw [← hat, ho]; simp [eq_comm]
      simp only [this]
    have hmd : ∀ m' d', upd sp.mdls m none m' = some d' ↔ m' ≠ m ∧ sp.mdls m' = some d' := by
      intro m' d'
      constructor
      · intro e
        rcases upd_cases e with ⟨_, e⟩ | e
        · cases e
        · exact e
      · rintro ⟨e1, e2⟩; rw [upd_ne _ _ e1]; exact e2
    have hmdls : ∀ m', upd sp.mdls m none m' = none ↔ upd st.mdls m none m' = none := by
      intro m'
      simp only [upd]; split
      · simp
      · exact h.mdls m'
    have hmdl : ∀ m' d' e', upd sp.mdls m none m' = some d' → upd st.mdls m none m' = some e' →
      ((∃ l a h, d'.lib = some l ∧ sp.libs l = some a ∧ a.file = some h ∧ e'.lib = some l ∧ e'.ready = true ∧ e'.fns = some h) ∨
        ((∀ l, d'.lib = some l → sp.libs l = none) ∧ e'.lib = none ∧ e'.ready = false)) ∧
        ∀ a, e'.atomic = some a ↔ (if sp.atoms a = some m then none else sp.atoms a) = some m' := by
      intro m' d' e' h1 h2
      obtain ⟨hne, h1⟩ := (hmd m' d').1 h1
      rw [upd_ne _ _ hne] at h2
      obtain ⟨w1, w2⟩ := h.mdl m' d' e' h1 h2
      refine ⟨w1, fun a => ?_⟩
      rw [w2]
      split
      · rename_i e; rw [e]; simp [Ne.symm hne]
      · exact Iff.rfl
    have hatom : ∀ a m', (if sp.atoms a = some m then none else sp.atoms a) = some m' → upd sp.mdls m none m' ≠ none ∧ a < sp.next := by
      intro a m' e
      split at e
      · cases e
      · rename_i hne
        obtain ⟨w1, w2⟩ := h.atom a m' e
        refine ⟨?_, w2⟩
        rw [upd_ne]
        · exact w1
        · rintro rfl; exact hne e
    have hlt : ∀ m' d', upd sp.mdls m none m' = some d' → m' < sp.next ∧ ∀ l, d'.lib = some l → l < sp.next := by
      intro m' d' e
      exact h.mdlLt m' d' ((hmd m' d').1 e).2
    rcases hcase with ⟨l, a, f, h1, h2, h3, h4, h5, h6⟩ | ⟨h1, h4, h5⟩
    · obtain ⟨b, hb⟩ := h.lib_some h2
      have hout : (st.step (.delModel m)) = (.done, { st with
            mdls := upd st.mdls m none
            libs := upd st.libs l (some { b with models := b.models.filter (· != m) })
            atoms := fun a => if sp.atoms a = some m then none else sp.atoms a }) := by
        cases ho : e.atomic with
        | none => simp only [St.step, he, h4, hb, ho, ← hatoms1 ho]
        | some a => simp only [St.step, he, h4, hb, ho, ← hatoms2 a ho]
      have hsp : (sp.step (.delModel m)) = (.done, { sp with mdls := upd sp.mdls m none, atoms := fun a => if sp.atoms a = some m then none else sp.atoms a }) := by
        simp only [SSt.step, hd]
      rw [hout, hsp]
      refine ⟨rfl, ?_⟩
      constructor
      · exact h.next
      · intro l'
        simp only [upd]; split
        · rename_i e; subst e; simp [h2]
        · exact h.libs l'
      · intro l' a' b' ha' hb'
        simp only at ha'
        have hz := upd_cases hb'; clear hb'; rcases hz with ⟨rfl, hb'⟩ | ⟨hl, hb'⟩
        · cases hb'
          obtain ⟨g1, g2, g3, g4⟩ := h.lib l' a' b ha' hb
          refine ⟨g1, g2, ?_, g4⟩
          intro m'
          simp only [List.mem_filter, bne_iff_ne, g3, hmd]
          constructor
          · rintro ⟨⟨d', e1, e2⟩, e3⟩; exact ⟨d', ⟨e3, e1⟩, e2⟩
          · rintro ⟨d', ⟨e3, e1⟩, e2⟩; exact ⟨⟨d', e1, e2⟩, e3⟩
        · obtain ⟨g1, g2, g3, g4⟩ := h.lib l' a' b' ha' hb'
          refine ⟨g1, g2, ?_, g4⟩
          intro m'
          simp only [g3, hmd]
          constructor
          · rintro ⟨d', e1, e2⟩
            refine ⟨d', ⟨?_, e1⟩, e2⟩
            rintro rfl
            rw [hd] at e1; cases e1
            rw [h1] at e2; cases e2
            exact hl rfl
          · rintro ⟨d', ⟨e3, e1⟩, e2⟩; exact ⟨d', e1, e2⟩
      · exact h.single
      · exact hmdls
      · exact hmdl
      · rfl
      · exact hatom
      · exact h.libLt
      · exact hlt
    · have hout : (st.step (.delModel m)) = (.done, { st with
            mdls := upd st.mdls m none
            atoms := fun a => if sp.atoms a = some m then none else sp.atoms a }) := by
        cases ho : e.atomic with
        | none => simp only [St.step, he, h4, ho, ← hatoms1 ho]
        | some a => simp only [St.step, he, h4, ho, ← hatoms2 a ho]
      have hsp : (sp.step (.delModel m)) = (.done, { sp with mdls := upd sp.mdls m none, atoms := fun a => if sp.atoms a = some m then none else sp.atoms a }) := by
        simp only [SSt.step, hd]
      rw [hout, hsp]
      refine ⟨rfl, ?_⟩
      constructor
      · exact h.next
      · exact h.libs
      · intro l' a' b' ha' hb'
        simp only at ha' hb'
        obtain ⟨g1, g2, g3, g4⟩ := h.lib l' a' b' ha' hb'
        refine ⟨g1, g2, ?_, g4⟩
        intro m'
        simp only [g3, hmd]
        constructor
        · rintro ⟨d', e1, e2⟩
          refine ⟨d', ⟨?_, e1⟩, e2⟩
          rintro rfl
          rw [hd] at e1; cases e1
          rw [h1 l' e2] at ha'; cases ha'
        · rintro ⟨d', ⟨e3, e1⟩, e2⟩; exact ⟨d', e1, e2⟩
      · exact h.single
      · exact hmdls
      · exact hmdl
      · rfl
      · exact hatom
      · exact h.libLt
      · exact hlt

theorem rel_delLib (h : Rel sp st) (l : Nat) : (st.step (.delLib l)).1 = (sp.step (.delLib l)).1 ∧
    Rel (sp.step (.delLib l)).2 (st.step (.delLib l)).2 := by
  cases ha : sp.libs l with
  | none => simp only [St.step, SSt.step, ha, (h.libs l).1 ha]; exact ⟨trivial, h⟩
  | some a =>
    obtain ⟨b, hb⟩ := h.lib_some ha
    obtain ⟨h1, h2, h3, h4, h5⟩ := h.lib l a b ha hb
    have hall : ∀ m ∈ b.models, st.mdls m ≠ none := by
      intro m hm
      obtain ⟨d, hd, _⟩ := (h3 m).1 hm
      obtain ⟨e, he⟩ := h.mdl_some hd
      rw [he]; simp
    obtain ⟨f', c1, c2, c3⟩ := closeModels_ok b.models st.mdls hall
    have hmdls : ∀ m, sp.mdls m = none ↔ f' m = none := by
      intro m
      by_cases hm : m ∈ b.models
      · cases hs : st.mdls m with
        | none => exact absurd hs (hall m hm)
        | some e => rw [c3 m e hm hs, h.mdls, hs]; simp
      · rw [c2 m hm, h.mdls]
    have hmdl : ∀ m d e, sp.mdls m = some d → f' m = some e →
      ((∃ l' a h, d.lib = some l' ∧ upd sp.libs l none l' = some a ∧ a.file = some h ∧ e.lib = some l' ∧ e.ready = true ∧ e.fns = some h) ∨
        ((∀ l', d.lib = some l' → upd sp.libs l none l' = none) ∧ e.lib = none ∧ e.ready = false)) ∧ ∀ a, e.atomic = some a ↔ sp.atoms a = some m := by
      intro m d e hd he
      obtain ⟨e0, he0⟩ := h.mdl_some hd
      obtain ⟨w1, w2⟩ := h.mdl m d e0 hd he0
      by_cases hm : m ∈ b.models
      · rw [c3 m e0 hm he0] at he
        cases he
        refine ⟨.inr ⟨?_, rfl, rfl⟩, w2⟩
        intro l' hl'
        obtain ⟨d', hd', hl⟩ := (h3 m).1 hm
        rw [hd] at hd'; cases hd'
        rw [hl] at hl'; cases hl'
        exact upd_same _ _ _
      · rw [c2 m hm, he0] at he
        cases he
        refine ⟨?_, w2⟩
        rcases w1 with ⟨l', a', f, k1, k2, k3⟩ | ⟨k1, k2⟩
        · refine .inl ⟨l', a', f, k1, ?_, k3⟩
          rw [upd_ne]
          · exact k2
          · rintro rfl
            exact hm ((h3 m).2 ⟨d, hd, k1⟩)
        · refine .inr ⟨fun l' hl' => ?_, k2⟩
          simp only [upd]; split
          · rfl
          · exact k1 l' hl'
    have hlib : ∀ l' a', upd sp.libs l none l' = some a' ↔ l' ≠ l ∧ sp.libs l' = some a' := by
      intro l' a'
      constructor
      · intro e
        rcases upd_cases e with ⟨_, e⟩ | e
        · cases e
        · exact e
      · rintro ⟨e1, e2⟩; rw [upd_ne _ _ e1]; exact e2
    have hlt : ∀ l', upd sp.libs l none l' ≠ none → l' < sp.next := by
      intro l' hl'
      cases e : upd sp.libs l none l' with
      | none => exact absurd e hl'
      | some a' => exact h.libLt l' (by rw [((hlib l' a').1 e).2]; simp)
    have hlibs : ∀ l', upd sp.libs l none l' = none ↔ upd st.libs l none l' = none := by
      intro l'
      simp only [upd]; split
      · simp
      · exact h.libs l'
    have hsingle : ∀ l₁ l₂ a₁ a₂ f, upd sp.libs l none l₁ = some a₁ → upd sp.libs l none l₂ = some a₂ → a₁.file = some f → a₂.file = some f → l₁ = l₂ := by
      intro l₁ l₂ a₁ a₂ f e1 e2 e3 e4
      exact h.single l₁ l₂ a₁ a₂ f ((hlib _ _).1 e1).2 ((hlib _ _).1 e2).2 e3 e4
    cases hf : a.file with
    | none =>
      have hout : st.step (.delLib l) = (.done, { st with mdls := f', libs := upd st.libs l none }) := by
        simp only [St.step, hb, c1, h1, hf]
      have hsp : sp.step (.delLib l) = (.done, { sp with libs := upd sp.libs l none }) := by
        simp only [SSt.step, ha, hf]
      rw [hout, hsp]
      refine ⟨rfl, ?_⟩
      refine ⟨h.next, hlibs, ?_, hsingle, hmdls, hmdl, h.atoms, h.atom, hlt, h.mdlLt⟩
      intro l' a' b' ha' hb'
      obtain ⟨k1, k2⟩ := (hlib l' a').1 ha'
      simp only [upd_ne _ _ k1] at hb'
      exact h.lib l' a' b' k2 hb'
    | some f =>
      obtain ⟨q1, q2, q3⟩ := h4 f hf
      have hout : st.step (.delLib l) = (.released f, { st with mdls := f', libs := upd st.libs l none, files := upd st.files f false }) := by
        simp only [St.step, hb, c1, h1, hf, q1, q2, if_true]
      have hsp : sp.step (.delLib l) = (.released f, { sp with libs := upd sp.libs l none }) := by
        simp only [SSt.step, ha, hf]
      rw [hout, hsp]
      refine ⟨rfl, ?_⟩
      refine ⟨h.next, hlibs, ?_, hsingle, hmdls, hmdl, h.atoms, h.atom, hlt, h.mdlLt⟩
      intro l' a' b' ha' hb'
      obtain ⟨k1, k2⟩ := (hlib l' a').1 ha'
      simp only [upd_ne _ _ k1] at hb'
      obtain ⟨g1, g2, g3, g4, g5⟩ := h.lib l' a' b' k2 hb'
      refine ⟨g1, g2, g3, ?_, g5⟩
      intro f₂ hf₂
      obtain ⟨w1, w2, w3⟩ := g4 f₂ hf₂
      refine ⟨?_, w2, w3⟩
      simp only
      rw [upd_ne]
      · exact w1
      · rintro rfl
        exact k1 (h.single l' l a' a f₂ k2 ha hf₂ hf)

theorem rel_asAtomic (h : Rel sp st) (m : Nat) : (st.step (.asAtomic m)).1 = (sp.step (.asAtomic m)).1 ∧
    Rel (sp.step (.asAtomic m)).2 (st.step (.asAtomic m)).2 := by
  cases hd : sp.mdls m with
  | none => simp only [St.step, SSt.step, hd, (h.mdls m).1 hd]; exact ⟨trivial, h⟩
  | some d =>
    obtain ⟨e, he⟩ := h.mdl_some hd
    obtain ⟨w1, w2⟩ := h.mdl m d e hd he
    cases ho : e.atomic with
    | some a =>
      have : (List.range sp.next).find? (fun a => sp.atoms a == some m) = some a := by
        rw [List.find?_eq_some_iff_append]
        have hp := (w2 a).1 ho
        refine ⟨by simp [hp], ?_⟩
        have hin : a ∈ List.range sp.next := List.mem_range.2 (h.atom a m hp).2
        obtain ⟨as, bs, e'⟩ := List.append_of_mem hin
        refine ⟨as, bs, e', ?_⟩
        intro x hx
        have hnd : (List.range sp.next).Nodup := List.nodup_range
        rw [e'] at hnd
        have hxa : x ≠ a := by
          rintro rfl
          exact (List.nodup_append.1 hnd).2.2 x hx x (by simp) rfl
        cases hc : sp.atoms x == some m with
        | false => rfl
        | true =>
          have hx' := (w2 x).2 (by simpa using hc)
          rw [ho] at hx'; cases hx'
          exact absurd rfl hxa
      simp only [St.step, SSt.step, hd, he, ho, this]
      exact ⟨trivial, h⟩
    | none =>
      have hno : ∀ a, sp.atoms a ≠ some m := by
        intro a ha
        rw [← w2, ho] at ha; cases ha
      have : (List.range sp.next).find? (fun a => sp.atoms a == some m) = none := by
        rw [List.find?_eq_none]
        intro x _
        simpa using hno x
      have hnew : sp.atoms sp.next = none := by
        cases hc : sp.atoms sp.next with
        | none => rfl
        | some m' => have := (h.atom _ _ hc).2; omega
      have hout : st.step (.asAtomic m) = (.obj sp.next, { st with
          next := sp.next + 1
          mdls := upd st.mdls m (some { e with atomic := some sp.next })
          atoms := upd sp.atoms sp.next (some m) }) := by
        simp only [St.step, he, ho, h.next, h.atoms]
      have hsp : sp.step (.asAtomic m) = (.obj sp.next, { sp with next := sp.next + 1, atoms := upd sp.atoms sp.next (some m) }) := by
        simp only [SSt.step, hd, this]
      rw [hout, hsp]
      refine ⟨rfl, ?_⟩
      refine ⟨rfl, h.libs, ?_, h.single, ?_, ?_, rfl, ?_, ?_, ?_⟩
      · intro l a b ha hb
        obtain ⟨g1, g2, g3, g4, g5⟩ := h.lib l a b ha hb
        refine ⟨g1, g2, g3, ?_, g5⟩
        intro f hf
        obtain ⟨q1, q2, q3⟩ := g4 f hf
        exact ⟨q1, q2, by simp only; omega⟩
      · intro m'
        simp only [upd]; split
        · rename_i e; subst e; simp [hd]
        · exact h.mdls m'
      · intro m' d' e' hd' he'
        have hz := upd_cases he'; clear he'; rcases hz with ⟨rfl, he'⟩ | ⟨hm, he'⟩
        · simp only at hd'
          rw [hd] at hd'; cases hd'; cases he'
          refine ⟨w1, fun a => ?_⟩
          constructor
          · intro q; cases q; exact upd_same _ _ _
          · intro q
            have hz := upd_cases q; clear q; rcases hz with ⟨rfl, _⟩ | ⟨_, q⟩
            · rfl
            · exact absurd q (hno a)
        · obtain ⟨k1, k2⟩ := h.mdl m' d' e' hd' he'
          refine ⟨k1, fun a => ?_⟩
          rw [k2]
          constructor
          · intro q
            have : a ≠ sp.next := by rintro rfl; rw [hnew] at q; cases q
            simp only [upd_ne _ _ this]; exact q
          · intro q
            have hz := upd_cases q; clear q; rcases hz with ⟨rfl, q⟩ | ⟨_, q⟩
            · cases q; exact absurd rfl hm
            · exact q
      · intro a m' q
        have hz := upd_cases q; clear q; rcases hz with ⟨rfl, q⟩ | ⟨_, q⟩
        · cases q
          exact ⟨by simp only [hd]; simp, by simp only; omega⟩
        · obtain ⟨k1, k2⟩ := h.atom a m' q
          exact ⟨k1, by simp only; omega⟩
      · intro l hl
        have := h.libLt l hl
        simp only; omega
      · intro m' d' hd'
        obtain ⟨k1, k2⟩ := h.mdlLt m' d' hd'
        exact ⟨by simp only; omega, fun l hl => by have := k2 l hl; simp only; omega⟩

theorem rel_moveLib (h : Rel sp st) (l : Nat) (hok : sp.MayMove (.moveLib l)) : (st.step (.moveLib l)).1 = (sp.step (.moveLib l)).1 ∧
    Rel (sp.step (.moveLib l)).2 (st.step (.moveLib l)).2 := by
  cases ha : sp.libs l with
  | none => simp only [St.step, SSt.step, ha, (h.libs l).1 ha]; exact ⟨trivial, h⟩
  | some a =>
    obtain ⟨b, hb⟩ := h.lib_some ha
    have hl : l < sp.next := h.libLt l (by rw [ha]; simp)
    have hmd : (fun m => (sp.mdls m).map fun d => if d.lib = some l then (⟨some sp.next⟩ : SMdl) else d) = sp.mdls := by
      funext m
      cases hd : sp.mdls m with
      | none => rfl
      | some d => simp [hok m d hd]
    have hout : st.step (.moveLib l) = (.obj sp.next, { st with
        next := sp.next + 1
        libs := upd (upd st.libs l (some ⟨none, [], [], false⟩)) sp.next (some b) }) := by
      simp only [St.step, hb, h.next]
    have hsp : sp.step (.moveLib l) = (.obj sp.next, { sp with
        next := sp.next + 1
        libs := upd (upd sp.libs l (some ⟨none, []⟩)) sp.next (some a) }) := by
      simp only [SSt.step, ha, hmd]
    rw [hout, hsp]
    have hother : ∀ l', l' ≠ sp.next → l' ≠ l → upd (upd sp.libs l (some ⟨none, []⟩)) sp.next (some a) l' = sp.libs l' := by
      intro l' h1 h2; rw [upd_ne _ _ h1, upd_ne _ _ h2]
    obtain ⟨g1, g2, g3, g4, g5⟩ := h.lib l a b ha hb
    refine ⟨rfl, ?_⟩
    refine ⟨rfl, ?_, ?_, ?_, h.mdls, ?_, h.atoms, ?_, ?_, ?_⟩
    · intro l'
      simp only [upd]; split
      · simp
      · split
        · simp
        · exact h.libs l'
    · intro l' a' b' ha' hb'
      have hz := upd_cases ha'; clear ha'; rcases hz with ⟨rfl, ha'⟩ | ⟨hl1, ha'⟩
      · simp only [upd_same] at hb'
        cases ha'; cases hb'
        refine ⟨g1, g2, ?_, ?_, g5⟩
        · intro m
          rw [g3]
          constructor
          · rintro ⟨d, e1, e2⟩; exact absurd e2 (hok m d e1)
          · rintro ⟨d, e1, e2⟩
            have := (h.mdlLt m d e1).2 _ e2; omega
        · intro f hf
          obtain ⟨q1, q2, q3⟩ := g4 f hf
          exact ⟨q1, q2, by simp only; omega⟩
      · simp only [upd_ne _ _ hl1] at hb'
        have hz := upd_cases ha'; clear ha'; rcases hz with ⟨rfl, ha'⟩ | ⟨hl2, ha'⟩
        · simp only [upd_same] at hb'
          cases ha'; cases hb'
          refine ⟨rfl, rfl, ?_, by simp, by simp⟩
          intro m
          constructor
          · intro q; cases q
          · rintro ⟨d, e1, e2⟩; exact absurd e2 (hok m d e1)
        · simp only [upd_ne _ _ hl2] at hb'
          obtain ⟨k1, k2, k3, k4, k5⟩ := h.lib l' a' b' ha' hb'
          refine ⟨k1, k2, k3, ?_, k5⟩
          intro f hf
          obtain ⟨q1, q2, q3⟩ := k4 f hf
          exact ⟨q1, q2, by simp only; omega⟩
    · have key : ∀ l' a' f, upd (upd sp.libs l (some ⟨none, []⟩)) sp.next (some a) l' = some a' → a'.file = some f →
          (l' = sp.next ∧ a' = a) ∨ (l' ≠ sp.next ∧ l' ≠ l ∧ sp.libs l' = some a') := by
        intro l' a' f h1 h2
        rcases upd_cases h1 with ⟨e, e'⟩ | ⟨e, e'⟩
        · cases e'; exact .inl ⟨e, rfl⟩
        · rcases upd_cases e' with ⟨_, e'⟩ | ⟨e2, e'⟩
          · cases e'; cases h2
          · exact .inr ⟨e, e2, e'⟩
      intro l₁ l₂ a₁ a₂ f e1 e2 e3 e4
      rcases key l₁ a₁ f e1 e3 with ⟨r1, r2⟩ | ⟨r1, r2, r3⟩ <;> rcases key l₂ a₂ f e2 e4 with ⟨s1, s2⟩ | ⟨s1, s2, s3⟩
      · rw [r1, s1]
      · subst r2; exact absurd (h.single l₂ l a₂ a₁ f s3 ha e4 e3) s2
      · subst s2; exact absurd (h.single l₁ l a₁ a₂ f r3 ha e3 e4) r2
      · exact h.single l₁ l₂ a₁ a₂ f r3 s3 e3 e4
    · intro m d e hd he
      obtain ⟨k1, k2⟩ := h.mdl m d e hd he
      refine ⟨?_, k2⟩
      have hne : ∀ l', d.lib = some l' → l' ≠ sp.next ∧ l' ≠ l := by
        intro l' hl'
        have := (h.mdlLt m d hd).2 l' hl'
        exact ⟨by omega, by rintro rfl; exact hok m d hd hl'⟩
      rcases k1 with ⟨l', a', f, r1, r2, r3⟩ | ⟨r1, r2⟩
      · exact .inl ⟨l', a', f, r1, by simp only; rw [hother l' (hne l' r1).1 (hne l' r1).2]; exact r2, r3⟩
      · exact .inr ⟨fun l' hl' => by simp only; rw [hother l' (hne l' hl').1 (hne l' hl').2]; exact r1 l' hl', r2⟩
    · intro x m hx
      obtain ⟨k1, k2⟩ := h.atom x m hx
      exact ⟨k1, by simp only; omega⟩
    · intro l' hl'
      by_cases e1 : l' = sp.next
      · simp only; omega
      · by_cases e2 : l' = l
        · simp only; omega
        · simp only at hl'
          rw [hother l' e1 e2] at hl'
          have := h.libLt l' hl'
          simp only; omega
    · intro m' d' hd'
      obtain ⟨k1, k2⟩ := h.mdlLt m' d' hd'
      exact ⟨by simp only; omega, fun l hl => by have := k2 l hl; simp only; omega⟩

theorem rel_moveModel (h : Rel sp st) (m : Nat) (hok : sp.MayMove (.moveModel m)) : (st.step (.moveModel m)).1 = (sp.step (.moveModel m)).1 ∧
    Rel (sp.step (.moveModel m)).2 (st.step (.moveModel m)).2 := by
  cases hd : sp.mdls m with
  | none => simp only [St.step, SSt.step, hd, (h.mdls m).1 hd]; exact ⟨trivial, h⟩
  | some d =>
    obtain ⟨e, he⟩ := h.mdl_some hd
    obtain ⟨w1, w2⟩ := h.mdl m d e hd he
    obtain ⟨hclosed, hnoatom⟩ := hok
    have hm : m < sp.next := (h.mdlLt m d hd).1
    have hatoms : (fun a => if sp.atoms a = some m then some sp.next else sp.atoms a) = sp.atoms := by
      funext a
      rw [if_neg (hnoatom a)]
    have hfresh : sp.mdls sp.next = none := by
      cases hc : sp.mdls sp.next with
      | none => rfl
      | some d' => have := (h.mdlLt _ _ hc).1; omega
    have hnoat : e.atomic = none := by
      cases ho : e.atomic with
      | none => rfl
      | some a => exact absurd ((w2 a).1 ho) (hnoatom a)
    have hdead : e.lib = none ∧ e.ready = false := by
      rcases w1 with ⟨l, a, f, r1, r2, _⟩ | ⟨_, r2⟩
      · rw [hclosed d l hd r1] at r2; cases r2
      · exact r2
    have hout : st.step (.moveModel m) = (.obj sp.next, { st with
        next := sp.next + 1
        mdls := upd (upd st.mdls m (some { e with lib := none, ready := false, atomic := none })) sp.next (some e) }) := by
      simp only [St.step, he, h.next]
    have hsp : sp.step (.moveModel m) = (.obj sp.next, { sp with
        next := sp.next + 1
        mdls := upd (upd sp.mdls m (some ⟨none⟩)) sp.next (some d) }) := by
      simp only [SSt.step, hd, hatoms]
    rw [hout, hsp]
    refine ⟨rfl, ?_⟩
    refine ⟨rfl, h.libs, ?_, h.single, ?_, ?_, h.atoms, ?_, ?_, ?_⟩
    · intro l a b ha hb
      simp only at ha
      obtain ⟨g1, g2, g3, g4, g5⟩ := h.lib l a b ha hb
      refine ⟨g1, g2, ?_, ?_, g5⟩
      · intro m'
        rw [g3]
        constructor
        · rintro ⟨d', r1, r2⟩
          have hne : m' ≠ sp.next := by rintro rfl; rw [hfresh] at r1; cases r1
          have hne' : m' ≠ m := by
            rintro rfl
            rw [hd] at r1; cases r1
            rw [hclosed d l hd r2] at ha; cases ha
          exact ⟨d', by simp only [upd_ne _ _ hne, upd_ne _ _ hne']; exact r1, r2⟩
        · rintro ⟨d', r1, r2⟩
          rcases upd_cases r1 with ⟨_, r1⟩ | ⟨_, r1⟩
          · cases r1
            rw [hclosed d l hd r2] at ha; cases ha
          · rcases upd_cases r1 with ⟨_, r1⟩ | ⟨_, r1⟩
            · cases r1; cases r2
            · exact ⟨d', r1, r2⟩
      · intro f hf
        obtain ⟨q1, q2, q3⟩ := g4 f hf
        exact ⟨q1, q2, by simp only; omega⟩
    · intro m'
      simp only [upd]; split
      · simp
      · split
        · simp
        · exact h.mdls m'
    · intro m' d' e' hd' he'
      have hz := upd_cases hd'; clear hd'; rcases hz with ⟨rfl, hd'⟩ | ⟨hm1, hd'⟩
      · simp only [upd_same] at he'
        cases hd'; cases he'
        refine ⟨.inr ⟨fun l hl => hclosed d l hd hl, hdead⟩, fun a => ?_⟩
        rw [hnoat]
        constructor
        · intro q; cases q
        · intro q; exact absurd hfresh (h.atom a _ q).1
      · simp only [upd_ne _ _ hm1] at he'
        have hz := upd_cases hd'; clear hd'; rcases hz with ⟨rfl, hd'⟩ | ⟨hm2, hd'⟩
        · simp only [upd_same] at he'
          cases hd'; cases he'
          refine ⟨.inr ⟨fun l hl => (by cases hl), rfl, rfl⟩, fun a => ?_⟩
          constructor
          · intro q; cases q
          · intro q; exact absurd q (hnoatom a)
        · simp only [upd_ne _ _ hm2] at he'
          exact h.mdl m' d' e' hd' he'
    · intro x m' hx
      obtain ⟨k1, k2⟩ := h.atom x m' hx
      refine ⟨?_, by simp only; omega⟩
      have hne : m' ≠ sp.next := by rintro rfl; exact k1 hfresh
      have hne' : m' ≠ m := by rintro rfl; exact hnoatom x hx
      simp only [upd_ne _ _ hne, upd_ne _ _ hne']; exact k1
    · intro l' hl'
      have := h.libLt l' hl'
      simp only; omega
    · intro m' d' hd'
      rcases upd_cases hd' with ⟨e1, e2⟩ | ⟨e1, e2⟩
      · cases e2
        refine ⟨by simp only; omega, fun l hl => ?_⟩
        have := (h.mdlLt m d hd).2 l hl
        simp only; omega
      · rcases upd_cases e2 with ⟨e3, e4⟩ | ⟨e3, e4⟩
        · cases e4
          exact ⟨by simp only; omega, fun l hl => by cases hl⟩
        · obtain ⟨k1, k2⟩ := h.mdlLt m' d' e4
          exact ⟨by simp only; omega, fun l hl => by have := k2 l hl; simp only; omega⟩

theorem rel_step (h : Rel sp st) (a : Act) (hok : sp.MayMove a) : (st.step a).1 = (sp.step a).1 ∧ Rel (sp.step a).2 (st.step a).2 := by
  cases a with
  | openLib names => exact rel_openLib h names
  | getModel l name => exact rel_getModel h l name
  | delModel m => exact rel_delModel h m
  | delLib l => exact rel_delLib h l
  | eval m =>
    refine ⟨?_, ?_⟩
    · cases hd : sp.mdls m with
      | none => simp only [St.step, SSt.step, SSt.evaluate, hd, (h.mdls m).1 hd]
      | some d =>
        obtain ⟨e, he⟩ := h.mdl_some hd
        simp only [St.step, SSt.step, he]
        exact evaluate_eq h (by rw [hd]; simp)
    · cases hd : sp.mdls m with
      | none => simp only [St.step, SSt.step, (h.mdls m).1 hd]; exact h
      | some d =>
        obtain ⟨e, he⟩ := h.mdl_some hd
        simp only [St.step, SSt.step, he]
        exact h
  | asAtomic m => exact rel_asAtomic h m
  | evalAtomic a =>
    cases ha : sp.atoms a with
    | none => simp only [St.step, SSt.step, h.atoms, ha]; exact ⟨trivial, h⟩
    | some m =>
      simp only [St.step, SSt.step, h.atoms, ha]
      exact ⟨evaluate_eq h (h.atom a m ha).1, h⟩
  | moveLib l => exact rel_moveLib h l hok
  | moveModel m => exact rel_moveModel h m hok

theorem rel_run : ∀ (as : List Act) (sp : SSt) (st : St), Rel sp st → sp.Careful as → st.run as = sp.run as := by
  intro as
  induction as with
  | nil => intro sp st _ _; rfl
  | cons a as ih =>
    intro sp st h hc
    obtain ⟨h1, h2⟩ := rel_step h a hc.1
    show (st.step a).1 :: (st.step a).2.run as = (sp.step a).1 :: (sp.step a).2.run as
    rw [h1, ih _ _ h2 hc.2]

/-- the specification has no undefined behaviour -/
theorem spec_evaluate_ne_ub (m : Nat) : sp.evaluate m ≠ .ub := by
  unfold SSt.evaluate
  split
  · simp
  · split
    · simp
    · split <;> simp

theorem spec_step_ne_ub (a : Act) : (sp.step a).1 ≠ .ub := by
  cases a with
  | openLib names => simp [SSt.step]
  | getModel l name =>
    simp only [SSt.step]
    split
    · simp
    · split <;> simp
  | delModel m => simp only [SSt.step]; split <;> simp
  | delLib l =>
    simp only [SSt.step]
    split
    · simp
    · simp only
      split <;> simp
  | eval m => exact spec_evaluate_ne_ub m
  | asAtomic m =>
    simp only [SSt.step]
    split
    · simp
    · split <;> simp
  | evalAtomic a =>
    simp only [SSt.step]
    split
    · simp
    · exact spec_evaluate_ne_ub _
  | moveLib l => simp only [SSt.step]; split <;> simp
  | moveModel m => simp only [SSt.step]; split <;> simp

theorem spec_run_ne_ub : ∀ (as : List Act) (sp : SSt), .ub ∉ sp.run as := by
  intro as
  induction as with
  | nil => intro sp h; cases h
  | cons a as ih =>
    intro sp h
    rcases List.mem_cons.1 h with h | h
    · exact spec_step_ne_ub a h.symm
    · exact ih _ h

theorem careful_of_noMoves : ∀ (as : List Act) (sp : SSt), NoMoves as → sp.Careful as := by
  intro as
  induction as with
  | nil => intro _ _; trivial
  | cons a as ih =>
    intro sp h
    refine ⟨?_, ih _ fun x hx => h x (by simp [hx])⟩
    have := h a (by simp)
    cases a with
    | moveLib l => exact absurd rfl (this.1 l)
    | moveModel m => exact absurd rfl (this.2 m)
    | _ => trivial

end Verif.Library
