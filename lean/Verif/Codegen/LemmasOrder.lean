import Verif.Codegen.LemmasCreate
/- Evaluation order, reordering and last use of variables. -/
namespace Verif.Codegen
variable {α : Type}

/-- `w` has no variable and is written out inside the statement of `q` -/
inductive Inl (G : Graph α) (vid : Nat → Nat) (q : Nat) : Nat → Prop
  | base {a : Nat} : a ∈ kids G q → vid a = 0 → Inl G vid q a
  | step {p a : Nat} : Inl G vid q p → a ∈ kids G p → vid a = 0 → Inl G vid q a

/-- the operation behind a chain of aliases -/
inductive FA (G : Graph α) : Nat → Nat → Prop
  | here {a : Nat} : (G a).op ≠ .alias → FA G a a
  | step {a m t : Nat} : (G a).op = .alias → m ∈ kids G a → FA G m t → FA G a t

theorem Inl.vid {G : Graph α} {vid : Nat → Nat} {q w : Nat} (h : Inl G vid q w) : vid w = 0 := by
  cases h <;> assumption

theorem Inl.reach {G : Graph α} {vid : Nat → Nat} {roots : List Nat} {q w : Nat} (h : Inl G vid q w)
    (hq : Reach G roots q) : Reach G roots w := by
  induction h with
  | base ha _ => exact .kid hq ha
  | step _ ha _ ih => exact .kid ih ha

/-- variables read by an inlined node are read by the statement -/
theorem Inl.reads {G : Graph α} {vid : Nat → Nat} {q w : Nat} (h : Inl G vid q w) : ∀ {t},
    Leaf G vid w t → Reads G vid q t := by
  induction h with
  | base ha _ => intro t hl; exact ⟨_, ha, hl⟩
  | step _ ha hv ih =>
    rename_i p a hp
    intro t hl
    exact ih (.step hp.vid ha hl)

section
variable {G : Graph α} {rank : Nat → Nat} {fuel : Nat} {indeps : List Nat} {deps : List (Arg α)}
  {cnt vid0 vid : Nat → Nat} {minTemp idCount : Nat} {queue : List Nat}

/-- an operation written out in two statements would have been counted twice -/
theorem Inl.unique (cf : CountFacts G (argNodes deps) cnt)
    (qf : QFacts G (argNodes deps) indeps cnt vid0 vid minTemp idCount queue) {q : Nat}
    (hq : q ∈ queue) {w : Nat}
    (h : Inl G vid q w) : ∀ {q'}, q' ∈ queue → cnt w ≤ 1 → Inl G vid q' w → q = q' := by
  induction h with
  | base ha hv =>
    rename_i a
    intro q' hq' hc h'
    cases h' with
    | base ha' _ =>
      apply Classical.byContradiction
      intro hne
      have := cf.two_parents q q' a (qf.qreach q hq) (qf.qreach q' hq') hne ha ha'
      omega
    | step hp ha' _hv =>
      rename_i p
      have : q = p := by
        apply Classical.byContradiction
        intro hne
        have := cf.two_parents q p a (qf.qreach q hq) (hp.reach (qf.qreach q' hq')) hne ha ha'
        omega
      subst this
      exact absurd hp.vid (qf.qvid q hq)
  | step hp ha hv ih =>
    rename_i p a
    intro q' hq' hc h'
    have hpr := hp.reach (qf.qreach q hq)
    have hcp : cnt p ≤ 1 := by
      by_cases hal : (G p).op = .alias
      · apply Classical.byContradiction
        intro hgt
        have := cf.alias_two p a hpr hal (by omega) ha
        omega
      · exact (qf.inl p hpr hal hp.vid).1
    cases h' with
    | base ha' _ =>
      have : p = q' := by
        apply Classical.byContradiction
        intro hne
        have := cf.two_parents p q' a hpr (qf.qreach q' hq') hne ha ha'
        omega
      subst this
      exact absurd hp.vid (qf.qvid p hq')
    | step hp' ha' _hv =>
      rename_i p'
      have : p = p' := by
        apply Classical.byContradiction
        intro hne
        have := cf.two_parents p p' a hpr (hp'.reach (qf.qreach q' hq')) hne ha ha'
        omega
      subst this
      exact ih hq' hcp hp'

/-! ### order -/

/-- closure of the ordered nodes, except for those being processed -/
def Cl (G : Graph α) (ord : Nat → Nat) (X : List Nat) : Prop :=
  ∀ w, ord w ≠ 0 → w ∉ X → ∀ a ∈ kids G w, ord a ≠ 0

/-- nodes given an order while processing statement `q` with order `o` -/
structure OrdStep (G : Graph α) (vid : Nat → Nat) (q o : Nat) (ord ord' : Nat → Nat) : Prop where
  keep : ∀ w, ord w ≠ 0 → ord' w = ord w
  new : ∀ w, ord w = 0 → ord' w ≠ 0 → ord' w = o ∧ ((vid w ≠ 0 ∧ (G w).op = .inv) ∨ Inl G vid q w)

theorem OrdStep.refl {q o : Nat} (ord : Nat → Nat) : OrdStep G vid q o ord ord :=
  ⟨fun _ _ => rfl, fun _ h h' => absurd h h'⟩

theorem OrdStep.trans {q o : Nat} {a b c : Nat → Nat} (h1 : OrdStep G vid q o a b)
    (h2 : OrdStep G vid q o b c) : OrdStep G vid q o a c := by
  refine ⟨?_, ?_⟩
  · intro w hw
    have := h1.keep w hw
    rw [h2.keep w (by rw [this]; exact hw), this]
  · intro w hw hc
    by_cases hb : b w = 0
    · exact h2.new w hb hc
    · have := h1.new w hw hb
      rw [h2.keep w hb]; exact this

theorem order_spec (wf : WF G rank fuel indeps deps) {q o : Nat} (ho : o ≠ 0) :
    ∀ (k m : Nat) (ord : Nat → Nat) (X : List Nat), Reach G (argNodes deps) m → rank m < k →
    Cl G ord X →
    (∀ t, Leaf G vid m t → (G t).op = .inv ∨ ord t ≠ 0) →
    (vid m = 0 → Inl G vid q m) →
    ∃ ord', order G k o m ord = .ok ord' ∧ ord' m ≠ 0 ∧ Cl G ord' X ∧
      OrdStep G vid q o ord ord' := by
  intro k
  induction k with
  | zero => intro m _ _ _ h; omega
  | succ k ih =>
    intro m ord X hr hk hcl hleaf hinl
    unfold order
    by_cases hz : ord m = 0
    · rw [if_pos hz]
      -- either an independent or an inlined operation
      have hkind : (vid m ≠ 0 ∧ (G m).op = .inv) ∨ vid m = 0 := by
        by_cases hv : vid m = 0
        · exact Or.inr hv
        · rcases hleaf m (.self hv) with h | h
          · exact Or.inl ⟨hv, h⟩
          · exact absurd hz h
      have hstep0 : OrdStep G vid q o ord (upd ord m o) := by
        refine ⟨?_, ?_⟩
        · intro w hw
          have : w ≠ m := by rintro rfl; exact hw hz
          simp [this]
        · intro w hw hw'
          by_cases hwm : w = m
          · subst hwm
            refine ⟨by simp, ?_⟩
            rcases hkind with h | h
            · exact Or.inl h
            · exact Or.inr (hinl h)
          · simp [hwm, hw] at hw'
      have hcl0 : Cl G (upd ord m o) (m :: X) := by
        intro w hw hwX a ha
        simp only [List.mem_cons, not_or] at hwX
        rw [upd_ne _ _ hwX.1] at hw
        have := hcl w hw hwX.2 a ha
        rw [upd_apply]; split
        · exact ho
        · exact this
      have hfold : ∀ (l : List Nat), (∀ a ∈ l, a ∈ kids G m) → ∀ s, OrdStep G vid q o ord s →
          Cl G s (m :: X) → ∃ s', foldE (fun s a => order G k o a s) s l = .ok s' ∧
          (∀ a ∈ l, s' a ≠ 0) ∧ Cl G s' (m :: X) ∧ OrdStep G vid q o s s' := by
        intro l
        induction l with
        | nil => intro _ s _ hs; exact ⟨s, rfl, by simp, hs, .refl s⟩
        | cons a l ihl =>
          intro hm s hos hs
          have hak := hm a (by simp)
          have hlt := wf.acyclic m hr a hak
          have hvm : vid m = 0 := by
            rcases hkind with h | h
            · rw [shape_inv (wf.shape m hr) h.2] at hak; simp at hak
            · exact h
          obtain ⟨s1, e1, n1, c1, o1⟩ := ih a s (m :: X) (.kid hr hak) (by omega) hs
            (by intro t ht
                rcases hleaf t (.step hvm hak ht) with h | h
                · exact Or.inl h
                · right; rw [hos.keep t h]; exact h)
            (fun hv => .step (hinl hvm) hak hv)
          obtain ⟨s2, e2, n2, c2, o2⟩ := ihl (fun b hb => hm b (List.mem_cons_of_mem _ hb)) s1
            (hos.trans o1) c1
          refine ⟨s2, by simp [foldE, e1, e2], ?_, c2, o1.trans o2⟩
          intro b hb
          rcases List.mem_cons.1 hb with rfl | hb
          · rw [o2.keep _ n1]; exact n1
          · exact n2 b hb
      obtain ⟨s', e', n', c', o'⟩ := hfold (kids G m) (fun _ h => h) _ hstep0 hcl0
      refine ⟨s', e', ?_, ?_, hstep0.trans o'⟩
      · rw [o'.keep m (by simpa using ho)]; simpa using ho
      · intro w hw hwX a ha
        by_cases hwm : w = m
        · subst hwm; exact n' a ha
        · exact c' w hw (by simp [hwm, hwX]) a ha
    · rw [if_neg hz]
      exact ⟨ord, rfl, hz, hcl, .refl ord⟩

/-- what the order says -/
structure OFacts (G : Graph α) (vid : Nat → Nat) (queue : List Nat) (ord : Nat → Nat) (i : Nat) :
    Prop where
  stmt : ∀ j q, j < i → queue[j]? = some q → ord q = j + 1
  late : ∀ j q, i ≤ j → queue[j]? = some q → ord q = 0
  inl : ∀ w, vid w = 0 → ord w ≠ 0 → ∃ j q, j < i ∧ queue[j]? = some q ∧ ord w = j + 1 ∧
    Inl G vid q w
  cl : Cl G ord []
  le : ∀ n, ord n ≤ i

theorem orderAll_spec (wf : WF G rank fuel indeps deps)
    (hrank : ∀ n, Reach G (argNodes deps) n → rank n < fuel)
    (qf : QFacts G (argNodes deps) indeps cnt vid0 vid minTemp idCount queue) :
    ∀ (l : List Nat) (i : Nat) (ord : Nat → Nat), queue.drop i = l → i ≤ queue.length →
    OFacts G vid queue ord i →
    ∃ ord', orderAll G fuel i l ord = .ok ord' ∧ OFacts G vid queue ord' queue.length := by
  intro l
  induction l with
  | nil =>
    intro i ord hl hle h
    refine ⟨ord, rfl, ?_⟩
    have hi : queue.length ≤ i := by
      rw [List.drop_eq_nil_iff] at hl; exact hl
    refine ⟨?_, ?_, ?_, h.cl, fun n => by have := h.le n; omega⟩
    · intro j q hj hq; exact h.stmt j q (by omega) hq
    · intro j q hj hq
      rw [List.getElem?_eq_none hj] at hq; cases hq
    · intro w hv ho
      obtain ⟨j, q, _, hq, e, hi'⟩ := h.inl w hv ho
      exact ⟨j, q, (List.getElem?_eq_some_iff.1 hq).1, hq, e, hi'⟩
  | cons q l ih =>
    intro i ord hl _ h
    have hi : i < queue.length := by
      apply Classical.byContradiction
      intro hge
      rw [List.drop_eq_nil_of_le (by omega)] at hl; cases hl
    have hdrop := List.drop_eq_getElem_cons hi
    rw [hl] at hdrop
    obtain ⟨hqe, hle⟩ := List.cons.inj hdrop
    have hqi : queue[i]? = some q := by rw [List.getElem?_eq_getElem hi, hqe]
    have hqm : q ∈ queue := List.mem_of_getElem? hqi
    have hqr := qf.qreach q hqm
    unfold orderAll
    have hcl0 : Cl G (upd ord q (i + 1)) [q] := by
      intro w hw hwX a ha
      simp only [List.mem_singleton] at hwX
      rw [upd_ne _ _ hwX] at hw
      have := h.cl w hw (by simp) a ha
      rw [upd_apply]; split <;> omega
    have hread : ∀ t, Reads G vid q t → (G t).op = .inv ∨ ord t ≠ 0 := by
      intro t ht
      rcases qf.order i q t hqi ht with h1 | h1
      · exact Or.inl h1
      · right
        obtain ⟨j, hj, hjt⟩ := List.mem_take_iff_getElem.1 h1
        have : queue[j]? = some t := by rw [List.getElem?_eq_getElem (by omega), hjt]
        rw [h.stmt j t (by omega) this]; omega
    have hfold : ∀ (l : List Nat), (∀ a ∈ l, a ∈ kids G q) → ∀ s,
        OrdStep G vid q (i + 1) (upd ord q (i + 1)) s →
        Cl G s [q] → ∃ s', foldE (fun s a => order G fuel (i + 1) a s) s l = .ok s' ∧
        (∀ a ∈ l, s' a ≠ 0) ∧ Cl G s' [q] ∧ OrdStep G vid q (i + 1) s s' := by
      intro l
      induction l with
      | nil => intro _ s _ hs; exact ⟨s, rfl, by simp, hs, .refl s⟩
      | cons a l ihl =>
        intro hm s hos hs
        have hak := hm a (by simp)
        obtain ⟨s1, e1, n1, c1, o1⟩ := order_spec (vid := vid) (q := q) wf (o := i + 1) (by omega)
          fuel a s [q] (.kid hqr hak) (hrank a (.kid hqr hak)) hs
          (by intro t ht
              rcases hread t ⟨a, hak, ht⟩ with h | h
              · exact Or.inl h
              · right
                have h' : upd ord q (i + 1) t ≠ 0 := by
                  rw [upd_apply]; split <;> omega
                rw [hos.keep t h']; exact h')
          (fun hv => .base hak hv)
        obtain ⟨s2, e2, n2, c2, o2⟩ := ihl (fun b hb => hm b (List.mem_cons_of_mem _ hb)) s1
          (hos.trans o1) c1
        refine ⟨s2, by simp [foldE, e1, e2], ?_, c2, o1.trans o2⟩
        intro b hb
        rcases List.mem_cons.1 hb with rfl | hb
        · rw [o2.keep _ n1]; exact n1
        · exact n2 b hb
    obtain ⟨s', e', n', c', o'⟩ := hfold (kids G q) (fun _ h => h) _ (.refl _) hcl0
    rw [e']
    apply ih (i + 1) s' hle.symm (by omega)
    have hne : ∀ j r, queue[j]? = some r → j ≠ i → r ≠ q := by
      intro j r hj hji hrq
      subst hrq
      exact hji ((List.getElem?_inj (List.getElem?_eq_some_iff.1 hj).1 qf.nodup).1 (by rw [hj, hqi]))
    refine ⟨?_, ?_, ?_, ?_, ?_⟩
    · intro j r hj hr
      by_cases hji : j = i
      · subst hji
        rw [hqi] at hr
        cases hr
        rw [o'.keep q (by simp)]; simp
      · have h1 := h.stmt j r (by omega) hr
        have h2 : upd ord q (i + 1) r = j + 1 := by rw [upd_ne _ _ (hne j r hr hji), h1]
        rw [o'.keep r (by omega), h2]
    · intro j r hj hr
      have h1 := h.late j r (by omega) hr
      have h2 : upd ord q (i + 1) r = 0 := by rw [upd_ne _ _ (hne j r hr (by omega)), h1]
      apply Classical.byContradiction
      intro hnz
      have hrm := List.mem_of_getElem? hr
      rcases (o'.new r h2 hnz).2 with h3 | h3
      · exact qf.qop r hrm h3.2
      · exact qf.qvid r hrm h3.vid
    · intro w hv hw
      by_cases hz : upd ord q (i + 1) w = 0
      · obtain ⟨e1, h2⟩ := o'.new w hz hw
        rcases h2 with h2 | h2
        · exact absurd hv h2.1
        · exact ⟨i, q, by omega, hqi, e1, h2⟩
      · have hwq : w ≠ q := by
          rintro rfl; exact qf.qvid _ hqm hv
        rw [o'.keep w hz, upd_ne _ _ hwq]
        rw [upd_ne _ _ hwq] at hz
        obtain ⟨j, r, hj, hr, e, hi'⟩ := h.inl w hv hz
        exact ⟨j, r, by omega, hr, e, hi'⟩
    · intro w hw _ a ha
      by_cases hwq : w = q
      · subst hwq; exact n' a ha
      · exact c' w hw (by simp [hwq]) a ha
    · intro w
      by_cases hz : upd ord q (i + 1) w = 0
      · by_cases hw : s' w = 0
        · omega
        · exact Nat.le_of_eq (o'.new w hz hw).1
      · rw [o'.keep w hz, upd_apply]
        have := h.le w
        split <;> omega

end
end Verif.Codegen
