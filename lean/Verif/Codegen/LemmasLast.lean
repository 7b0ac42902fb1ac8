import Verif.Codegen.LemmasOrder
/- Reordering does nothing; last use of every variable. -/
namespace Verif.Codegen
variable {α : Type}

section
variable {G : Graph α} {rank : Nat → Nat} {fuel : Nat} {indeps : List Nat} {deps : List (Arg α)}
  {cnt vid0 vid : Nat → Nat} {minTemp idCount : Nat} {queue : List Nat} {ord : Nat → Nat}

theorem rank_lt (wf : WF G rank fuel indeps deps) (n : Nat) (h : Reach G (argNodes deps) n) :
    rank n < fuel := by
  induction h with
  | root hd => exact wf.depth _ hd
  | kid hr hm ih => have := wf.acyclic _ hr _ hm; omega

/-! ### reordering -/

theorem findLast_spec (wf : WF G rank fuel indeps deps) (d : Nat) : ∀ (k n acc : Nat),
    Reach G (argNodes deps) n → rank n < k →
    ∃ r, findLast G ord d k n acc = .ok r ∧ acc ≤ r := by
  intro k
  induction k with
  | zero => intro n _ _ h; omega
  | succ k ih =>
    intro n acc hr hk
    unfold findLast
    apply foldE_inv (P := fun r => acc ≤ r)
    · exact Nat.le_refl _
    · intro s a ha hs
      split
      · have hlt := wf.acyclic n hr a ha
        obtain ⟨r, e, h⟩ := ih a s (.kid hr ha) (by omega)
        exact ⟨r, e, by omega⟩
      · exact ⟨_, rfl, by omega⟩

theorem reorderAll_ok (wf : WF G rank fuel indeps deps) (isTemp : Nat → Bool) :
    ∃ v, reorderAll G ord isTemp queue fuel (argNodes deps) = .ok v := by
  unfold reorderAll
  obtain ⟨v, hv, _⟩ := foldE_inv (f := reorderOne G ord isTemp queue fuel) (P := fun _ => True)
    (argNodes deps) (fun _ => false) trivial (by
      intro s n hn _
      have hfin : ∃ r, (if s n then Except.ok (ord n) else findLast G ord (ord n) fuel n (ord n)) =
          .ok r ∧ ord n ≤ r := by
        split
        · exact ⟨_, rfl, Nat.le_refl _⟩
        · exact findLast_spec wf (ord n) fuel n (ord n) (.root hn) (wf.depth n hn)
      obtain ⟨r, e, hr⟩ := hfin
      unfold reorderOne
      rw [e]
      simp only
      split
      · exact ⟨_, rfl, trivial⟩
      · rw [if_neg]
        · exact ⟨_, rfl, trivial⟩
        · simp only [List.any_eq_true, List.mem_range, Bool.and_eq_true, decide_eq_true_eq, not_exists]
          rintro l ⟨h1, h2, _⟩
          omega)
  exact ⟨v, hv⟩

/-! ### aliases -/

theorem followAlias_spec (wf : WF G rank fuel indeps deps) : ∀ (k a : Nat),
    Reach G (argNodes deps) a → rank a < k →
    ∃ t, followAlias G k a = .ok (some t) ∧ ∀ t', FA G a t' → t' = t := by
  intro k
  induction k with
  | zero => intro a _ h; omega
  | succ k ih =>
    intro a hr hk
    unfold followAlias
    by_cases ha : (G a).op = .alias
    · obtain ⟨m, hm, hkm⟩ := shape_alias (wf.shape a hr) ha
      rw [if_pos ha, hm]
      have hmem : m ∈ kids G a := by rw [hkm]; simp
      have hlt := wf.acyclic a hr m hmem
      obtain ⟨t, e, h⟩ := ih m (.kid hr hmem) (by omega)
      refine ⟨t, e, ?_⟩
      intro t' ht'
      cases ht' with
      | here h' => exact absurd ha h'
      | step _ hm' hfa =>
        rw [hkm, List.mem_singleton] at hm'
        subst hm'
        exact h t' hfa
    · rw [if_neg ha]
      refine ⟨a, rfl, ?_⟩
      intro t' ht'
      cases ht' with
      | here _ => rfl
      | step h' _ _ => exact absurd h' ha

/-- a variable read by a statement is an argument (behind aliases) of the statement or of an operation
written out in it which is not an alias -/
theorem leaf_use (roots : List Nat) {q : Nat} (hq : Reach G roots q)
    (hali : ∀ n, Reach G roots n → ∀ m ∈ kids G n, (G m).op = .alias → vid m = 0) {a t : Nat}
    (hl : Leaf G vid a t) : ∀ (p a0 : Nat), (p = q ∨ Inl G vid q p ∧ (G p).op ≠ .alias) →
    a0 ∈ kids G p → Reach G roots a → (∃ n, Reach G roots n ∧ a ∈ kids G n) →
    (vid a = 0 → Inl G vid q a) → (∀ t', FA G a t' → FA G a0 t') →
    ∃ p a0, (p = q ∨ Inl G vid q p ∧ (G p).op ≠ .alias) ∧ a0 ∈ kids G p ∧ FA G a0 t := by
  induction hl with
  | self hv =>
    rename_i t
    intro p a0 hp ha0 hr hpar _ hfa
    obtain ⟨n, hn, hk⟩ := hpar
    have : (G t).op ≠ .alias := fun h => hv (hali n hn t hk h)
    exact ⟨p, a0, hp, ha0, hfa t (.here this)⟩
  | step hv ha _hl ih =>
    rename_i m b t
    intro p a0 hp ha0 hr hpar hinl hfa
    have hm := hinl hv
    by_cases hal : (G m).op = .alias
    · exact ih p a0 hp ha0 (.kid hr ha) ⟨m, hr, ha⟩ (fun hb => .step hm ha hb)
        (fun t' h' => hfa t' (.step hal ha h'))
    · exact ih m b (Or.inr ⟨hm, hal⟩) ha (.kid hr ha) ⟨m, hr, ha⟩ (fun hb => .step hm ha hb)
        (fun t' h' => h')

/-! ### last use -/

/-- everything visited, except `X`, has been taken into account -/
def LCl (G : Graph α) (ord : Nat → Nat) (s : LSt) (X : List Nat) : Prop :=
  ∀ w, s.visited w = true → w ∉ X → ∀ a ∈ kids G w, s.visited a = true ∧
    ∀ t, FA G a t → ord w ≤ s.last t

/-- growth of the state; every recorded use is the order of some node -/
structure LStep (ord : Nat → Nat) (s s' : LSt) : Prop where
  vis : ∀ w, s.visited w = true → s'.visited w = true
  last : ∀ w, s.last w ≤ s'.last w
  val : ∀ w, s'.last w = s.last w ∨ ∃ n, s'.last w = ord n

theorem LStep.refl (s : LSt) : LStep ord s s := ⟨fun _ h => h, fun _ => Nat.le_refl _, fun _ => Or.inl rfl⟩

theorem LStep.trans {a b c : LSt} (h1 : LStep ord a b) (h2 : LStep ord b c) : LStep ord a c := by
  refine ⟨fun w h => h2.vis w (h1.vis w h), fun w => Nat.le_trans (h1.last w) (h2.last w), ?_⟩
  intro w
  rcases h2.val w with h | h
  · rw [h]; exact h1.val w
  · exact Or.inr h

theorem LCl.mono_last {s s' : LSt} {X : List Nat} (h : LCl G ord s X)
    (hv : s'.visited = s.visited) (hl : ∀ w, s.last w ≤ s'.last w) : LCl G ord s' X := by
  intro w hw hX a ha
  rw [hv] at hw ⊢
  obtain ⟨h1, h2⟩ := h w hw hX a ha
  exact ⟨h1, fun t ht => Nat.le_trans (h2 t ht) (hl t)⟩

theorem useArg_spec (wf : WF G rank fuel indeps deps) (n a : Nat) (s : LSt)
    (hr : Reach G (argNodes deps) a) :
    ∃ s', useArg G ord fuel n s a = .ok s' ∧ s'.visited = s.visited ∧ LStep ord s s' ∧
      ∀ t, FA G a t → ord n ≤ s'.last t := by
  obtain ⟨t, e, ht⟩ := followAlias_spec wf fuel a hr (rank_lt wf a hr)
  unfold useArg
  rw [e]
  simp only
  by_cases hlt : s.last t < ord n
  · rw [if_pos hlt]
    refine ⟨_, rfl, rfl, ⟨fun _ h => h, ?_, ?_⟩, ?_⟩
    · intro w; simp only [upd_apply]; split
      · rename_i h; subst h; omega
      · exact Nat.le_refl _
    · intro w; simp only [upd_apply]; split
      · exact Or.inr ⟨n, rfl⟩
      · exact Or.inl rfl
    · intro t' ht'; rw [ht t' ht']; simp
  · rw [if_neg hlt]
    refine ⟨s, rfl, rfl, .refl s, ?_⟩
    intro t' ht'; rw [ht t' ht']; omega

theorem lastUse_spec (wf : WF G rank fuel indeps deps) : ∀ (k n : Nat) (s : LSt) (X : List Nat),
    Reach G (argNodes deps) n → rank n < k → LCl G ord s X →
    ∃ s', lastUse G ord fuel k n s = .ok s' ∧ s'.visited n = true ∧ LCl G ord s' X ∧
      LStep ord s s' := by
  intro k
  induction k with
  | zero => intro n _ _ _ h; omega
  | succ k ih =>
    intro n s X hr hk hcl
    unfold lastUse
    simp only
    have hstep0 : LStep ord s { s with visited := upd s.visited n true } := by
      refine ⟨?_, fun _ => Nat.le_refl _, fun _ => Or.inl rfl⟩
      intro w hw; simp only [upd_apply]; split <;> simp [hw]
    have hcl0 : LCl G ord { s with visited := upd s.visited n true } (n :: X) := by
      intro w hw hX a ha
      simp only [List.mem_cons, not_or] at hX
      simp only [upd_ne _ _ hX.1] at hw
      obtain ⟨h1, h2⟩ := hcl w hw hX.2 a ha
      exact ⟨hstep0.vis a h1, h2⟩
    have hfold : ∀ (l : List Nat), (∀ a ∈ l, a ∈ kids G n) → ∀ s, LCl G ord s (n :: X) →
        ∃ s', foldE (fun t a => lastUse G ord fuel k a t) s l = .ok s' ∧
        (∀ a ∈ l, s'.visited a = true) ∧ LCl G ord s' (n :: X) ∧ LStep ord s s' := by
      intro l
      induction l with
      | nil => intro _ s hs; exact ⟨s, rfl, by simp, hs, .refl s⟩
      | cons a l ihl =>
        intro hm s hs
        have hak := hm a (by simp)
        have hlt := wf.acyclic n hr a hak
        obtain ⟨s1, e1, v1, c1, o1⟩ := ih a s (n :: X) (.kid hr hak) (by omega) hs
        obtain ⟨s2, e2, v2, c2, o2⟩ := ihl (fun b hb => hm b (List.mem_cons_of_mem _ hb)) s1 c1
        refine ⟨s2, by simp [foldE, e1, e2], ?_, c2, o1.trans o2⟩
        intro b hb
        rcases List.mem_cons.1 hb with rfl | hb
        · exact o2.vis _ v1
        · exact v2 b hb
    obtain ⟨s2, e2, v2, c2, o2⟩ := hfold
      (((kids G n).filter (fun a => !(upd s.visited n true a))).reverse)
      (by intro a ha; simp only [List.mem_reverse, List.mem_filter] at ha; exact ha.1) _ hcl0
    rw [e2]
    simp only
    have hfold2 : ∀ (l : List Nat), (∀ a ∈ l, a ∈ kids G n) → ∀ s,
        ∃ s', foldE (useArg G ord fuel n) s l = .ok s' ∧ s'.visited = s.visited ∧ LStep ord s s' ∧
        (∀ a ∈ l, ∀ t, FA G a t → ord n ≤ s'.last t) := by
      intro l
      induction l with
      | nil => intro _ s; exact ⟨s, rfl, rfl, .refl s, by simp⟩
      | cons a l ihl =>
        intro hm s
        have hak := hm a (by simp)
        obtain ⟨s1, e1, v1, o1, u1⟩ := useArg_spec (ord := ord) wf n a s (.kid hr hak)
        obtain ⟨s2, e2, v2, o2, u2⟩ := ihl (fun b hb => hm b (List.mem_cons_of_mem _ hb)) s1
        refine ⟨s2, by simp [foldE, e1, e2], by rw [v2, v1], o1.trans o2, ?_⟩
        intro b hb
        rcases List.mem_cons.1 hb with rfl | hb
        · intro t ht; exact Nat.le_trans (u1 t ht) (o2.last t)
        · exact u2 b hb
    obtain ⟨s3, e3, v3, o3, u3⟩ := hfold2 (kids G n) (fun _ h => h) s2
    have hc3 := c2.mono_last v3 o3.last
    refine ⟨s3, e3, ?_, ?_, (hstep0.trans o2).trans o3⟩
    · rw [v3]; exact o2.vis n (by simp)
    · intro w hw hX a ha
      by_cases hwn : w = n
      · subst hwn
        refine ⟨?_, fun t ht => u3 a ha t ht⟩
        rw [v3]
        by_cases hva : upd s.visited w true a = true
        · exact o2.vis a hva
        · apply v2
          simp only [List.mem_reverse, List.mem_filter]
          exact ⟨ha, by simp [hva]⟩
      · exact hc3 w hw (by simp [hwn, hX]) a ha

theorem lastUseAll_spec (wf : WF G rank fuel indeps deps) :
    ∃ s, lastUseAll G ord fuel (argNodes deps) = .ok s ∧
      (∀ w, Reach G (argNodes deps) w → ∀ a ∈ kids G w, ∀ t, FA G a t → ord w ≤ s.last t) ∧
      ∀ w, s.last w = 0 ∨ ∃ n, s.last w = ord n := by
  unfold lastUseAll
  have hfold : ∀ (l : List Nat), (∀ a ∈ l, a ∈ argNodes deps) → ∀ s, LCl G ord s [] →
      ∃ s', foldE (fun s n => if s.visited n then .ok s else lastUse G ord fuel fuel n s) s l =
        .ok s' ∧ (∀ a ∈ l, s'.visited a = true) ∧ LCl G ord s' [] ∧ LStep ord s s' := by
    intro l
    induction l with
    | nil => intro _ s hs; exact ⟨s, rfl, by simp, hs, .refl s⟩
    | cons a l ihl =>
      intro hm s hs
      have hak := hm a (by simp)
      have h1 : ∃ s', (if s.visited a then Except.ok s else lastUse G ord fuel fuel a s) = .ok s' ∧
          s'.visited a = true ∧ LCl G ord s' [] ∧ LStep ord s s' := by
        split
        · rename_i hv; exact ⟨s, rfl, hv, hs, .refl s⟩
        · exact lastUse_spec wf fuel a s [] (.root hak) (wf.depth a hak) hs
      obtain ⟨s1, e1, v1, c1, o1⟩ := h1
      obtain ⟨s2, e2, v2, c2, o2⟩ := ihl (fun b hb => hm b (List.mem_cons_of_mem _ hb)) s1 c1
      refine ⟨s2, by simp [foldE, e1, e2], ?_, c2, o1.trans o2⟩
      intro b hb
      rcases List.mem_cons.1 hb with rfl | hb
      · exact o2.vis _ v1
      · exact v2 b hb
  obtain ⟨s, e, v, c, o⟩ := hfold (argNodes deps) (fun _ h => h) ⟨fun _ => false, fun _ => 0⟩
    (by intro w hw; simp at hw)
  refine ⟨s, e, ?_, fun w => o.val w⟩
  have hvis : ∀ w, Reach G (argNodes deps) w → s.visited w = true := by
    intro w hr
    induction hr with
    | root hd => exact v _ hd
    | kid _ hm ih => exact (c _ ih (by simp) _ hm).1
  intro w hr a ha t ht
  exact (c w (hvis w hr) (by simp) a ha).2 t ht

/-- what the last use says about the statements -/
structure UFacts (G : Graph α) (vid : Nat → Nat) (minTemp : Nat) (queue : List Nat) (last : Nat → Nat) :
    Prop where
  read : ∀ i q t, queue[i]? = some q → Reads G vid q t → i + 1 ≤ last t
  le : ∀ t, last t ≤ queue.length
  temp : ∀ k t, queue[k]? = some t → minTemp ≤ vid t → k + 2 ≤ last t

theorem uFacts (wf : WF G rank fuel indeps deps) (cf : CountFacts G (argNodes deps) cnt)
    (idf : IdFacts indeps (argNodes deps) vid0 minTemp)
    (qf : QFacts G (argNodes deps) indeps cnt vid0 vid minTemp idCount queue)
    (of : OFacts G vid queue ord queue.length)
    {last : Nat → Nat}
    (hlast : ∀ w, Reach G (argNodes deps) w → ∀ a ∈ kids G w, ∀ t, FA G a t → ord w ≤ last t)
    (hval : ∀ w, last w = 0 ∨ ∃ n, last w = ord n) : UFacts G vid minTemp queue last := by
  have hlen : ∀ {j q}, queue[j]? = some q → j < queue.length := fun h =>
    (List.getElem?_eq_some_iff.1 h).1
  -- an operation written out in statement `i` has its order
  have hordI : ∀ i q p, queue[i]? = some q → Inl G vid q p → (G p).op ≠ .alias → i + 1 = ord p := by
    intro i q p hq hi hna
    have hqm := List.mem_of_getElem? hq
    have hpr := hi.reach (qf.qreach q hqm)
    have hnz : ord p ≠ 0 := by
      have h0 : ord q ≠ 0 := by rw [of.stmt i q (hlen hq) hq]; omega
      have : ∀ w, Inl G vid q w → ord w ≠ 0 := by
        intro w hw
        induction hw with
        | base ha _ => exact of.cl q h0 (by simp) _ ha
        | step _ ha _ ih => exact of.cl _ ih (by simp) _ ha
      exact this p hi
    obtain ⟨j, q', hj, hq', e, hi'⟩ := of.inl p hi.vid hnz
    have hqq := hi.unique cf qf hqm (List.mem_of_getElem? hq') (qf.inl p hpr hna hi.vid).1 hi'
    subst hqq
    have : i = j := (List.getElem?_inj (hlen hq) qf.nodup).1 (by rw [hq, hq'])
    omega
  have hali : ∀ n, Reach G (argNodes deps) n → ∀ m ∈ kids G n, (G m).op = .alias → vid m = 0 :=
    fun n hn m hm ha => qf.ali m (.kid hn hm) ha (wf.alias_dep n hn m hm ha)
  refine ⟨?_, ?_, ?_⟩
  · intro i q t hq ⟨a, ha, hl⟩
    have hqr := qf.qreach q (List.mem_of_getElem? hq)
    obtain ⟨p, a0, hp, ha0, hfa⟩ := leaf_use (argNodes deps) hqr hali hl q a (Or.inl rfl) ha
      (.kid hqr ha) ⟨q, hqr, ha⟩ (fun hv => .base ha hv) (fun _ h => h)
    rcases hp with rfl | ⟨hi, hna⟩
    · have := hlast p hqr a0 ha0 t hfa
      rw [of.stmt i p (hlen hq) hq] at this
      exact this
    · have := hlast p (hi.reach hqr) a0 ha0 t hfa
      rw [← hordI i q p hq hi hna] at this
      exact this
  · intro t
    rcases hval t with h | ⟨n, h⟩
    · omega
    · rw [h]; exact of.le n
  · intro k t hk hv
    have htm := List.mem_of_getElem? hk
    have htr := qf.qreach t htm
    have hz : vid0 t = 0 := by
      apply Classical.byContradiction
      intro hz
      rw [qf.vid_old t hz] at hv
      have := idf.lt t
      omega
    have hnr : t ∉ argNodes deps := fun h => (idf.nz t).2 (Or.inr h) hz
    have hna : (G t).op ≠ .alias := fun ha => qf.qvid t htm (qf.ali t htr ha hnr)
    cases htr with
    | root hd => exact absurd hd hnr
    | kid hp hm =>
      rename_i p
      have hle := hlast p hp t hm t (.here hna)
      -- the parent is a statement or is inlined in one
      have hstmt : ∀ j q, queue[j]? = some q → Reads G vid q t → k < j := by
        intro j q hq hr
        rcases qf.order j q t hq hr with h | h
        · exact absurd h (qf.qop t htm)
        · obtain ⟨k', hk', e⟩ := List.mem_take_iff_getElem.1 h
          have h2 : queue[k']? = some t := by rw [List.getElem?_eq_getElem (by omega), e]
          have : k = k' := (List.getElem?_inj (hlen hk) qf.nodup).1 (by rw [hk, h2])
          omega
      have htv : Leaf G vid t t := .self (qf.qvid t htm)
      by_cases hpv : vid p = 0
      · have hnz : ord p ≠ 0 := by
          have hall : ∀ n, Reach G (argNodes deps) n → (G n).op = .inv ∨ ord n ≠ 0 := by
            intro n hn
            induction hn with
            | root hd =>
              rename_i d
              by_cases hi : (G d).op = .inv
              · exact Or.inl hi
              · right
                obtain ⟨j, hj, e⟩ := List.mem_iff_getElem.1 (qf.root d hd hi)
                rw [of.stmt j d hj (by rw [List.getElem?_eq_getElem hj, e])]; omega
            | kid hr' hm' ih =>
              rename_i n' m'
              rcases ih with h | h
              · rw [shape_inv (wf.shape n' hr') h] at hm'; simp at hm'
              · right; exact of.cl n' h (by simp) m' hm'
          rcases hall p hp with h | h
          · rw [shape_inv (wf.shape p hp) h] at hm; simp at hm
          · exact h
        obtain ⟨j, q, hj, hq, e, hi⟩ := of.inl p hpv hnz
        have := hstmt j q hq (hi.reads (.step hpv hm htv))
        omega
      · rcases qf.var p hp hpv with h | h
        · rw [shape_inv (wf.shape p hp) h] at hm; simp at hm
        · obtain ⟨j, hj, e⟩ := List.mem_iff_getElem.1 h
          have hq : queue[j]? = some p := by rw [List.getElem?_eq_getElem hj, e]
          have h1 := of.stmt j p hj hq
          have := hstmt j p hq ⟨t, hm, htv⟩
          omega

end
end Verif.Codegen
