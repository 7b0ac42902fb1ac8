import Verif.Codegen.LemmasIds
/- Creation of variables (`create`). -/
namespace Verif.Codegen
variable {α : Type}

/-- variables read when node `m` is used as an argument -/
inductive Leaf (G : Graph α) (vid : Nat → Nat) : Nat → Nat → Prop
  | self {m : Nat} : vid m ≠ 0 → Leaf G vid m m
  | step {m a t : Nat} : vid m = 0 → a ∈ kids G m → Leaf G vid a t → Leaf G vid m t

/-- variables read by the statement of node `n` -/
def Reads (G : Graph α) (vid : Nat → Nat) (n t : Nat) : Prop := ∃ a ∈ kids G n, Leaf G vid a t

/-- node has been processed (aliases are never marked, they are processed with their argument) -/
inductive Done (G : Graph α) (roots : List Nat) (visited : Nat → Bool) : Nat → Prop
  | vis {m : Nat} : visited m = true → Done G roots visited m
  | ali {m : Nat} : (G m).op = .alias → m ∉ roots → (∀ a ∈ kids G m, Done G roots visited a) →
      Done G roots visited m

theorem Done.mono {G : Graph α} {roots : List Nat} {v v' : Nat → Bool}
    (h : ∀ n, v n = true → v' n = true) {m : Nat} (hd : Done G roots v m) : Done G roots v' m := by
  induction hd with
  | vis hv => exact .vis (h _ hv)
  | ali h1 h2 _ ih => exact .ali h1 h2 ih

structure CInv (G : Graph α) (roots indeps : List Nat) (cnt vid0 : Nat → Nat) (minTemp : Nat)
    (st : CSt) : Prop where
  nodup : st.queue.Nodup
  qvis : ∀ n ∈ st.queue, st.visited n = true
  qop : ∀ n ∈ st.queue, (G n).op ≠ .inv
  qreach : ∀ n ∈ st.queue, Reach G roots n
  qvid : ∀ n ∈ st.queue, st.vid n ≠ 0
  vid_old : ∀ n, vid0 n ≠ 0 → st.vid n = vid0 n
  vid_new : ∀ n, vid0 n = 0 → st.vid n ≠ 0 →
    n ∈ st.queue ∧ minTemp ≤ st.vid n ∧ st.vid n < st.idCount ∧ (G n).op ≠ .alias
  vid_inj : ∀ n m, vid0 n = 0 → vid0 m = 0 → st.vid n ≠ 0 → st.vid n = st.vid m → n = m
  idc : minTemp ≤ st.idCount
  closed : ∀ n, st.visited n = true → ∀ m ∈ kids G n, Done G roots st.visited m
  leafok : ∀ m t, Done G roots st.visited m → Leaf G st.vid m t → (G t).op = .inv ∨ t ∈ st.queue
  order : ∀ i q t, st.queue[i]? = some q → Reads G st.vid q t →
    (G t).op = .inv ∨ t ∈ st.queue.take i
  inl : ∀ n, st.visited n = true → st.vid n = 0 →
    cnt n ≤ 1 ∧ (∀ c, (G n).op ≠ .cond c) ∧ (G n).op ≠ .assign ∧
      ∀ p, Reach G roots p → n ∈ kids G p → (G p).op ≠ .sign

section
variable {G : Graph α} {rank : Nat → Nat} {fuel : Nat} {indeps : List Nat} {deps : List (Arg α)}
  {cnt vid0 : Nat → Nat} {minTemp maxOps : Nat}

theorem leaf_transfer {roots : List Nat} {visited : Nat → Bool} {vid : Nat → Nat} {n x : Nat}
    (hcl : ∀ n, visited n = true → ∀ m ∈ kids G n, Done G roots visited m)
    (hn : visited n ≠ true) (hna : (G n).op ≠ .alias) {m t : Nat}
    (hl : Leaf G (upd vid n x) m t) : Done G roots visited m → Leaf G vid m t := by
  induction hl with
  | self h =>
    rename_i m
    intro hd
    have hne : m ≠ n := by
      rintro rfl
      cases hd with
      | vis hv => exact hn hv
      | ali ha _ _ => exact hna ha
    rw [upd_ne _ _ hne] at h
    exact .self h
  | step h ha _hl ih =>
    rename_i m a t
    intro hd
    have hne : m ≠ n := by
      rintro rfl
      cases hd with
      | vis hv => exact hn hv
      | ali ha _ _ => exact hna ha
    rw [upd_ne _ _ hne] at h
    refine .step h ha (ih ?_)
    cases hd with
    | vis hv => exact hcl _ hv _ ha
    | ali _ _ hk => exact hk _ ha

/-- marking a node visited without creating a variable for it -/
theorem CInv.markOnly {roots : List Nat} {st : CSt} {oc : Nat → Nat} (n : Nat)
    (idf : IdFacts indeps roots vid0 minTemp)
    (h : CInv G roots indeps cnt vid0 minTemp st)
    (hali : (G n).op ≠ .alias)
    (hindep : ∀ m, m ∈ indeps → (G m).op = .inv)
    (hkids : ∀ m ∈ kids G n, Done G roots st.visited m)
    (hcase : (st.vid n ≠ 0 ∧ (G n).op = .inv) ∨
      (st.vid n = 0 ∧ cnt n ≤ 1 ∧ (∀ c, (G n).op ≠ .cond c) ∧ (G n).op ≠ .assign ∧
        ∀ p, Reach G roots p → n ∈ kids G p → (G p).op ≠ .sign)) :
    CInv G roots indeps cnt vid0 minTemp
      { st with visited := upd st.visited n true, opCount := oc } := by
  have hmono : ∀ m, st.visited m = true → upd st.visited n true m = true := by
    intro m hm; rw [upd_apply]; split <;> simp [hm]
  refine ⟨h.nodup, fun m hm => hmono m (h.qvis m hm), h.qop, h.qreach, h.qvid, h.vid_old,
    h.vid_new, h.vid_inj, h.idc, ?_, ?_, h.order, ?_⟩
  · intro m hm a ha
    simp only [upd_apply] at hm
    split at hm
    · rename_i heq; subst heq
      exact (hkids a ha).mono hmono
    · exact (h.closed m hm a ha).mono hmono
  · intro m t hd hl
    induction hd generalizing t with
    | vis hv =>
      rename_i m
      simp only [upd_apply] at hv
      split at hv
      · rename_i heq; subst heq
        cases hl with
        | self hv => exact Or.inl (by
            rcases hcase with hc | hc
            · exact hc.2
            · exact absurd hc.1 hv)
        | step hv ha hl' => exact h.leafok _ _ (hkids _ ha) hl'
      · exact h.leafok m t (.vis hv) hl
    | ali h1 h2 _ ih =>
      rename_i m _
      cases hl with
      | self hv =>
        exfalso
        by_cases hz : vid0 m = 0
        · exact (h.vid_new m hz hv).2.2.2 h1
        · rcases (idf.nz m).1 hz with hi | hr
          · rw [hindep m hi] at h1; cases h1
          · exact h2 hr
      | step hv ha hl' => exact ih _ ha t hl'
  · intro m hm hv
    simp only [upd_apply] at hm
    split at hm
    · rename_i heq; subst heq
      rcases hcase with hc | hc
      · exact absurd hv hc.1
      · exact hc.2
    · exact h.inl m hm hv

/-- adding a statement for a node -/
theorem CInv.push {roots : List Nat} {st : CSt} {oc : Nat → Nat} (n : Nat)
    (idf : IdFacts indeps roots vid0 minTemp)
    (h : CInv G roots indeps cnt vid0 minTemp st)
    (hnv : st.visited n ≠ true)
    (hop : (G n).op ≠ .inv)
    (hreach : Reach G roots n)
    (hindep : ∀ m, m ∈ indeps → (G m).op = .inv)
    (hali : (G n).op = .alias → st.vid n ≠ 0)
    (hkids : ∀ m ∈ kids G n, Done G roots st.visited m) :
    CInv G roots indeps cnt vid0 minTemp
      { visited := upd st.visited n true
        opCount := oc
        queue := st.queue ++ [n]
        vid := if st.vid n = 0 then upd st.vid n st.idCount else st.vid
        idCount := if st.vid n = 0 then st.idCount + 1 else st.idCount } := by
  have hmono : ∀ m, st.visited m = true → upd st.visited n true m = true := by
    intro m hm; rw [upd_apply]; split <;> simp [hm]
  have hnq : n ∉ st.queue := fun hq => hnv (h.qvis n hq)
  have hid0 : 0 < st.idCount := by
    have := h.idc; have := idf.minTemp; omega
  -- leaves of processed nodes are unchanged
  have htr : ∀ m t, Done G roots st.visited m →
      Leaf G (if st.vid n = 0 then upd st.vid n st.idCount else st.vid) m t → Leaf G st.vid m t := by
    intro m t hd hl
    by_cases hz : st.vid n = 0
    · rw [if_pos hz] at hl
      exact leaf_transfer h.closed hnv (fun ha => hali ha hz) hl hd
    · rw [if_neg hz] at hl; exact hl
  have hvid : ∀ m, m ≠ n →
      (if st.vid n = 0 then upd st.vid n st.idCount else st.vid) m = st.vid m := by
    intro m hm; split
    · simp [hm]
    · rfl
  have hvidn : (if st.vid n = 0 then upd st.vid n st.idCount else st.vid) n ≠ 0 := by
    split
    · simp; omega
    · assumption
  have hv0 : vid0 n ≠ 0 → st.vid n ≠ 0 := fun hz => by rw [h.vid_old n hz]; exact hz
  refine ⟨?_, ?_, ?_, ?_, ?_, ?_, ?_, ?_, ?_, ?_, ?_, ?_, ?_⟩
  · rw [List.nodup_append]
    refine ⟨h.nodup, by simp, ?_⟩
    intro a ha b hb hab
    rw [List.mem_singleton] at hb; subst hb; subst hab
    exact hnq ha
  · intro m hm
    rcases List.mem_append.1 hm with hm | hm
    · exact hmono m (h.qvis m hm)
    · rw [List.mem_singleton] at hm; subst hm; simp
  · intro m hm
    rcases List.mem_append.1 hm with hm | hm
    · exact h.qop m hm
    · rw [List.mem_singleton] at hm; subst hm; exact hop
  · intro m hm
    rcases List.mem_append.1 hm with hm | hm
    · exact h.qreach m hm
    · rw [List.mem_singleton] at hm; subst hm; exact hreach
  · intro m hm
    by_cases hmn : m = n
    · subst hmn; exact hvidn
    · simp only [hvid m hmn]
      rcases List.mem_append.1 hm with hm | hm
      · exact h.qvid m hm
      · rw [List.mem_singleton] at hm; exact absurd hm hmn
  · intro m hm
    by_cases hmn : m = n
    · subst hmn
      have : st.vid m ≠ 0 := hv0 hm
      simp only [this, if_false]
      exact h.vid_old m hm
    · simp only [hvid m hmn]; exact h.vid_old m hm
  · intro m hz hv
    by_cases hmn : m = n
    · subst hmn
      by_cases hz' : st.vid m = 0
      · simp only [hz', if_true, upd_same]
        exact ⟨by simp, h.idc, by omega, fun ha => hali ha hz'⟩
      · have := h.vid_new m hz hz'
        exact absurd this.1 hnq
    · simp only [hvid m hmn] at hv ⊢
      obtain ⟨h1, h2, h3, h4⟩ := h.vid_new m hz hv
      exact ⟨List.mem_append_left _ h1, h2, by split <;> omega, h4⟩
  · intro a b ha hb hva hab
    simp only at hva hab
    by_cases hz : st.vid n = 0
    · simp only [hz, if_true, upd_apply] at hva hab
      by_cases h1 : a = n <;> by_cases h2 : b = n
      · rw [h1, h2]
      · rw [if_pos h1, if_neg h2] at hab
        have hvb : st.vid b ≠ 0 := by omega
        have := (h.vid_new b hb hvb).2.2.1
        omega
      · rw [if_neg h1, if_pos h2] at hab
        rw [if_neg h1] at hva
        have := (h.vid_new a ha hva).2.2.1
        omega
      · rw [if_neg h1, if_neg h2] at hab
        rw [if_neg h1] at hva
        exact h.vid_inj a b ha hb hva hab
    · simp only [hz, if_false] at hva hab
      exact h.vid_inj a b ha hb hva hab
  · have := h.idc
    simp only; split <;> omega
  · intro m hm a ha
    simp only [upd_apply] at hm
    split at hm
    · rename_i heq; subst heq
      exact (hkids a ha).mono hmono
    · exact (h.closed m hm a ha).mono hmono
  · intro m t hd hl
    induction hd generalizing t with
    | vis hv =>
      rename_i m
      simp only [upd_apply] at hv
      split at hv
      · rename_i heq; subst heq
        cases hl with
        | self _ => right; simp
        | step hv _ _ => exact absurd hv hvidn
      · rcases h.leafok m t (.vis hv) (htr m t (.vis hv) hl) with h1 | h1
        · exact Or.inl h1
        · exact Or.inr (List.mem_append_left _ h1)
    | ali h1 h2 _ ih =>
      rename_i m _
      cases hl with
      | self hv =>
        by_cases hmn : m = n
        · subst hmn; right; simp
        · exfalso
          simp only [hvid m hmn] at hv
          by_cases hz : vid0 m = 0
          · exact (h.vid_new m hz hv).2.2.2 h1
          · rcases (idf.nz m).1 hz with hi | hr
            · rw [hindep m hi] at h1; cases h1
            · exact h2 hr
      | step hv ha hl' => exact ih _ ha t hl'
  · intro i q t hq hr
    simp only at hq hr ⊢
    rw [List.getElem?_append] at hq
    split at hq
    · rename_i hi
      have hqm := List.mem_of_getElem? hq
      obtain ⟨a, ha, hl⟩ := hr
      have hda := h.closed q (h.qvis q hqm) a ha
      rcases h.order i q t hq ⟨a, ha, htr a t hda hl⟩ with h1 | h1
      · exact Or.inl h1
      · right
        rw [List.take_append_of_le_length (by omega)]; exact h1
    · rename_i hi
      have hi' : i - st.queue.length = 0 := by
        by_cases hz : i - st.queue.length = 0
        · exact hz
        · rw [List.getElem?_eq_none (by simp; omega)] at hq; simp at hq
      rw [hi'] at hq
      simp only [List.getElem?_cons_zero, Option.some.injEq] at hq
      subst hq
      obtain ⟨a, ha, hl⟩ := hr
      rcases h.leafok a t (hkids a ha) (htr a t (hkids a ha) hl) with h1 | h1
      · exact Or.inl h1
      · right
        have : i = st.queue.length := by omega
        subst this
        rw [List.take_append_of_le_length (Nat.le_refl _), List.take_length]; exact h1
  · intro m hm hv
    by_cases hmn : m = n
    · subst hmn; exact absurd hv hvidn
    · simp only [hvid m hmn] at hv
      simp only [upd_ne _ _ hmn] at hm
      exact h.inl m hm hv

theorem complete_inv (wf : WF G rank fuel indeps deps) (cf : CountFacts G (argNodes deps) cnt)
    (idf : IdFacts indeps (argNodes deps) vid0 minTemp) (p0 n : Nat)
    (hp0 : Reach G (argNodes deps) p0) (hn : n ∈ kids G p0) (st : CSt)
    (h : CInv G (argNodes deps) indeps cnt vid0 minTemp st)
    (hkids : ∀ m ∈ kids G n, Done G (argNodes deps) st.visited m) :
    CInv G (argNodes deps) indeps cnt vid0 minTemp (complete G cnt maxOps (G p0).op n st) ∧
    Done G (argNodes deps) (complete G cnt maxOps (G p0).op n st).visited n ∧
    (∀ m, st.visited m = true → (complete G cnt maxOps (G p0).op n st).visited m = true) := by
  have hr : Reach G (argNodes deps) n := .kid hp0 hn
  unfold complete
  by_cases hv : st.visited n = true
  · rw [if_pos hv]
    exact ⟨h, .vis hv, fun _ hm => hm⟩
  · rw [if_neg hv]
    by_cases hinv : (G n).op = .inv
    · have hin := wf.declared n hr hinv
      have hvz : st.vid n ≠ 0 := by
        have hz := (idf.nz n).2 (Or.inl hin)
        rw [h.vid_old n hz]; exact hz
      rw [if_neg (by simp [hvz, hinv])]
      refine ⟨h.markOnly (oc := st.opCount) n idf (by simp [hinv]) wf.indeps_inv hkids
        (Or.inl ⟨hvz, hinv⟩), .vis (by simp), ?_⟩
      intro m hm; simp only [upd_apply]; split <;> simp [hm]
    · rw [if_pos (Or.inr hinv)]
      by_cases hali : (G n).op = .alias
      · rw [if_pos hali]
        exact ⟨h, .ali hali (wf.alias_dep p0 hp0 n hn hali) hkids, fun _ hm => hm⟩
      · rw [if_neg hali]
        simp only
        by_cases hq : (createsNew maxOps (G n).op (cnt n) (opCountOf st (kids G n)) ||
            requiresVarArg (G p0).op) = true
        · rw [if_pos hq]
          refine ⟨h.push n idf hv hinv hr wf.indeps_inv (fun ha => absurd ha hali) hkids,
            .vis (by simp), ?_⟩
          intro m hm; simp only [upd_apply]; split <;> simp [hm]
        · rw [if_neg hq]
          simp only [Bool.or_eq_true, not_or] at hq
          have hc1 : ¬ cnt n > 1 := by
            intro hc; apply hq.1; simp [createsNew, hc]
          have hvz : st.vid n = 0 := by
            apply Classical.byContradiction
            intro hvz
            by_cases hz : vid0 n = 0
            · exact hv (h.qvis n (h.vid_new n hz hvz).1)
            · rcases (idf.nz n).1 hz with hi | hroot
              · exact hinv (wf.indeps_inv n hi)
              · exact hc1 (cf.dep_arg p0 n hp0 hn hroot)
          refine ⟨h.markOnly n idf hali wf.indeps_inv hkids
            (Or.inr ⟨hvz, by omega, ?_, ?_, ?_⟩), .vis (by simp), ?_⟩
          · intro c hc
            apply hq.1; simp [createsNew, hc]
          · intro hc
            apply hq.1; simp [createsNew, hc]
          · intro p hp hnp hs
            by_cases hpp : p = p0
            · subst hpp
              apply hq.2; simp [requiresVarArg, hs]
            · exact hc1 (cf.two_parents p p0 n hp hp0 hpp hnp hn)
          · intro m hm; simp only [upd_apply]; split <;> simp [hm]

theorem create_spec (wf : WF G rank fuel indeps deps) (cf : CountFacts G (argNodes deps) cnt)
    (idf : IdFacts indeps (argNodes deps) vid0 minTemp) : ∀ (k p0 n : Nat) (st : CSt),
    Reach G (argNodes deps) p0 → n ∈ kids G p0 → rank n < k →
    CInv G (argNodes deps) indeps cnt vid0 minTemp st →
    ∃ st', create G cnt maxOps k (G p0).op n st = .ok st' ∧
      CInv G (argNodes deps) indeps cnt vid0 minTemp st' ∧
      Done G (argNodes deps) st'.visited n ∧
      (∀ m, st.visited m = true → st'.visited m = true) := by
  intro k
  induction k with
  | zero => intro _ n _ _ _ h; omega
  | succ k ih =>
    intro p0 n st hp0 hn hk h
    have hr : Reach G (argNodes deps) n := .kid hp0 hn
    unfold create
    by_cases hv : st.visited n = true
    · rw [if_pos hv]
      exact ⟨st, rfl, h, .vis hv, fun _ hm => hm⟩
    · rw [if_neg hv]
      have hfold : ∀ (l : List Nat), (∀ m ∈ l, m ∈ kids G n) → ∀ s,
          CInv G (argNodes deps) indeps cnt vid0 minTemp s → ∃ s',
          foldE (fun s m => create G cnt maxOps k (G n).op m s) s l = .ok s' ∧
          CInv G (argNodes deps) indeps cnt vid0 minTemp s' ∧
          (∀ m ∈ l, Done G (argNodes deps) s'.visited m) ∧
          (∀ m, s.visited m = true → s'.visited m = true) := by
        intro l
        induction l with
        | nil => intro _ s hs; exact ⟨s, rfl, hs, by simp, fun _ h => h⟩
        | cons m l ihl =>
          intro hm s hs
          have hmk := hm m (by simp)
          have hlt := wf.acyclic n hr m hmk
          obtain ⟨s1, e1, i1, d1, m1⟩ := ih n m s hr hmk (by omega) hs
          obtain ⟨s2, e2, i2, d2, m2⟩ := ihl (fun a ha => hm a (List.mem_cons_of_mem _ ha)) s1 i1
          refine ⟨s2, by simp [foldE, e1, e2], i2, ?_, fun a ha => m2 a (m1 a ha)⟩
          intro a ha
          rcases List.mem_cons.1 ha with rfl | ha
          · exact d1.mono m2
          · exact d2 a ha
      obtain ⟨s', e', i', d', m'⟩ := hfold (kids G n) (fun _ h => h) st h
      rw [e']
      obtain ⟨c1, c2, c3⟩ := complete_inv (maxOps := maxOps) wf cf idf p0 n hp0 hn s' i' d'
      exact ⟨_, rfl, c1, c2, fun m hm => c3 m (m' m hm)⟩

theorem createDep_spec (wf : WF G rank fuel indeps deps) (cf : CountFacts G (argNodes deps) cnt)
    (idf : IdFacts indeps (argNodes deps) vid0 minTemp) (n : Nat) (st : CSt)
    (hn : n ∈ argNodes deps) (h : CInv G (argNodes deps) indeps cnt vid0 minTemp st) :
    ∃ st', createDep G cnt maxOps fuel st n = .ok st' ∧
      CInv G (argNodes deps) indeps cnt vid0 minTemp st' ∧ st'.visited n = true ∧
      (∀ m, st.visited m = true → st'.visited m = true) := by
  have hr : Reach G (argNodes deps) n := .root hn
  unfold createDep
  by_cases hv : st.visited n = true
  · rw [if_pos hv]
    have hsame : upd st.visited n true = st.visited := by
      funext m; rw [upd_apply]; split
      · rename_i heq; rw [heq, hv]
      · rfl
    rw [hsame]
    exact ⟨st, rfl, h, hv, fun _ hm => hm⟩
  · rw [if_neg hv]
    have hfold : ∀ (l : List Nat), (∀ m ∈ l, m ∈ kids G n) → ∀ s,
        CInv G (argNodes deps) indeps cnt vid0 minTemp s → ∃ s',
        foldE (fun s m => create G cnt maxOps fuel (G n).op m s) s l = .ok s' ∧
        CInv G (argNodes deps) indeps cnt vid0 minTemp s' ∧
        (∀ m ∈ l, Done G (argNodes deps) s'.visited m) ∧
        (∀ m, s.visited m = true → s'.visited m = true) := by
      intro l
      induction l with
      | nil => intro _ s hs; exact ⟨s, rfl, hs, by simp, fun _ h => h⟩
      | cons m l ihl =>
        intro hm s hs
        have hmk := hm m (by simp)
        have hlt := wf.acyclic n hr m hmk
        have hd := wf.depth n hn
        obtain ⟨s1, e1, i1, d1, m1⟩ := create_spec (maxOps := maxOps) wf cf idf fuel n m s hr hmk
          (by omega) hs
        obtain ⟨s2, e2, i2, d2, m2⟩ := ihl (fun a ha => hm a (List.mem_cons_of_mem _ ha)) s1 i1
        refine ⟨s2, by simp [foldE, e1, e2], i2, ?_, fun a ha => m2 a (m1 a ha)⟩
        intro a ha
        rcases List.mem_cons.1 ha with rfl | ha
        · exact d1.mono m2
        · exact d2 a ha
    obtain ⟨s', e', i', d', m'⟩ := hfold (kids G n) (fun _ h => h) st h
    rw [e']
    simp only
    have hmono : ∀ m, s'.visited m = true → upd s'.visited n true m = true := by
      intro m hm; rw [upd_apply]; split <;> simp [hm]
    have hvz : s'.vid n ≠ 0 := by
      have hz := (idf.nz n).2 (Or.inr hn)
      rw [i'.vid_old n hz]; exact hz
    by_cases hv' : s'.visited n = true
    · have hsame : upd s'.visited n true = s'.visited := by
        funext m; rw [upd_apply]; split
        · rename_i heq; rw [heq, hv']
        · rfl
      rw [if_neg (by simp [hv'])]
      rw [hsame]
      exact ⟨s', rfl, i', hv', m'⟩
    · by_cases hinv : (G n).op = .inv
      · rw [if_neg (by simp [hvz, hinv])]
        refine ⟨_, rfl, i'.markOnly (oc := s'.opCount) n idf (by simp [hinv]) wf.indeps_inv d'
          (Or.inl ⟨hvz, hinv⟩), by simp, fun m hm => hmono m (m' m hm)⟩
      · rw [if_pos (by simp [hinv, hv'])]
        refine ⟨_, rfl, ?_, by simp, fun m hm => hmono m (m' m hm)⟩
        have := i'.push (oc := s'.opCount) n idf hv' hinv hr wf.indeps_inv (fun _ => hvz) d'
        simpa [hvz] using this

/-- what the rest of the generation needs to know about the queue and IDs -/
structure QFacts (G : Graph α) (roots indeps : List Nat) (cnt vid0 vid : Nat → Nat) (minTemp idCount : Nat)
    (queue : List Nat) : Prop where
  nodup : queue.Nodup
  qop : ∀ n ∈ queue, (G n).op ≠ .inv
  qreach : ∀ n ∈ queue, Reach G roots n
  qvid : ∀ n ∈ queue, vid n ≠ 0
  vid_old : ∀ n, vid0 n ≠ 0 → vid n = vid0 n
  vid_new : ∀ n, vid0 n = 0 → vid n ≠ 0 → n ∈ queue ∧ minTemp ≤ vid n ∧ vid n < idCount
  vid_inj : ∀ n m, vid0 n = 0 → vid0 m = 0 → vid n ≠ 0 → vid n = vid m → n = m
  idc : minTemp ≤ idCount
  order : ∀ i q t, queue[i]? = some q → Reads G vid q t → (G t).op = .inv ∨ t ∈ queue.take i
  var : ∀ n, Reach G roots n → vid n ≠ 0 → (G n).op = .inv ∨ n ∈ queue
  root : ∀ n ∈ roots, (G n).op ≠ .inv → n ∈ queue
  ali : ∀ n, Reach G roots n → (G n).op = .alias → n ∉ roots → vid n = 0
  inl : ∀ n, Reach G roots n → (G n).op ≠ .alias → vid n = 0 →
    cnt n ≤ 1 ∧ (∀ c, (G n).op ≠ .cond c) ∧ (G n).op ≠ .assign ∧
      ∀ p, Reach G roots p → n ∈ kids G p → (G p).op ≠ .sign

theorem createAll_spec (wf : WF G rank fuel indeps deps) (cf : CountFacts G (argNodes deps) cnt)
    (idf : IdFacts indeps (argNodes deps) vid0 minTemp) (oc : Nat → Nat) :
    ∃ st, createAll G cnt maxOps fuel (argNodes deps)
        { visited := fun _ => false, vid := vid0, opCount := oc, queue := [], idCount := minTemp }
        = .ok st ∧
      QFacts G (argNodes deps) indeps cnt vid0 st.vid minTemp st.idCount st.queue := by
  unfold createAll
  have hfold : ∀ (l : List Nat), (∀ m ∈ l, m ∈ argNodes deps) → ∀ s,
      CInv G (argNodes deps) indeps cnt vid0 minTemp s → ∃ s',
      foldE (createDep G cnt maxOps fuel) s l = .ok s' ∧
      CInv G (argNodes deps) indeps cnt vid0 minTemp s' ∧
      (∀ m ∈ l, s'.visited m = true) ∧
      (∀ m, s.visited m = true → s'.visited m = true) := by
    intro l
    induction l with
    | nil => intro _ s hs; exact ⟨s, rfl, hs, by simp, fun _ h => h⟩
    | cons m l ihl =>
      intro hm s hs
      obtain ⟨s1, e1, i1, d1, m1⟩ := createDep_spec (maxOps := maxOps) wf cf idf m s
        (hm m (by simp)) hs
      obtain ⟨s2, e2, i2, d2, m2⟩ := ihl (fun a ha => hm a (List.mem_cons_of_mem _ ha)) s1 i1
      refine ⟨s2, by simp [foldE, e1, e2], i2, ?_, fun a ha => m2 a (m1 a ha)⟩
      intro a ha
      rcases List.mem_cons.1 ha with rfl | ha
      · exact m2 _ d1
      · exact d2 a ha
  have hindep : ∀ m, m ∈ indeps → (G m).op = .inv := wf.indeps_inv
  have hinit : CInv G (argNodes deps) indeps cnt vid0 minTemp
      { visited := fun _ => false, vid := vid0, opCount := oc, queue := [], idCount := minTemp } := by
    refine ⟨by simp, by simp, by simp, by simp, by simp, fun _ _ => rfl, ?_, ?_, Nat.le_refl _,
      by simp, ?_, by simp, by simp⟩
    · intro n h1 h2; exact absurd h1 h2
    · intro n m h1 _ h2 _; exact absurd h1 h2
    · intro m t hd hl
      simp only at hd hl
      exfalso
      induction hd generalizing t with
      | vis hv => simp at hv
      | ali h1 h2 _ ih =>
        rename_i m _
        cases hl with
        | self hv =>
          rcases (idf.nz m).1 hv with hi | hr
          · rw [hindep m hi] at h1; cases h1
          · exact h2 hr
        | step hv ha hl' => exact ih _ ha t hl'
  obtain ⟨s, e, i, hroots, _⟩ := hfold (argNodes deps) (fun _ h => h) _ hinit
  refine ⟨s, e, ?_⟩
  have hdone : ∀ n, Reach G (argNodes deps) n → Done G (argNodes deps) s.visited n := by
    intro n hr
    induction hr with
    | root hd => exact .vis (hroots _ hd)
    | kid _ hm ih =>
      cases ih with
      | vis hv => exact i.closed _ hv _ hm
      | ali _ _ hk => exact hk _ hm
  have hvar : ∀ n, Reach G (argNodes deps) n → s.vid n ≠ 0 → (G n).op = .inv ∨ n ∈ s.queue :=
    fun n hr hv => i.leafok n n (hdone n hr) (.self hv)
  refine ⟨i.nodup, i.qop, i.qreach, i.qvid, i.vid_old, ?_, i.vid_inj, i.idc, i.order, hvar, ?_, ?_, ?_⟩
  · intro n h1 h2
    obtain ⟨a, b, c, _⟩ := i.vid_new n h1 h2
    exact ⟨a, b, c⟩
  · intro n hn hop
    have hz := (idf.nz n).2 (Or.inr hn)
    rcases hvar n (.root hn) (by rw [i.vid_old n hz]; exact hz) with h | h
    · exact absurd h hop
    · exact h
  · intro n hr ha hnr
    apply Classical.byContradiction
    intro hv
    by_cases hz : vid0 n = 0
    · exact (i.vid_new n hz hv).2.2.2 ha
    · rcases (idf.nz n).1 hz with hi | hr'
      · rw [hindep n hi] at ha; cases ha
      · exact hnr hr'
  · intro n hr ha hv
    cases hdone n hr with
    | vis hvis => exact i.inl n hvis hv
    | ali h1 _ _ => exact absurd h1 ha

end
end Verif.Codegen
