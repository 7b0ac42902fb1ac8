import Verif.Codegen.LemmasAlloc
/- Everything the printing needs to know about the plan. -/
namespace Verif.Codegen
variable {α : Type}

/-- the handler has no left-over data when the generation starts working -/
def HState.Clean (h : HState) : Prop :=
  h.used = true ∨ (h.vid = (fun _ => 0) ∧ h.cnt = (fun _ => 0) ∧ h.ord = (fun _ => 0) ∧
    h.scoped0 = [])

structure PlanFacts (G : Graph α) (indeps : List Nat) (deps : List (Arg α)) (p : Plan) : Prop where
  nodup : p.queue.Nodup
  qop : ∀ n ∈ p.queue, (G n).op ≠ .inv
  qreach : ∀ n ∈ p.queue, Reach G (argNodes deps) n
  qvid : ∀ n ∈ p.queue, p.vid n ≠ 0
  var : ∀ n, Reach G (argNodes deps) n → p.vid n ≠ 0 → (G n).op = .inv ∨ n ∈ p.queue
  root : ∀ n ∈ argNodes deps, (G n).op ≠ .inv → n ∈ p.queue
  inl : ∀ n, Reach G (argNodes deps) n → p.vid n = 0 →
    (G n).op ≠ .inv ∧ (∀ c, (G n).op ≠ .cond c) ∧
      ∀ q, Reach G (argNodes deps) q → n ∈ kids G q → (G q).op ≠ .sign
  indep : ∀ n ∈ indeps, p.vid n = indeps.idxOf n + 1
  dep : ∀ n ∈ argNodes deps, n ∉ indeps → indeps.length < p.vid n ∧ p.vid n < p.minTemp
  depInj : ∀ n ∈ argNodes deps, ∀ m ∈ argNodes deps, p.vid n = p.vid m → n = m
  temp : ∀ n ∈ p.queue, n ∉ argNodes deps → p.minTemp ≤ p.vid n ∧ p.vid n < p.idCount
  minTemp : indeps.length < p.minTemp
  known : ∀ n, p.vid n ≠ 0 → n ∈ indeps ∨ Reach G (argNodes deps) n
  order : ∀ (i q t : Nat), p.queue[i]? = some q → Reads G p.vid q t →
    (G t).op = .inv ∨ t ∈ p.queue.take i
  clash : ∀ (j k a b : Nat), p.queue[j]? = some a → p.queue[k]? = some b → a ∉ argNodes deps →
    b ∉ argNodes deps → j < k → p.vid a = p.vid b →
    ∀ (i q : Nat), p.queue[i]? = some q → Reads G p.vid q a → i ≤ k

theorem leaf_congr {G : Graph α} {v v' : Nat → Nat} (h : ∀ n, v n = 0 ↔ v' n = 0) {m t : Nat}
    (hl : Leaf G v m t) : Leaf G v' m t := by
  induction hl with
  | self hv => exact .self (fun h' => hv ((h _).2 h'))
  | step hv ha _ ih => exact .step ((h _).1 hv) ha ih

theorem reads_congr {G : Graph α} {v v' : Nat → Nat} (h : ∀ n, v n = 0 ↔ v' n = 0) {m t : Nat}
    (hl : Reads G v m t) : Reads G v' m t := by
  obtain ⟨a, ha, hl⟩ := hl
  exact ⟨a, ha, leaf_congr h hl⟩

section
variable {G : Graph α} {rank : Nat → Nat} {fuel : Nat} {indeps : List Nat} {deps : List (Arg α)}
  {cnt vid0 vid : Nat → Nat} {minTemp idCount : Nat} {queue : List Nat} {ord : Nat → Nat}

theorem planFacts_of (wf : WF G rank fuel indeps deps)
    (idf : IdFacts indeps (argNodes deps) vid0 minTemp)
    (qf : QFacts G (argNodes deps) indeps cnt vid0 vid minTemp idCount queue) (p : Plan)
    (hq : p.queue = queue) (hm : p.minTemp = minTemp)
    (keep : ∀ n, (vid n < minTemp ∨ n ∉ queue) → p.vid n = vid n)
    (temp : ∀ n ∈ queue, minTemp ≤ vid n → minTemp ≤ p.vid n ∧ p.vid n < p.idCount)
    (clash : ∀ (j k a b : Nat), queue[j]? = some a → queue[k]? = some b → minTemp ≤ vid a → minTemp ≤ vid b →
      j < k → p.vid a = p.vid b → ∀ (i q : Nat), queue[i]? = some q → Reads G vid q a → i ≤ k) :
    PlanFacts G indeps deps p := by
  have hmt := idf.minTemp
  have hzero : ∀ n, vid n = 0 ↔ p.vid n = 0 := by
    intro n
    by_cases h : vid n < minTemp ∨ n ∉ queue
    · rw [keep n h]
    · simp only [not_or, Classical.not_not] at h
      have := temp n h.2 (by omega)
      omega
  have hold : ∀ n, vid0 n ≠ 0 → p.vid n = vid0 n := by
    intro n hn
    have h1 := qf.vid_old n hn
    rw [keep n (Or.inl (by rw [h1]; exact idf.lt n)), h1]
  have htemp : ∀ n ∈ queue, n ∉ argNodes deps → vid0 n = 0 := by
    intro n hn hr
    apply Classical.byContradiction
    intro hz
    rcases (idf.nz n).1 hz with h | h
    · exact qf.qop n hn (wf.indeps_inv n h)
    · exact hr h
  have hge : ∀ n ∈ queue, n ∉ argNodes deps → minTemp ≤ vid n := fun n hn hr =>
    (qf.vid_new n (htemp n hn hr) (qf.qvid n hn)).2.1
  refine ⟨?_, ?_, ?_, ?_, ?_, ?_, ?_, ?_, ?_, ?_, ?_, ?_, ?_, ?_, ?_⟩
  · rw [hq]; exact qf.nodup
  · rw [hq]; exact qf.qop
  · rw [hq]; exact qf.qreach
  · rw [hq]; intro n hn h; exact qf.qvid n hn ((hzero n).2 h)
  · rw [hq]; intro n hr hv; exact qf.var n hr (fun h => hv ((hzero n).1 h))
  · rw [hq]; exact qf.root
  · intro n hr hv
    have hv' := (hzero n).2 hv
    have hni : (G n).op ≠ .inv := by
      intro hi
      have h := (idf.nz n).2 (Or.inl (wf.declared n hr hi))
      have := qf.vid_old n h
      omega
    by_cases hal : (G n).op = .alias
    · refine ⟨hni, by simp [hal], ?_⟩
      intro q hqr hnq hs
      have hsh := wf.shape q hqr
      unfold Shape at hsh
      rw [hs] at hsh
      obtain ⟨m, hm1, hm2⟩ := hsh
      have : n = m := by simpa [kids, hm1, argNodes] using hnq
      subst this
      exact hm2 hal
    · obtain ⟨_, h2, _, h4⟩ := qf.inl n hr hal hv'
      exact ⟨hni, h2, h4⟩
  · intro n hn
    have h := (idf.nz n).2 (Or.inl hn)
    rw [hold n h, idf.indep n hn]
  · intro n hn hi
    have h := (idf.nz n).2 (Or.inr hn)
    rw [hold n h, hm]
    exact ⟨idf.dep n hn hi, idf.lt n⟩
  · intro n hn m hm' heq
    have h := (idf.nz n).2 (Or.inr hn)
    rw [hold n h, hold m ((idf.nz m).2 (Or.inr hm'))] at heq
    exact idf.inj n m h heq
  · rw [hq, hm]
    intro n hn hr
    exact temp n hn (hge n hn hr)
  · rw [hm]; exact hmt
  · intro n hv
    have hv' : vid n ≠ 0 := fun h => hv ((hzero n).1 h)
    by_cases hz : vid0 n = 0
    · exact Or.inr (qf.qreach n (qf.vid_new n hz hv').1)
    · rcases (idf.nz n).1 hz with h | h
      · exact Or.inl h
      · exact Or.inr (.root h)
  · rw [hq]
    intro i q t hqi hr
    exact qf.order i q t hqi (reads_congr (fun n => (hzero n).symm) hr)
  · rw [hq]
    intro j k a b ja kb ra rb hjk hab i q hqi hr
    exact clash j k a b ja kb (hge a (List.mem_of_getElem? ja) ra) (hge b (List.mem_of_getElem? kb) rb)
      hjk hab i q hqi (reads_congr (fun n => (hzero n).symm) hr)

theorem plan_spec (wf : WF G rank fuel indeps deps) (cfg : Cfg) (h : HState) (hc : h.Clean) :
    ∃ p, plan G fuel cfg indeps deps h = .ok p ∧ PlanFacts G indeps deps p := by
  unfold plan
  have hclean : ∃ oc, (if h.used then h.resetManagedNodes else h).vid = (fun _ => 0) ∧
      (if h.used then h.resetManagedNodes else h).cnt = (fun _ => 0) ∧
      (if h.used then h.resetManagedNodes else h).ord = (fun _ => 0) ∧
      (if h.used then h.resetManagedNodes else h).scoped0 = [] ∧
      (if h.used then h.resetManagedNodes else h).opCount = oc := by
    by_cases hu : h.used = true
    · exact ⟨_, by simp [hu, HState.resetManagedNodes], by simp [hu, HState.resetManagedNodes],
        by simp [hu, HState.resetManagedNodes], by simp [hu, HState.resetManagedNodes], rfl⟩
    · rcases hc with hc | ⟨h1, h2, h3, h4⟩
      · exact absurd hc hu
      · exact ⟨_, by simp [hu, h1], by simp [hu, h2], by simp [hu, h3], by simp [hu, h4], rfl⟩
  obtain ⟨oc, h1, h2, h3, h4, h5⟩ := hclean
  simp only [h1, h2, h3, h4, h5]
  have idf := idFacts indeps deps wf.indeps_nodup
  generalize idDeps deps (idIndeps indeps (fun _ => 0, 1)) = ids at idf
  obtain ⟨vid0, minTemp⟩ := ids
  simp only at idf ⊢
  obtain ⟨cnt, X, e1, hs, _⟩ := markAll_spec wf
  have cf := countFacts wf hs
  rw [e1]
  simp only
  obtain ⟨cs, e2, qf⟩ := createAll_spec (maxOps := cfg.maxOps) wf cf idf oc
  rw [e2]
  simp only
  obtain ⟨ord, e3, of⟩ := orderAll_spec wf (rank_lt wf) qf cs.queue 0 (fun _ => 0) (by simp)
    (by omega) ⟨by simp, by simp, by simp, by intro w hw; simp at hw, by simp⟩
  rw [e3]
  simp only
  by_cases hre : cfg.reuse = true
  · rw [if_pos hre]
    unfold reduce
    obtain ⟨v, e4⟩ := reorderAll_ok (ord := ord) (queue := cs.queue) wf
      (fun n => decide (minTemp ≤ cs.vid n))
    rw [e4]
    simp only
    obtain ⟨ls, e5, u1, u2⟩ := lastUseAll_spec (ord := ord) wf
    rw [e5]
    simp only
    have uf := uFacts wf cf idf qf of u1 u2
    have hany : (cs.queue.any (fun n => decide (minTemp ≤ cs.vid n) &&
          (decide (ls.last n = 0) || decide (cs.queue.length < ls.last n)))) = false := by
      rw [List.any_eq_false]
      intro n hn
      simp only [Bool.and_eq_true, decide_eq_true_eq, Bool.or_eq_true, not_and, not_or]
      intro ht
      obtain ⟨k, hk⟩ := List.mem_iff_getElem?.1 hn
      have := uf.temp k n hk ht
      have := uf.le n
      omega
    rw [if_neg (by rw [hany]; simp)]
    have af := alloc_facts (vid := cs.vid) qf.nodup uf.temp
    refine ⟨_, rfl, planFacts_of wf idf qf _ rfl rfl af.keep af.temp ?_⟩
    intro j k a b ja kb ta tb hjk hab i q hqi hr
    have := af.clash j k a b ja kb ta tb hjk hab
    have := uf.read i q a hqi hr
    omega
  · rw [if_neg hre]
    refine ⟨_, rfl, planFacts_of wf idf qf _ rfl rfl (fun _ _ => rfl) ?_ ?_⟩
    · intro n hn ht
      have hz : vid0 n = 0 := by
        apply Classical.byContradiction
        intro hz
        have := qf.vid_old n hz
        have := idf.lt n
        omega
      exact (qf.vid_new n hz (qf.qvid n hn)).2
    · intro j k a b ja kb ta tb hjk hab
      exfalso
      have hz : ∀ n, minTemp ≤ cs.vid n → vid0 n = 0 := by
        intro n ht
        apply Classical.byContradiction
        intro hz
        have := qf.vid_old n hz
        have := idf.lt n
        omega
      have hab' := qf.vid_inj a b (hz a ta) (hz b tb) (qf.qvid a (List.mem_of_getElem? ja)) hab
      subst hab'
      have : j = k := (List.getElem?_inj (List.getElem?_eq_some_iff.1 ja).1 qf.nodup).1
        (ja.trans kb.symm)
      omega

end
end Verif.Codegen
