import Verif.Loops.LemmasRev2

/-
What the functions of the groups add to a row.
-/
namespace Verif.Loops.Rev2

open Verif.Index Verif.Ranges For1

variable {α : Type} [CommRing α]

/-! ### the tables -/

section tables
omit [CommRing α]
variable {I : Info α} {n : Nat}

theorem posOf_mem {g : EqGroup α} {k : Kind} {K : Nat × Nat} {es : List El} (h : posOf g k K = some es) : (K, es) ∈ g.pos k := by
  unfold posOf at h
  obtain ⟨p, hp, rfl⟩ := Option.map_eq_some_iff.mp h
  have h1 := List.mem_of_find?_eq_some hp
  have h2 := List.find?_some hp
  simp only [beq_iff_eq] at h2
  rw [← h2]
  exact h1

theorem elAt_iff {g : EqGroup α} {k : Kind} {K : Nat × Nat} {it : Nat} {x : El} :
    elAt g k K it = some x ↔ ∃ es, posOf g k K = some es ∧ es[it]? = some x ∧ 0 < x.cnt := by
  unfold elAt
  rw [Option.bind_eq_some_iff]
  constructor
  · rintro ⟨y, h1, h2⟩
    obtain ⟨es, h3, h4⟩ := Option.bind_eq_some_iff.mp h1
    split at h2
    · rename_i hc
      obtain rfl := Option.some.inj h2
      exact ⟨es, h3, h4, hc⟩
    · simp at h2
  · rintro ⟨es, h1, h2, h3⟩
    exact ⟨x, by rw [h1]; exact h2, if_pos h3⟩

theorem mem_termIters {j it : Nat} {k : Kind} {K : Nat × Nat} :
    it ∈ termIters I j (.pos k K) ↔ it < I.iters ∧ ∃ g ∈ I.groups, ∃ x, elAt g k K it = some x ∧ x.row = j := by
  rw [termIters, List.mem_filter, List.mem_range, List.any_eq_true]
  simp only [Option.any_eq_true, beq_iff_eq]

theorem termIters_sublist (j : Nat) (tm : Term) : (termIters I j tm).Sublist (List.range I.iters) := by
  cases tm with
  | pos k K => exact List.filter_sublist
  | const K => exact List.Sublist.refl _

theorem elAt_same (hI : I.Ok n) {g g' : EqGroup α} (hg : g ∈ I.groups) (hg' : g' ∈ I.groups) {k : Kind} {K : Nat × Nat} {it : Nat} {x x' : El}
    (h : elAt g k K it = some x) (h' : elAt g' k K it = some x') : x.row = x'.row := by
  obtain ⟨es, a1, a2, a3⟩ := elAt_iff.mp h
  obtain ⟨es', b1, b2, b3⟩ := elAt_iff.mp h'
  exact hI.same g hg g' hg' k K es es' (posOf_mem a1) (posOf_mem b1) it x x' a2 b2 a3 b3

theorem elAt_row (hI : I.Ok n) {j it : Nat} {k : Kind} {K : Nat × Nat} (hit : it ∈ termIters I j (.pos k K)) {g : EqGroup α} (hg : g ∈ I.groups) {x : El}
    (h : elAt g k K it = some x) : x.row = j := by
  obtain ⟨_, g', hg', x', h1, h2⟩ := mem_termIters.mp hit
  rw [elAt_same hI hg hg' h h1, h2]

/-! ### groups of one set of rows -/

theorem groupsC_ok (hI : I.Ok n) {c : List Term × List Nat} (hc : c ∈ byContr I n) :
    GroupsOf I.iters (entries I c) ((entries I c).foldl (addSub I.iters) []) := by
  have hall : ∀ x ∈ entries I c, x ∈ allEntries I n := fun x hx => List.mem_flatMap.mpr ⟨c, hc, hx⟩
  refine groupsOf_foldl _ (fun j its its' tms h h' => entry_iters hI.pos hI.consts (hall _ h) (hall _ h')) fun j its tms h => ?_
  obtain ⟨_, hne, _, ht⟩ := entry_mem hI.pos hI.consts (hall _ h)
  obtain ⟨tm, htm⟩ := List.exists_mem_of_ne_nil _ hne
  rw [← ((ht tm).mp htm).2]
  exact termIters_sublist j tm

theorem entry_c (hI : I.Ok n) {c : List Term × List Nat} (hc : c ∈ byContr I n) {j : Nat} {its : List Nat} {tms : List Term}
    (h : ((j, its), tms) ∈ entries I c) : j ∈ c.2 := by
  obtain ⟨h1, _⟩ := mem_gather.mp (show ((j, its), tms) ∈ gather (pairs I c) from h)
  obtain ⟨⟨k, tm⟩, hp, hk⟩ := List.mem_map.mp h1
  simp only at hk
  subst hk
  exact ((mem_pairs hI.pos hc).mp hp).1

theorem byContr_nodup : (byContr I n).Nodup := List.Nodup.of_map _ (gather_spec _).1

/-- a group with its set of rows -/
def InGroups (I : Info α) (n : Nat) (c : List Term × List Nat) (g : RowGroup) : Prop :=
  c ∈ byContr I n ∧ g ∈ (entries I c).foldl (addSub I.iters) []

theorem inGroups {g : RowGroup} (h : g ∈ rowGroups I n) : ∃ c, InGroups I n c g := by
  obtain ⟨c, h1, h2⟩ := List.mem_flatMap.mp h
  exact ⟨c, h1, h2⟩

theorem InGroups.entry {c : List Term × List Nat} {g : RowGroup} (hg : InGroups I n c g) (hI : I.Ok n) {j : Nat} {its : List Nat} (h : (j, its) ∈ g.rows) :
    ((j, its), g.terms) ∈ allEntries I n := List.mem_flatMap.mpr ⟨c, hg.1, (groupsC_ok hI hg.1).rows g hg.2 j its h⟩

/-- rows with the contributions of the group at one of its iterations are rows of the group -/
theorem InGroups.has {c : List Term × List Nat} {g : RowGroup} (hg : InGroups I n c g) (hI : I.Ok n) {j : Nat} {its : List Nat}
    (h : ((j, its), g.terms) ∈ entries I c) : (j, its) ∈ g.rows ∧ ∀ it ∈ its, it ∈ g.iters := by
  have hok := groupsC_ok hI hg.1
  obtain ⟨g', g1, g2, g3, g4⟩ := hok.all j its g.terms h
  obtain rfl : g' = g := List.inj_on_of_nodup_map hok.nd g1 hg.2 g2
  exact ⟨g3, g4⟩

theorem InGroups.const {c : List Term × List Nat} {g : RowGroup} (hg : InGroups I n c g) (hI : I.Ok n) {K : Nat × Nat} (hK : .const K ∈ g.terms) :
    K ∈ I.const.map (·.1) ∧ g.iters = List.range I.iters := by
  have hok := groupsC_ok hI hg.1
  obtain ⟨⟨j, its⟩, hr⟩ := List.exists_mem_of_ne_nil _ (hok.ne g hg.2)
  have he := hok.rows g hg.2 j its hr
  obtain ⟨_, _, _, ht⟩ := entry_mem hI.pos hI.consts (hg.entry hI hr)
  obtain ⟨h1, h2⟩ := (ht _).mp hK
  refine ⟨((mem_contr hI.pos).mp h1).2.1, ?_⟩
  have hsub : ∀ it ∈ List.range I.iters, it ∈ g.iters := by
    have := (hg.has hI he).2
    rw [← h2] at this
    exact this
  refine List.Sublist.eq_of_length_le (hok.sub g hg.2) ?_
  exact (List.subperm_of_subset List.nodup_range hsub).length_le

end tables

/-! ### sums over the groups -/

/-- what a group adds to an element of the row -/
def groupSum (H : Term → Nat → α) (g : RowGroup) (j : Nat) : α :=
  match g.rows.find? fun c => c.1 == j with
  | some c => lsum c.2 fun it => lsum g.terms fun tm => H tm it
  | none => 0

variable {I : Info α} {n : Nat}

theorem groupSum_eq {c : List Term × List Nat} {g : RowGroup} (hg : InGroups I n c g) (hI : I.Ok n) (H : Term → Nat → α) (j : Nat) :
    groupSum H g j = lsum (contr I j) fun tm => if tm ∈ g.terms ∧ j ∈ g.rows.map (·.1) then lsum (termIters I j tm) (H tm) else 0 := by
  have hok := groupsC_ok hI hg.1
  unfold groupSum
  by_cases hj : ∃ its, (j, its) ∈ g.rows
  · obtain ⟨its, h⟩ := hj
    rw [find_sorted (hok.sorted g hg.2) h]
    simp only
    obtain ⟨_, _, hnd, hterms⟩ := entry_mem hI.pos hI.consts (hg.entry hI h)
    rw [lsum_comm, lsum_subset hnd (contr_nodup hI.consts j) fun x hx => ((hterms x).mp hx).1]
    refine lsum_congr fun tm _ => ?_
    have hm : j ∈ g.rows.map (·.1) := List.mem_map.mpr ⟨_, h, rfl⟩
    by_cases htm : tm ∈ g.terms
    · rw [if_pos htm, if_pos ⟨htm, hm⟩, ((hterms tm).mp htm).2]
    · rw [if_neg htm, if_neg fun h => htm h.1]
  · have hnm : j ∉ g.rows.map (·.1) := by
      intro hm
      obtain ⟨⟨j', its⟩, h1, h2⟩ := List.mem_map.mp hm
      simp only at h2
      subst h2
      exact hj ⟨its, h1⟩
    have : (g.rows.find? fun c => c.1 == j) = none := by
      rw [List.find?_eq_none]
      intro c hc h
      exact hnm (List.mem_map.mpr ⟨c, hc, by simpa using h⟩)
    rw [this]
    simp only
    rw [lsum_zero]
    intro tm _
    exact if_neg fun h => hnm h.2

/-- the groups add every contribution at every iteration once -/
theorem groups_total (hI : I.Ok n) (H : Term → Nat → α) {j : Nat} (hj : j < n) :
    (lsum (rowGroups I n) fun g => groupSum H g j) = lsum (contr I j) fun tm => lsum (termIters I j tm) (H tm) := by
  unfold rowGroups
  rw [lsum_flatMap]
  have h0 : ∀ c ∈ byContr I n, j ∉ c.2 → lsum ((entries I c).foldl (addSub I.iters) []) (fun g => groupSum H g j) = 0 := by
    intro c hc hjc
    refine lsum_zero fun g hg => ?_
    rw [groupSum_eq ⟨hc, hg⟩ hI]
    refine lsum_zero fun tm _ => if_neg ?_
    rintro ⟨_, h2⟩
    obtain ⟨⟨j', its⟩, h3, h4⟩ := List.mem_map.mp h2
    simp only at h4
    subst h4
    exact hjc (entry_c hI hc ((groupsC_ok hI hc).rows g hg _ _ h3))
  by_cases hne : contr I j = []
  · rw [hne, lsum_nil]
    refine lsum_zero fun c hc => h0 c hc fun hjc => ?_
    obtain ⟨h1, _, _, h2⟩ := byContr_mem hc
    exact h1 (by rw [← (h2 j hjc).2, hne])
  · obtain ⟨c0, hc0, hc1, hc2⟩ := byContr_exists hj hne
    rw [lsum_single byContr_nodup hc0 fun c hc hcne => h0 c hc fun hjc =>
      hcne (byContr_eq hc hc0 (by rw [← ((byContr_mem hc).2.2.2 j hjc).2, hc1]))]
    have hok := groupsC_ok hI hc0
    rw [lsum_congr fun g hg => groupSum_eq ⟨hc0, hg⟩ hI H j, lsum_comm]
    refine lsum_congr fun tm htm => ?_
    obtain ⟨tms, he, hm⟩ := entry_exists hI.pos hj htm
    have hec : ((j, termIters I j tm), tms) ∈ entries I c0 := by
      obtain ⟨c, hc, he'⟩ := List.mem_flatMap.mp he
      have hjc := entry_c hI hc he'
      rw [← byContr_eq hc hc0 (by rw [← ((byContr_mem hc).2.2.2 j hjc).2, hc1])]
      exact he'
    obtain ⟨g0, g1, g2, g3, _⟩ := hok.all _ _ _ hec
    rw [lsum_single (List.Nodup.of_map _ hok.nd) g1]
    · rw [if_pos ⟨g2 ▸ hm, List.mem_map.mpr ⟨_, g3, rfl⟩⟩]
    · intro g hg hgne
      refine if_neg ?_
      rintro ⟨h1, h2⟩
      obtain ⟨⟨j', its⟩, h3, h4⟩ := List.mem_map.mp h2
      simp only at h4
      subst h4
      have hgi : InGroups I n c0 g := ⟨hc0, hg⟩
      have he' := hgi.entry hI h3
      have hits := (((entry_mem hI.pos hI.consts he').2.2.2 tm).mp h1).2
      rw [← hits] at he'
      refine hgne (List.inj_on_of_nodup_map hok.nd hg g1 ?_)
      rw [entry_eq hI.pos he' he, g2]

/-- what a contribution adds, over the groups of equations -/
def termSum (I : Info α) (tx1 : α) (e : Nat) (tm : Term) (it : Nat) : α := lsum I.groups (fun eg => termAdd tx1 e it eg tm) + constAdd I tx1 e it tm

theorem termAdd_zero {tx1 : α} {e it : Nat} {g : EqGroup α} {k : Kind} {K : Nat × Nat} (h : elAt g k K it = none ∨ g.val k K it = 0) :
    termAdd tx1 e it g (.pos k K) = 0 := by
  rw [termAdd]
  cases hp : posOf g k K with
  | none => rfl
  | some es =>
    simp only [Option.map_some, Option.getD_some, esAdd]
    cases hx : es[it]? with
    | none => rfl
    | some x =>
      simp only
      split
      · rcases h with h | h
        · have : x.cnt = 0 := by
            by_contra hc
            have := elAt_iff.mpr ⟨es, hp, hx, by omega⟩
            rw [h] at this; simp at this
          rw [this]; simp
        · rw [h]; simp
      · rfl

/-- the function of a group is called for its rows only -/
theorem called_row {isZ : (Nat → α) → Bool} (hI : I.Ok n) {tx1 : α} {c : List Term × List Nat} {g : RowGroup} (hg : InGroups I n c g) {j : Nat}
    (h : called isZ I tx1 g j = true) : ∃ its, (j, its) ∈ g.rows := by
  have hok := groupsC_ok hI hg.1
  unfold called at h
  obtain ⟨tm, htm, h⟩ := List.any_eq_true.mp h
  cases tm with
  | pos k K =>
    simp only at h
    obtain ⟨eg, heg, h⟩ := List.any_eq_true.mp h
    rw [Bool.and_eq_true] at h
    obtain ⟨it, hit, h⟩ := List.any_eq_true.mp h.2
    simp only [Option.any_eq_true, beq_iff_eq] at h
    obtain ⟨x, hx, rfl⟩ := h
    obtain ⟨j', its, he, hit'⟩ := hok.its g hg.2 it hit
    have hr := (hg.has hI he).1
    obtain ⟨_, _, _, ht⟩ := entry_mem hI.pos hI.consts (hg.entry hI hr)
    rw [← ((ht _).mp htm).2] at hit'
    rw [elAt_row hI hit' heg hx]
    exact ⟨its, hr⟩
  | const K =>
    simp only at h
    rw [Bool.and_eq_true, beq_iff_eq] at h
    obtain ⟨⟨j', its⟩, hr⟩ := List.exists_mem_of_ne_nil _ (hok.ne g hg.2)
    obtain ⟨_, _, _, ht⟩ := entry_mem hI.pos hI.consts (hg.entry hI hr)
    have := ((mem_contr hI.pos).mp ((ht _).mp htm).1).2.2
    rw [← h.1, this]
    exact ⟨its, hr⟩

/-- if it is not called, it would add nothing -/
theorem not_called {isZ : (Nat → α) → Bool} (hz : ∀ f, isZ f = true → ∀ it, f it = 0) (hI : I.Ok n) {tx1 : α} {c : List Term × List Nat} {g : RowGroup}
    (hg : InGroups I n c g) {j : Nat} {its : List Nat} (hj : (j, its) ∈ g.rows) (h : ¬ called isZ I tx1 g j = true) {tm : Term} (htm : tm ∈ g.terms) {it : Nat}
    (hit : it ∈ its) (e : Nat) : termSum I tx1 e tm it = 0 := by
  have hok := groupsC_ok hI hg.1
  have he := hok.rows g hg.2 j its hj
  have hitg := (hg.has hI he).2 it hit
  obtain ⟨_, _, _, ht⟩ := entry_mem hI.pos hI.consts (hg.entry hI hj)
  obtain ⟨hcon, hits⟩ := (ht tm).mp htm
  unfold called at h
  rw [List.any_eq_true] at h
  unfold termSum
  cases tm with
  | pos k K =>
    rw [constAdd, add_zero]
    refine lsum_zero fun eg heg => termAdd_zero ?_
    by_contra hn
    rw [not_or] at hn
    obtain ⟨x, hx⟩ := Option.ne_none_iff_exists'.mp hn.1
    refine h ⟨.pos k K, htm, ?_⟩
    simp only
    refine List.any_eq_true.mpr ⟨eg, heg, ?_⟩
    rw [Bool.and_eq_true]
    constructor
    · rw [Bool.not_eq_true']
      by_contra hzv
      exact hn.2 (hz _ (by simpa using hzv) it)
    · refine List.any_eq_true.mpr ⟨it, hitg, ?_⟩
      rw [hx]
      simp only [Option.any_some, beq_iff_eq]
      exact elAt_row hI (hits ▸ hit) heg hx
  | const K =>
    have hS := (hg.const hI htm).2
    have hKj := ((mem_contr hI.pos).mp hcon).2.2
    have hnot := fun hh => h ⟨.const K, htm, hh⟩
    simp only [Bool.and_eq_true, Bool.or_eq_true, beq_iff_eq] at hnot
    have n1 := fun hh => hnot ⟨hKj, Or.inl hh⟩
    have n2 := fun hh => hnot ⟨hKj, Or.inr hh⟩
    have hall : ∀ eg ∈ I.groups, ∀ it < I.iters, it ∈ eg.its := by
      intro eg heg it hit
      by_contra hni
      refine n1 (List.any_eq_true.mpr ⟨eg, heg, ?_⟩)
      rw [decide_eq_true_eq, hS]
      intro hl
      rw [List.length_filter_eq_length_iff] at hl
      exact hni (by simpa using hl it (List.mem_range.mpr hit))
    have hzero : (hessVal I g.iters K it + I.tmp K it) * tx1 = 0 := hz _ (by simpa using n2) it
    have hlt : it < I.iters := by rw [hS] at hitg; exact List.mem_range.mp hitg
    rw [lsum_zero (f := fun eg => termAdd tx1 e it eg (.const K)) fun eg _ => rfl, zero_add, constAdd]
    split
    · split
      · rw [constVal, ← hzero, add_mul]
        congr 1
        unfold hessVal
        rw [show (I.groups.filter fun eg => (g.iters.filter fun it => it ∈ eg.its).length = g.iters.length) = I.groups from ?_]
        · change _ = lsum I.groups (fun g => g.cval K it) * tx1
          rw [← lsum_mul_right]
          refine lsum_congr fun eg heg => ?_
          rw [if_pos (hall eg heg it hlt), factor, if_pos (hall eg heg)]
        · rw [List.filter_eq_self]
          intro eg heg
          rw [decide_eq_true_eq, hS, List.length_filter_eq_length_iff]
          intro it hit
          simpa using hall eg heg it (List.mem_range.mp hit)
      · rfl
    · rfl

theorem runGroups_ok {isZ : (Nat → α) → Bool} (hz : ∀ f, isZ f = true → ∀ it, f it = 0) (hI : I.Ok n) (tx1 : α) (j : Nat) :
    ∀ gs : List RowGroup, (∀ g ∈ gs, g ∈ rowGroups I n) → ∀ out : Nat → α,
    ∃ o, runGroups isZ I tx1 j gs out = .ok o ∧ ∀ e, o e = out e + lsum gs fun g => groupSum (termSum I tx1 e) g j
  | [], _, out => ⟨out, rfl, fun e => by simp⟩
  | g :: gs, hg, out => by
    obtain ⟨c, hg0⟩ := inGroups (hg g List.mem_cons_self)
    have hok := groupsC_ok hI hg0.1
    obtain ⟨b, cs, h1, h2, h3⟩ := genGroup_ok hz hI tx1 (hok.sub g hg0.2) fun K hK => hg0.const hI hK
    rw [runGroups, h1]
    simp only
    have rest := fun out => runGroups_ok hz hI tx1 j gs (fun g' h' => hg g' (List.mem_cons_of_mem _ h')) out
    by_cases hc : called isZ I tx1 g j = true
    · rw [if_pos hc]
      obtain ⟨its, hj⟩ := called_row hI hg0 hc
      have hits := (hg0.has hI (hok.rows g hg0.2 j its hj)).2
      obtain ⟨o1, k1, k2⟩ := runGroupOn_ok h2 (g := ⟨[], g.rows, []⟩) (hok.sorted g hg0.2) hj hits out
      rw [runGroup, k1]
      simp only
      obtain ⟨o, r1, r2⟩ := rest o1
      refine ⟨o, r1, fun e => ?_⟩
      rw [r2, k2, lsum_cons, add_assoc]
      congr 2
      rw [groupSum, find_sorted (hok.sorted g hg0.2) hj]
      simp only
      exact lsum_congr fun it hit => h3 it (hits it hit) e
    · rw [if_neg hc]
      obtain ⟨o, r1, r2⟩ := rest out
      refine ⟨o, r1, fun e => ?_⟩
      rw [r2, lsum_cons]
      have : groupSum (termSum I tx1 e) g j = 0 := by
        unfold groupSum
        cases hf : g.rows.find? fun c => c.1 == j with
        | none => rfl
        | some r =>
          have h1 := List.mem_of_find?_eq_some hf
          have h2 := List.find?_some hf
          simp only [beq_iff_eq] at h2
          refine lsum_zero fun it hit => lsum_zero fun tm htm => not_called hz hI hg0 (j := j) (its := r.2) ?_ hc htm hit e
          rw [← h2]; exact h1
      rw [this, zero_add]

/-! ### the sum by iterations -/

theorem lsum_find {β : Type} (F : (Nat × Nat) × β → α) (K : Nat × Nat) : ∀ l : List ((Nat × Nat) × β), (l.map (·.1)).Nodup →
    (lsum l fun p => if p.1 = K then F p else 0) = ((l.find? fun p => p.1 == K).map F).getD 0
  | [], _ => rfl
  | p :: l, h => by
    rw [List.map_cons, List.nodup_cons] at h
    rw [lsum_cons, List.find?_cons]
    by_cases hp : p.1 = K
    · rw [if_pos hp, lsum_zero, show (p.1 == K) = true by simpa using hp]
      · simp
      · intro q hq
        refine if_neg fun hh => h.1 ?_
        rw [hp, ← hh]
        exact List.mem_map_of_mem hq
    · rw [if_neg hp, show (p.1 == K) = false by simpa using hp, zero_add]
      exact lsum_find F K l h.2

theorem lsum_keys {β : Type} (F : (Nat × Nat) × β → α) {l : List ((Nat × Nat) × β)} (h : (l.map (·.1)).Nodup) {ks : List (Nat × Nat)} (hk : ks.Nodup)
    (hs : ∀ p ∈ l, p.1 ∈ ks) : (lsum ks fun K => ((l.find? fun p => p.1 == K).map F).getD 0) = lsum l F := by
  rw [lsum_congr fun K _ => (lsum_find F K l h).symm, lsum_comm]
  refine lsum_congr fun p hp => ?_
  have := lsum_if_eq hk (fun _ => F p) p.1
  rw [if_pos (hs p hp)] at this
  refine Eq.trans (lsum_congr fun K _ => ?_) this
  by_cases hh : p.1 = K
  · rw [if_pos hh, if_pos hh.symm]
  · rw [if_neg hh, if_neg fun h => hh h.symm]

/-- second derivative for location `e` of row `j` at one iteration, as the code adds it -/
def added (I : Info α) (tx1 : α) (j e it : Nat) : α :=
  (lsum I.groups fun g => lsum kinds fun k => lsum (g.pos k) fun p =>
    match p.2[it]? with
    | some x => x.adds j e (g.val k p.1 it) * tx1
    | none => 0) +
  lsum I.const fun p => if p.1.1 = j ∧ p.2 = e then constVal I tx1 it p.1 else 0

theorem contr_sum (hI : I.Ok n) (j : Nat) (F : Term → α) (hF : ∀ tm, termIters I j tm = [] → F tm = 0) :
    lsum (contr I j) F = (lsum kinds fun k => lsum (keysOf I k) fun K => F (.pos k K)) + lsum I.const fun p => if p.1.1 = j then F (.const p.1) else 0 := by
  unfold contr
  rw [lsum_append, lsum_flatMap, lsum_map, lsum_filter, lsum_map]
  congr 1
  · refine lsum_congr fun k _ => ?_
    rw [lsum_filter, lsum_map]
    refine lsum_congr fun K _ => ?_
    by_cases h : termIters I j (.pos k K) = []
    · rw [if_neg (by simpa using h), hF _ h]
    · rw [if_pos (by simpa using h)]
  · exact lsum_congr fun p _ => by simp

theorem row_total (hI : I.Ok n) {j : Nat} (hj : j < n) (e : Nat) (tx1 : α) :
    (lsum (rowGroups I n) fun g => groupSum (termSum I tx1 e) g j) = lsum (List.range I.iters) (added I tx1 j e) := by
  rw [groups_total hI _ hj, contr_sum hI j _ fun tm h => by rw [h]; rfl]
  unfold added
  rw [lsum_add]
  congr 1
  · rw [lsum_comm, lsum_congr fun g _ => lsum_comm _ _ _]
    rw [lsum_comm]
    refine lsum_congr fun k _ => ?_
    have h1 : ∀ K, lsum (termIters I j (.pos k K)) (termSum I tx1 e (.pos k K)) = lsum I.groups fun g => lsum (List.range I.iters) fun it =>
        (((g.pos k).find? fun p => p.1 == K).map fun p => match p.2[it]? with
          | some x => x.adds j e (g.val k p.1 it) * tx1
          | none => 0).getD 0 := by
      intro K
      rw [termIters, lsum_filter, lsum_comm]
      refine lsum_congr fun it hit => ?_
      rw [termSum, constAdd, add_zero]
      have hel : ∀ g : EqGroup α, (((g.pos k).find? fun p => p.1 == K).map fun p => match p.2[it]? with
          | some x => x.adds j e (g.val k p.1 it) * tx1
          | none => 0).getD 0 = if (∃ x, elAt g k K it = some x ∧ x.row = j) then termAdd tx1 e it g (.pos k K) else 0 := by
        intro g
        rw [termAdd, posOf]
        cases hf : (g.pos k).find? fun p => p.1 == K with
        | none => simp
        | some p =>
          have hpK : p.1 = K := by simpa using List.find?_some hf
          simp only [Option.map_some, Option.getD_some, esAdd]
          have hpo : posOf g k K = some p.2 := by rw [posOf, hf]; rfl
          cases hx : p.2[it]? with
          | none => simp
          | some x =>
            simp only
            rw [El.adds, hpK]
            by_cases hc : 0 < x.cnt
            · have hela : elAt g k K it = some x := elAt_iff.mpr ⟨_, hpo, hx, hc⟩
              by_cases hr : x.row = j
              · rw [if_pos (c := ∃ y, elAt g k K it = some y ∧ y.row = j) ⟨x, hela, hr⟩]
                by_cases hl : x.loc = e
                · rw [if_pos ⟨hr, hl⟩, if_pos hl]
                · rw [if_neg fun h => hl h.2, if_neg hl, zero_mul]
              · rw [if_neg fun h => hr h.1, if_neg, zero_mul]
                rintro ⟨y, hy, hy'⟩
                rw [hela] at hy
                obtain rfl := Option.some.inj hy
                exact hr hy'
            · have h0 : x.cnt = 0 := by omega
              rw [h0]
              simp
      rw [lsum_congr fun g _ => hel g]
      by_cases hm : it ∈ termIters I j (.pos k K)
      · have hm' := hm
        rw [termIters, List.mem_filter] at hm'
        rw [if_pos hm'.2]
        refine lsum_congr fun g hg => ?_
        cases hx : elAt g k K it with
        | none => rw [termAdd_zero (Or.inl hx)]; simp
        | some x => rw [if_pos ⟨x, rfl, elAt_row hI hm hg hx⟩]
      · rw [if_neg fun h => hm (by rw [termIters, List.mem_filter]; exact ⟨hit, h⟩)]
        symm
        refine lsum_zero fun g hg => if_neg ?_
        rintro ⟨x, hx, hr⟩
        exact hm (mem_termIters.mpr ⟨List.mem_range.mp hit, g, hg, x, hx, hr⟩)
    rw [lsum_congr fun K _ => h1 K, lsum_comm]
    refine lsum_congr fun g hg => ?_
    rw [lsum_comm]
    refine lsum_congr fun it _ => ?_
    exact lsum_keys (fun p : (Nat × Nat) × List El => match p.2[it]? with
      | some x => x.adds j e (g.val k p.1 it) * tx1
      | none => 0) (hI.keys g hg k) (ks := keysOf I k) (nub_nodup _) fun p hp => by
        unfold keysOf
        rw [mem_nub, List.mem_flatMap]
        exact ⟨g, hg, List.mem_map_of_mem hp⟩
  · rw [lsum_comm]
    refine lsum_congr fun p hp => ?_
    have hf : (I.const.find? fun q => q.1 == p.1) = some p := by
      cases hq : I.const.find? fun q => q.1 == p.1 with
      | none => have := List.find?_eq_none.mp hq p hp; simp at this
      | some q =>
        have h1 := List.mem_of_find?_eq_some hq
        have h2 := List.find?_some hq
        simp only [beq_iff_eq] at h2
        rw [List.inj_on_of_nodup_map hI.consts h1 hp h2]
    by_cases hpj : p.1.1 = j
    · rw [if_pos hpj]
      refine lsum_congr fun it _ => ?_
      rw [termSum, lsum_zero (f := fun eg => termAdd tx1 e it eg (.const p.1)) fun eg _ => rfl, zero_add, constAdd, hf]
      simp only
      by_cases he : p.2 = e
      · rw [if_pos he, if_pos ⟨hpj, he⟩]
      · rw [if_neg he, if_neg fun h => he h.2]
    · rw [if_neg hpj]
      symm
      exact lsum_zero fun it _ => if_neg fun h => hpj h.1

/-! ### the loops of a model -/

theorem runLoops_ok {isZ : (Nat → α) → Bool} (hz : ∀ f, isZ f = true → ∀ it, f it = 0) (tx1 : α) {j : Nat} (hj : j < n) :
    ∀ Is : List (Info α), (∀ I ∈ Is, I.Ok n) → ∀ out : Nat → α,
    ∃ o, runLoops isZ n tx1 j Is out = .ok o ∧ ∀ e, o e = out e + lsum Is fun I => lsum (List.range I.iters) (added I tx1 j e)
  | [], _, out => ⟨out, rfl, fun e => by simp⟩
  | I :: Is, h, out => by
    obtain ⟨o1, h1, h2⟩ := runGroups_ok hz (h I List.mem_cons_self) tx1 j (rowGroups I n) (fun _ h => h) out
    obtain ⟨o, g1, g2⟩ := runLoops_ok hz tx1 hj Is (fun I' h' => h I' (List.mem_cons_of_mem _ h')) o1
    refine ⟨o, ?_, fun e => ?_⟩
    · rw [runLoops, h1]; exact g1
    · rw [g2, h2, row_total (h I List.mem_cons_self) hj, lsum_cons, add_assoc]

/-- the code adds what it has to, if nothing is left without the factor -/
theorem added_right (tx1 : α) (j e it : Nat) (h : tx1 = 1 ∨ ∀ g ∈ I.groups, (∀ it < I.iters, it ∈ g.its) ∨ ∀ p ∈ I.const, ∀ it, g.cval p.1 it = 0) :
    added I tx1 j e it = I.atIt j e it * tx1 := by
  unfold added Info.atIt
  rw [add_mul]
  congr 1
  · change _ = lsum I.groups _ * tx1
    rw [← lsum_mul_right]
    refine lsum_congr fun g _ => ?_
    change _ = lsum kinds _ * tx1
    rw [← lsum_mul_right]
    refine lsum_congr fun k _ => ?_
    change _ = lsum (g.pos k) _ * tx1
    rw [← lsum_mul_right]
    refine lsum_congr fun p _ => ?_
    cases p.2[it]? <;> simp
  · change _ = lsum I.const _ * tx1
    rw [← lsum_mul_right]
    refine lsum_congr fun p hp => ?_
    by_cases hc : p.1.1 = j ∧ p.2 = e
    · rw [if_pos hc, if_pos hc, constVal, add_mul]
      congr 1
      change _ = lsum I.groups _ * tx1
      rw [← lsum_mul_right]
      refine lsum_congr fun g hg => ?_
      by_cases hi : it ∈ g.its
      · rw [if_pos hi, if_pos hi, factor]
        split
        · rfl
        · rename_i hf
          rcases h with h | h
          · rw [h]
          · rcases h g hg with h | h
            · exact absurd h hf
            · rw [h p hp]; simp
      · rw [if_neg hi, if_neg hi, zero_mul]
    · rw [if_neg hc, if_neg hc, zero_mul]

end Verif.Loops.Rev2
