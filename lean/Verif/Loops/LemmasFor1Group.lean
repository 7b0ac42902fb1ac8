import Verif.Loops.ModelFor1
import Verif.Loops.LemmasAn
import Mathlib.Data.List.Nodup
import Mathlib.Data.List.Basic

/-
The groups of columns of the first order forward mode.
-/
namespace Verif.Loops.For1

open Verif.Index

/-! ### maps of sets -/

theorem putIn_keys {K V : Type} [DecidableEq K] (k : K) (v : V) : ∀ (m : List (K × List V)) (x : K),
    x ∈ (putIn k v m).map (·.1) ↔ x = k ∨ x ∈ m.map (·.1)
  | [], x => by simp [putIn]
  | (k', vs) :: m, x => by
    rw [putIn]
    by_cases h : k' = k
    · rw [if_pos h]; subst h; simp
    · rw [if_neg h, List.map_cons, List.mem_cons, putIn_keys k v m x, List.map_cons, List.mem_cons]
      constructor
      · rintro (h | h | h)
        · exact Or.inr (Or.inl h)
        · exact Or.inl h
        · exact Or.inr (Or.inr h)
      · rintro (h | h | h)
        · exact Or.inr (Or.inl h)
        · exact Or.inl h
        · exact Or.inr (Or.inr h)

theorem putIn_spec {K V : Type} [DecidableEq K] (k : K) (v : V) (F : K → List V) : ∀ (m : List (K × List V)), (m.map (·.1)).Nodup →
    (∀ p ∈ m, p.2 = F p.1) → (k ∉ m.map (·.1) → F k = []) →
    ((putIn k v m).map (·.1)).Nodup ∧ ∀ p ∈ putIn k v m, p.2 = if p.1 = k then F k ++ [v] else F p.1
  | [], _, _, h => by
    refine ⟨by simp [putIn], ?_⟩
    intro p hp
    simp only [putIn, List.mem_singleton] at hp
    subst hp
    rw [if_pos rfl, h (by simp)]
    rfl
  | (k', vs) :: m, hn, hF, h => by
    rw [List.map_cons, List.nodup_cons] at hn
    rw [putIn]
    by_cases hk : k' = k
    · rw [if_pos hk]
      refine ⟨by rw [List.map_cons, List.nodup_cons]; exact hn, ?_⟩
      intro p hp
      rcases List.mem_cons.mp hp with rfl | hp
      · rw [if_pos hk]
        have := hF _ List.mem_cons_self
        simp only at this ⊢
        rw [this, hk]
      · rw [if_neg]
        · exact hF p (List.mem_cons_of_mem _ hp)
        · intro hpk
          exact hn.1 (by simp only; rw [hk, ← hpk]; exact List.mem_map.mpr ⟨p, hp, rfl⟩)
    · rw [if_neg hk]
      obtain ⟨h1, h2⟩ := putIn_spec k v F m hn.2 (fun p hp => hF p (List.mem_cons_of_mem _ hp)) (by
        intro hkm
        refine h ?_
        rw [List.map_cons, List.mem_cons]
        rintro (h' | h')
        · exact hk h'.symm
        · exact hkm h')
      refine ⟨?_, ?_⟩
      · rw [List.map_cons, List.nodup_cons]
        refine ⟨?_, h1⟩
        rw [putIn_keys]
        rintro (h' | h')
        · exact hk h'
        · exact hn.1 h'
      · intro p hp
        rcases List.mem_cons.mp hp with rfl | hp
        · rw [if_neg hk]
          exact hF _ List.mem_cons_self
        · exact h2 p hp

/-- values of one key -/
def valuesOf {K V : Type} [DecidableEq K] (ps : List (K × V)) (k : K) : List V := (ps.filter fun p => p.1 = k).map (·.2)

theorem gather_spec {K V : Type} [DecidableEq K] (ps : List (K × V)) :
    ((gather ps).map (·.1)).Nodup ∧ (∀ p ∈ gather ps, p.2 = valuesOf ps p.1) ∧ ∀ k, k ∈ (gather ps).map (·.1) ↔ k ∈ ps.map (·.1) := by
  induction ps using List.reverseRecOn with
  | nil => simp [gather]
  | append_singleton ps p ih =>
    obtain ⟨h1, h2, h3⟩ := ih
    have e : gather (ps ++ [p]) = putIn p.1 p.2 (gather ps) := by simp [gather]
    obtain ⟨g1, g2⟩ := putIn_spec p.1 p.2 (valuesOf ps) (gather ps) h1 h2 (by
      intro h
      rw [h3] at h
      rw [valuesOf, List.map_eq_nil_iff, List.filter_eq_nil_iff]
      intro a ha hk
      exact h (List.mem_map.mpr ⟨a, ha, by simpa using hk⟩))
    rw [e]
    refine ⟨g1, ?_, ?_⟩
    · intro x hx
      rw [g2 x hx]
      by_cases hk : x.1 = p.1
      · rw [if_pos hk, valuesOf, valuesOf, List.filter_append, List.map_append, hk]
        simp
      · rw [if_neg hk, valuesOf, valuesOf, List.filter_append, List.map_append]
        simp [Ne.symm hk]
    · intro k
      rw [putIn_keys, h3]
      simp [or_comm]

theorem mem_gather {K V : Type} [DecidableEq K] {ps : List (K × V)} {k : K} {vs : List V} :
    (k, vs) ∈ gather ps ↔ k ∈ ps.map (·.1) ∧ vs = valuesOf ps k := by
  obtain ⟨_, h2, h3⟩ := gather_spec ps
  constructor
  · intro h
    exact ⟨(h3 k).mp (List.mem_map.mpr ⟨_, h, rfl⟩), h2 _ h⟩
  · rintro ⟨h, rfl⟩
    obtain ⟨p, hp, rfl⟩ := List.mem_map.mp ((h3 k).mpr h)
    rw [← h2 p hp]
    exact hp

theorem mem_valuesOf {K V : Type} [DecidableEq K] {ps : List (K × V)} {k : K} {v : V} : v ∈ valuesOf ps k ↔ (k, v) ∈ ps := by
  unfold valuesOf
  rw [List.mem_map]
  constructor
  · rintro ⟨p, hp, rfl⟩
    rw [List.mem_filter] at hp
    have : p.1 = k := by simpa using hp.2
    rw [← this]; exact hp.1
  · intro h
    exact ⟨(k, v), List.mem_filter.mpr ⟨h, by simp⟩, rfl⟩

theorem valuesOf_nodup {K V : Type} [DecidableEq K] {ps : List (K × V)} (h : ps.Nodup) (k : K) : (valuesOf ps k).Nodup := by
  unfold valuesOf
  refine List.Nodup.map_on ?_ (h.filter _)
  intro x hx y hy hxy
  rw [List.mem_filter] at hx hy
  have hx2 : x.1 = k := by simpa using hx.2
  have hy2 : y.1 = k := by simpa using hy.2
  exact Prod.ext (hx2.trans hy2.symm) hxy

/-! ### columns with the same contributions -/

variable (a : An) (q : Nat) (l : Loop) (n : Nat)

/-- iterations of a contribution to a column -/
def termIters (j : Nat) : Term → List Nat
  | .idx t => idxIters a q l t j
  | .non j' => nonIters a q l j'

variable {a q l n}

theorem mem_contr {j : Nat} {tm : Term} : tm ∈ contr a q l j ↔
    termIters a q l j tm ≠ [] ∧ (match tm with | .idx t => t < l.ind.length | .non j' => j' = j) := by
  unfold contr
  rw [List.mem_append, List.mem_map]
  cases tm with
  | idx t =>
    simp only [termIters]
    constructor
    · rintro (⟨t', h1, h2⟩ | h)
      · obtain rfl : t' = t := by injection h2
        rw [List.mem_filter, List.mem_range] at h1
        exact ⟨by simpa using h1.2, h1.1⟩
      · split at h <;> simp at h
    · rintro ⟨h1, h2⟩
      exact Or.inl ⟨t, List.mem_filter.mpr ⟨List.mem_range.mpr h2, by simpa using h1⟩, rfl⟩
  | non j' =>
    simp only [termIters]
    constructor
    · rintro (⟨t', _, h2⟩ | h)
      · exact absurd h2 nofun
      · split at h
        · simp at h
        · rename_i hne
          obtain rfl : j' = j := by simpa using h
          exact ⟨hne, rfl⟩
    · rintro ⟨h1, rfl⟩
      right
      rw [if_neg h1]
      exact List.mem_singleton.mpr rfl

theorem contr_nodup (j : Nat) : (contr a q l j).Nodup := by
  unfold contr
  rw [List.nodup_append]
  refine ⟨List.Nodup.map (fun x y h => by injection h) (List.nodup_range.filter _), ?_, ?_⟩
  · split <;> simp
  · intro x hx y hy hxy
    obtain ⟨t, _, rfl⟩ := List.mem_map.mp hx
    split at hy
    · simp at hy
    · obtain rfl := List.mem_singleton.mp hy
      exact absurd hxy nofun

theorem byContr_mem {c : List Term × List Nat} (h : c ∈ byContr a q l n) :
    c.1 ≠ [] ∧ c.2.Nodup ∧ c.2 ≠ [] ∧ ∀ j ∈ c.2, j < n ∧ contr a q l j = c.1 := by
  obtain ⟨k, vs⟩ := c
  unfold byContr at h
  obtain ⟨h1, h2⟩ := mem_gather.mp h
  have hv : ∀ j ∈ vs, j < n ∧ contr a q l j = k ∧ k ≠ [] := by
    intro j hj
    rw [h2, mem_valuesOf, List.mem_filterMap] at hj
    obtain ⟨j', g1, g2⟩ := hj
    rw [List.mem_range] at g1
    split at g2
    · simp at g2
    · rename_i hne
      simp only [Option.some.injEq, Prod.mk.injEq] at g2
      obtain ⟨rfl, rfl⟩ := g2
      exact ⟨g1, rfl, hne⟩
  have hne : vs ≠ [] := by
    obtain ⟨⟨k', j⟩, hp, hk⟩ := List.mem_map.mp h1
    simp only at hk
    subst hk
    have : j ∈ vs := by rw [h2, mem_valuesOf]; exact hp
    exact List.ne_nil_of_mem this
  obtain ⟨j0, hj0⟩ := List.exists_mem_of_ne_nil _ hne
  refine ⟨(hv j0 hj0).2.2, ?_, hne, fun j hj => ⟨(hv j hj).1, (hv j hj).2.1⟩⟩
  simp only
  rw [h2]
  refine valuesOf_nodup ?_ k
  refine List.Nodup.filterMap ?_ List.nodup_range
  intro x y b hx hy
  simp only [Option.mem_def] at hx hy
  split at hx
  · simp at hx
  · split at hy
    · simp at hy
    · rw [← hy] at hx
      simp only [Option.some.injEq, Prod.mk.injEq] at hx
      exact hx.2

theorem byContr_exists {j : Nat} (hj : j < n) (hne : contr a q l j ≠ []) : ∃ c ∈ byContr a q l n, c.1 = contr a q l j ∧ j ∈ c.2 := by
  refine ⟨(contr a q l j, valuesOf _ (contr a q l j)), mem_gather.mpr ⟨?_, rfl⟩, rfl, ?_⟩
  · exact List.mem_map.mpr ⟨(contr a q l j, j), List.mem_filterMap.mpr ⟨j, List.mem_range.mpr hj, by rw [if_neg hne]⟩, rfl⟩
  · exact mem_valuesOf.mpr (List.mem_filterMap.mpr ⟨j, List.mem_range.mpr hj, by rw [if_neg hne]⟩)

theorem byContr_eq {c c' : List Term × List Nat} (h : c ∈ byContr a q l n) (h' : c' ∈ byContr a q l n) (he : c.1 = c'.1) : c = c' := by
  refine Prod.ext he ?_
  have e1 := (mem_gather.mp (show (c.1, c.2) ∈ _ from h)).2
  have e2 := (mem_gather.mp (show (c'.1, c'.2) ∈ _ from h')).2
  rw [e1, e2, he]

/-- the pairs from which the entries are made -/
def pairs (a : An) (q : Nat) (l : Loop) (c : List Term × List Nat) : List ((Nat × List Nat) × Term) :=
  c.1.flatMap fun tm => match tm with
    | .idx t => (c.2.filter fun j => idxIters a q l t j ≠ []).map fun j => ((j, idxIters a q l t j), tm)
    | .non j => [((j, nonIters a q l j), tm)]

theorem mem_pairs {c : List Term × List Nat} (h : c ∈ byContr a q l n) {j : Nat} {its : List Nat} {tm : Term} :
    ((j, its), tm) ∈ pairs a q l c ↔ j ∈ c.2 ∧ tm ∈ c.1 ∧ its = termIters a q l j tm := by
  obtain ⟨_, _, hne, hj⟩ := byContr_mem h
  unfold pairs
  rw [List.mem_flatMap]
  constructor
  · rintro ⟨tm', h1, h2⟩
    cases tm' with
    | idx t =>
      simp only [List.mem_map, List.mem_filter, Prod.mk.injEq] at h2
      obtain ⟨j', ⟨g1, _⟩, ⟨rfl, rfl⟩, rfl⟩ := h2
      exact ⟨g1, h1, rfl⟩
    | non j' =>
      simp only [List.mem_singleton, Prod.mk.injEq] at h2
      obtain ⟨⟨rfl, rfl⟩, rfl⟩ := h2
      obtain ⟨j0, hj0⟩ := List.exists_mem_of_ne_nil _ hne
      have := (mem_contr (tm := .non j)).mp (by rw [(hj j0 hj0).2]; exact h1)
      have h2 : j = j0 := this.2
      exact ⟨h2 ▸ hj0, h1, rfl⟩
  · rintro ⟨h1, h2, rfl⟩
    refine ⟨tm, h2, ?_⟩
    have hc := mem_contr.mp (show tm ∈ contr a q l j by rw [(hj j h1).2]; exact h2)
    cases tm with
    | idx t =>
      simp only [List.mem_map, List.mem_filter, Prod.mk.injEq]
      exact ⟨j, ⟨h1, by simpa [termIters] using hc.1⟩, ⟨rfl, rfl⟩, trivial⟩
    | non j' =>
      obtain rfl : j' = j := hc.2
      simp [termIters]

theorem pairs_nodup {c : List Term × List Nat} (h : c ∈ byContr a q l n) : (pairs a q l c).Nodup := by
  obtain ⟨_, hnd, hne, hj⟩ := byContr_mem h
  obtain ⟨j0, hj0⟩ := List.exists_mem_of_ne_nil _ hne
  have hc1 : c.1.Nodup := by rw [← (hj j0 hj0).2]; exact contr_nodup j0
  unfold pairs
  rw [List.nodup_flatMap]
  refine ⟨?_, ?_⟩
  · intro tm _
    cases tm with
    | idx t =>
      simp only
      refine List.Nodup.map ?_ (hnd.filter _)
      intro x y hxy
      simp only [Prod.mk.injEq] at hxy
      exact hxy.1.1
    | non j => simp
  · refine List.Pairwise.imp ?_ hc1
    intro x y hxy
    simp only [Function.onFun, List.Disjoint]
    intro p hp hq
    have h1 : p.2 = x := by
      cases x with
      | idx t => simp only [List.mem_map] at hp; obtain ⟨_, _, rfl⟩ := hp; rfl
      | non j => simp only [List.mem_singleton] at hp; rw [hp]
    have h2 : p.2 = y := by
      cases y with
      | idx t => simp only [List.mem_map] at hq; obtain ⟨_, _, rfl⟩ := hq; rfl
      | non j => simp only [List.mem_singleton] at hq; rw [hq]
    exact hxy (h1.symm.trans h2)

/-! ### all entries -/

def allEntries (a : An) (q : Nat) (l : Loop) (n : Nat) : List ((Nat × List Nat) × List Term) := (byContr a q l n).flatMap (entries a q l)

theorem entry_mem {j : Nat} {its : List Nat} {tms : List Term} (h : ((j, its), tms) ∈ allEntries a q l n) :
    j < n ∧ tms ≠ [] ∧ tms.Nodup ∧ ∀ tm, tm ∈ tms ↔ tm ∈ contr a q l j ∧ termIters a q l j tm = its := by
  unfold allEntries at h
  obtain ⟨c, hc, h⟩ := List.mem_flatMap.mp h
  obtain ⟨h1, h2⟩ := mem_gather.mp (show ((j, its), tms) ∈ gather (pairs a q l c) from h)
  obtain ⟨_, _, _, hj⟩ := byContr_mem hc
  obtain ⟨⟨k, tm⟩, hp, hk⟩ := List.mem_map.mp h1
  simp only at hk
  subst hk
  obtain ⟨g1, g2, g3⟩ := (mem_pairs hc).mp hp
  refine ⟨(hj j g1).1, ?_, ?_, ?_⟩
  · have : tm ∈ tms := by rw [h2, mem_valuesOf]; exact hp
    exact List.ne_nil_of_mem this
  · rw [h2]; exact valuesOf_nodup (pairs_nodup hc) _
  · intro tm'
    rw [h2, mem_valuesOf, mem_pairs hc, (hj j g1).2]
    constructor
    · rintro ⟨_, k2, k3⟩; exact ⟨k2, k3.symm⟩
    · rintro ⟨k2, k3⟩; exact ⟨g1, k2, k3.symm⟩

theorem entry_exists {j : Nat} (hj : j < n) {tm : Term} (htm : tm ∈ contr a q l j) :
    ∃ tms, ((j, termIters a q l j tm), tms) ∈ allEntries a q l n ∧ tm ∈ tms := by
  obtain ⟨c, hc, h1, h2⟩ := byContr_exists hj (List.ne_nil_of_mem htm)
  have hp : ((j, termIters a q l j tm), tm) ∈ pairs a q l c := (mem_pairs hc).mpr ⟨h2, by rw [h1]; exact htm, rfl⟩
  refine ⟨valuesOf (pairs a q l c) (j, termIters a q l j tm), ?_, mem_valuesOf.mpr hp⟩
  exact List.mem_flatMap.mpr ⟨c, hc, mem_gather.mpr ⟨List.mem_map.mpr ⟨_, hp, rfl⟩, rfl⟩⟩

theorem entry_eq {j : Nat} {its : List Nat} {tms tms' : List Term} (h : ((j, its), tms) ∈ allEntries a q l n)
    (h' : ((j, its), tms') ∈ allEntries a q l n) : tms = tms' := by
  obtain ⟨c, hc, h⟩ := List.mem_flatMap.mp h
  obtain ⟨c', hc', h'⟩ := List.mem_flatMap.mp h'
  have g := mem_gather.mp (show ((j, its), tms) ∈ gather (pairs a q l c) from h)
  have g' := mem_gather.mp (show ((j, its), tms') ∈ gather (pairs a q l c') from h')
  have key : ∀ {c : List Term × List Nat}, c ∈ byContr a q l n → (j, its) ∈ (pairs a q l c).map (·.1) → contr a q l j = c.1 := by
    intro c hc hm
    obtain ⟨⟨k, tm⟩, hp, hk⟩ := List.mem_map.mp hm
    simp only at hk
    subst hk
    obtain ⟨_, _, _, hj⟩ := byContr_mem hc
    exact (hj j ((mem_pairs hc).mp hp).1).2
  obtain rfl := byContr_eq hc hc' ((key hc g.1).symm.trans (key hc' g'.1))
  rw [g.2, g'.2]

theorem entry_iters {j : Nat} {its its' : List Nat} {tms : List Term} (h : ((j, its), tms) ∈ allEntries a q l n)
    (h' : ((j, its'), tms) ∈ allEntries a q l n) : its = its' := by
  obtain ⟨_, h1, _, h2⟩ := entry_mem h
  obtain ⟨_, _, _, h3⟩ := entry_mem h'
  obtain ⟨tm, htm⟩ := List.exists_mem_of_ne_nil _ h1
  rw [← ((h2 tm).mp htm).2, ← ((h3 tm).mp htm).2]

/-! ### the groups -/

theorem addSub_spec (e : (Nat × List Nat) × List Term) : ∀ gs : List ColGroup,
    (e.2 ∉ gs.map (·.terms) ∧ addSub gs e = gs ++ [⟨e.2, [e.1], e.1.2⟩]) ∨
    ∃ pre g post, gs = pre ++ g :: post ∧ g.terms = e.2 ∧ addSub gs e = pre ++ ⟨e.2, put e.1.1 e.1.2 g.cols, g.iters ++ e.1.2⟩ :: post
  | [] => Or.inl ⟨by simp, rfl⟩
  | g :: gs => by
    rw [addSub]
    by_cases h : g.terms = e.2
    · rw [if_pos h]
      exact Or.inr ⟨[], g, gs, rfl, h, by rw [h]; rfl⟩
    · rw [if_neg h]
      rcases addSub_spec e gs with ⟨h1, h2⟩ | ⟨pre, g', post, h1, h2, h3⟩
      · left
        refine ⟨?_, by rw [h2]; rfl⟩
        rw [List.map_cons, List.mem_cons]
        rintro (h' | h')
        · exact h h'.symm
        · exact h1 h'
      · exact Or.inr ⟨g :: pre, g', post, by rw [h1]; rfl, h2, by rw [h3]; rfl⟩

/-- the groups made of the entries -/
structure GroupsOf (es : List ((Nat × List Nat) × List Term)) (gs : List ColGroup) : Prop where
  nd : (gs.map (·.terms)).Nodup
  cols : ∀ g ∈ gs, ∀ j its, (j, its) ∈ g.cols → ((j, its), g.terms) ∈ es
  sorted : ∀ g ∈ gs, Sorted g.cols
  all : ∀ j its tms, ((j, its), tms) ∈ es → ∃ g ∈ gs, g.terms = tms ∧ (j, its) ∈ g.cols ∧ ∀ it ∈ its, it ∈ g.iters
  its : ∀ g ∈ gs, ∀ it ∈ g.iters, ∃ j its, ((j, its), g.terms) ∈ es ∧ it ∈ its

theorem groupsOf_foldl (es : List ((Nat × List Nat) × List Term))
    (hfun : ∀ j its its' tms, ((j, its), tms) ∈ es → ((j, its'), tms) ∈ es → its = its') : GroupsOf es (es.foldl addSub []) := by
  induction es using List.reverseRecOn with
  | nil => exact ⟨by simp, by simp, by simp, by simp, by simp⟩
  | append_singleton es e ih =>
    have ih := ih fun j its its' tms h h' => hfun j its its' tms (List.mem_append_left _ h) (List.mem_append_left _ h')
    rw [List.foldl_append, List.foldl_cons, List.foldl_nil]
    generalize es.foldl addSub [] = gs at ih
    obtain ⟨⟨je, ie⟩, te⟩ := e
    rcases addSub_spec ((je, ie), te) gs with ⟨h1, h2⟩ | ⟨pre, g0, post, rfl, h2, h3⟩
    · rw [h2]
      simp only at h1
      refine ⟨?_, ?_, ?_, ?_, ?_⟩
      · rw [List.map_append, List.nodup_append]
        refine ⟨ih.nd, by simp, ?_⟩
        intro x hx y hy hxy
        simp only [List.map_cons, List.map_nil, List.mem_singleton] at hy
        exact h1 (hy ▸ hxy ▸ hx)
      · intro g hg j its hj
        rcases List.mem_append.mp hg with hg | hg
        · exact List.mem_append_left _ (ih.cols g hg j its hj)
        · obtain rfl := List.mem_singleton.mp hg
          simp only [List.mem_singleton, Prod.mk.injEq] at hj
          obtain ⟨rfl, rfl⟩ := hj
          exact List.mem_append_right _ (List.mem_singleton.mpr rfl)
      · intro g hg
        rcases List.mem_append.mp hg with hg | hg
        · exact ih.sorted g hg
        · obtain rfl := List.mem_singleton.mp hg
          exact List.pairwise_singleton _ _
      · intro j its tms h
        rcases List.mem_append.mp h with h | h
        · obtain ⟨g, g1, g2⟩ := ih.all j its tms h
          exact ⟨g, List.mem_append_left _ g1, g2⟩
        · simp only [List.mem_singleton, Prod.mk.injEq] at h
          obtain ⟨⟨rfl, rfl⟩, rfl⟩ := h
          exact ⟨_, List.mem_append_right _ (List.mem_singleton.mpr rfl), rfl, by simp, fun _ h => h⟩
      · intro g hg it hit
        rcases List.mem_append.mp hg with hg | hg
        · obtain ⟨j, its, k1, k2⟩ := ih.its g hg it hit
          exact ⟨j, its, List.mem_append_left _ k1, k2⟩
        · obtain rfl := List.mem_singleton.mp hg
          exact ⟨je, ie, List.mem_append_right _ (List.mem_singleton.mpr rfl), hit⟩
    · rw [h3]
      simp only at h2 ⊢
      have hg0 : g0 ∈ pre ++ g0 :: post := List.mem_append_right _ List.mem_cons_self
      have hother : ∀ g, g ∈ pre ∨ g ∈ post → g ∈ pre ++ g0 :: post := fun g h =>
        h.elim (List.mem_append_left _) fun h => List.mem_append_right _ (List.mem_cons_of_mem _ h)
      have hsplit : ∀ g, g ∈ pre ++ (⟨te, put je ie g0.cols, g0.iters ++ ie⟩ : ColGroup) :: post →
          (g ∈ pre ∨ g ∈ post) ∨ g = ⟨te, put je ie g0.cols, g0.iters ++ ie⟩ := by
        intro g hg
        rcases List.mem_append.mp hg with hg | hg
        · exact Or.inl (Or.inl hg)
        · rcases List.mem_cons.mp hg with hg | hg
          · exact Or.inr hg
          · exact Or.inl (Or.inr hg)
      refine ⟨?_, ?_, ?_, ?_, ?_⟩
      · have := ih.nd
        simp only [List.map_append, List.map_cons] at this ⊢
        rwa [h2] at this
      · intro g hg j its hj
        rcases hsplit g hg with hg | rfl
        · exact List.mem_append_left _ (ih.cols g (hother g hg) j its hj)
        · simp only at hj ⊢
          rcases put_mem hj with h | h
          · simp only [Prod.mk.injEq] at h
            obtain ⟨rfl, rfl⟩ := h
            exact List.mem_append_right _ (List.mem_singleton.mpr rfl)
          · rw [← h2]
            exact List.mem_append_left _ (ih.cols g0 hg0 j its h)
      · intro g hg
        rcases hsplit g hg with hg | rfl
        · exact ih.sorted g (hother g hg)
        · exact put_sorted (ih.sorted g0 hg0)
      · intro j its tms h
        rcases List.mem_append.mp h with h | h
        · obtain ⟨g, g1, g2, g3, g4⟩ := ih.all j its tms h
          rcases List.mem_append.mp g1 with g1 | g1
          · exact ⟨g, List.mem_append_left _ g1, g2, g3, g4⟩
          · rcases List.mem_cons.mp g1 with rfl | g1
            · refine ⟨_, List.mem_append_right _ List.mem_cons_self, h2.symm.trans g2, ?_, fun it hit => List.mem_append_left _ (g4 it hit)⟩
              simp only
              by_cases hj : j = je
              · subst hj
                have : its = ie := hfun j its ie tms h (by
                  rw [← g2, h2]; exact List.mem_append_right _ (List.mem_singleton.mpr rfl))
                rw [this]
                exact mem_put_self
              · exact mem_put_other g3 hj
            · exact ⟨g, List.mem_append_right _ (List.mem_cons_of_mem _ g1), g2, g3, g4⟩
        · simp only [List.mem_singleton, Prod.mk.injEq] at h
          obtain ⟨⟨rfl, rfl⟩, rfl⟩ := h
          exact ⟨_, List.mem_append_right _ List.mem_cons_self, rfl, mem_put_self, fun it hit => List.mem_append_right _ hit⟩
      · intro g hg it hit
        rcases hsplit g hg with hg | rfl
        · obtain ⟨j, its, k1, k2⟩ := ih.its g (hother g hg) it hit
          exact ⟨j, its, List.mem_append_left _ k1, k2⟩
        · simp only at hit ⊢
          rcases List.mem_append.mp hit with h | h
          · obtain ⟨j, its, k1, k2⟩ := ih.its g0 hg0 it h
            rw [h2] at k1
            exact ⟨j, its, List.mem_append_left _ k1, k2⟩
          · exact ⟨je, ie, List.mem_append_right _ (List.mem_singleton.mpr rfl), h⟩

theorem colGroups_ok (a : An) (q : Nat) (l : Loop) (n : Nat) : GroupsOf (allEntries a q l n) (colGroups a q l n) :=
  groupsOf_foldl _ fun _ _ _ _ h h' => entry_iters h h'

end Verif.Loops.For1
