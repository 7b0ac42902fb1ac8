import Verif.Loops.ModelRev2
import Verif.Loops.LemmasFor1Group
import Verif.Loops.LemmasSum

/-
The groups of rows of the second order reverse mode. The lemmas follow those of `LemmasFor1Group`.
-/
namespace Verif.Loops.Rev2

open Verif.Index For1

variable {α : Type} {I : Info α} {n : Nat}

theorem mem_contr (hI : 0 < I.iters) {j : Nat} {tm : Term} : tm ∈ contr I j ↔
    termIters I j tm ≠ [] ∧ (match tm with | .pos k K => K ∈ keysOf I k | .const K => K ∈ I.const.map (·.1) ∧ K.1 = j) := by
  unfold contr
  rw [List.mem_append, List.mem_flatMap, List.mem_map]
  cases tm with
  | pos k K =>
    simp only
    constructor
    · rintro (⟨k', _, h⟩ | ⟨K', _, h⟩)
      · rw [List.mem_filter, List.mem_map] at h
        obtain ⟨⟨K', h1, h2⟩, h3⟩ := h
        injection h2 with h4 h5
        subst h4; subst h5
        exact ⟨by simpa using h3, h1⟩
      · exact absurd h nofun
    · rintro ⟨h1, h2⟩
      refine Or.inl ⟨k, by cases k <;> simp [kinds], ?_⟩
      rw [List.mem_filter]
      exact ⟨List.mem_map.mpr ⟨K, h2, rfl⟩, by simpa using h1⟩
  | const K =>
    simp only
    constructor
    · rintro (⟨k', _, h⟩ | ⟨K', h, h'⟩)
      · rw [List.mem_filter, List.mem_map] at h
        obtain ⟨⟨K', _, h2⟩, _⟩ := h
        exact absurd h2 nofun
      · injection h' with h'
        subst h'
        rw [List.mem_filter] at h
        refine ⟨?_, h.1, by simpa using h.2⟩
        simp only [termIters, ne_eq, List.range_eq_nil]
        omega
    · rintro ⟨_, h1, h2⟩
      exact Or.inr ⟨K, List.mem_filter.mpr ⟨h1, by simpa using h2⟩, rfl⟩

theorem contr_nodup (hcd : (I.const.map (·.1)).Nodup) (j : Nat) : (contr I j).Nodup := by
  unfold contr
  rw [List.nodup_append]
  refine ⟨?_, List.Nodup.map (fun x y h => by injection h) (hcd.filter _), ?_⟩
  · rw [List.nodup_flatMap]
    refine ⟨fun k _ => List.Nodup.filter _ (List.Nodup.map (fun x y h => by injection h) (nub_nodup _)), ?_⟩
    have : kinds.Nodup := by decide
    refine List.Pairwise.imp ?_ this
    intro x y hxy tm h1 h2
    rw [List.mem_filter, List.mem_map] at h1 h2
    obtain ⟨⟨_, _, rfl⟩, _⟩ := h1
    obtain ⟨⟨_, _, h⟩, _⟩ := h2
    injection h with h _
    exact hxy h.symm
  · intro x hx y hy hxy
    rw [List.mem_flatMap] at hx
    obtain ⟨k, _, hx⟩ := hx
    rw [List.mem_filter, List.mem_map] at hx
    obtain ⟨⟨_, _, rfl⟩, _⟩ := hx
    obtain ⟨_, _, rfl⟩ := List.mem_map.mp hy
    exact absurd hxy nofun

theorem byContr_mem {c : List Term × List Nat} (h : c ∈ byContr I n) :
    c.1 ≠ [] ∧ c.2.Nodup ∧ c.2 ≠ [] ∧ ∀ j ∈ c.2, j < n ∧ contr I j = c.1 := by
  obtain ⟨k, vs⟩ := c
  unfold byContr at h
  obtain ⟨h1, h2⟩ := mem_gather.mp h
  have hv : ∀ j ∈ vs, j < n ∧ contr I j = k ∧ k ≠ [] := by
    intro j hj
    rw [h2, mem_valuesOf, List.mem_filterMap] at hj
    obtain ⟨j', g1, g2⟩ := hj
    rw [List.mem_range] at g1
    split at g2
    · simp at g2
    · rename_i hne
      simp only [Option.some.injEq, Prod.mk.injEq] at g2
      obtain ⟨rfl, rfl⟩ := g2
      exact ⟨g1, rfl, hne⟩
  have hne : vs ≠ [] := by
    obtain ⟨⟨k', j⟩, hp, hk⟩ := List.mem_map.mp h1
    simp only at hk
    subst hk
    have : j ∈ vs := by rw [h2, mem_valuesOf]; exact hp
    exact List.ne_nil_of_mem this
  obtain ⟨j0, hj0⟩ := List.exists_mem_of_ne_nil _ hne
  refine ⟨(hv j0 hj0).2.2, ?_, hne, fun j hj => ⟨(hv j hj).1, (hv j hj).2.1⟩⟩
  simp only
  rw [h2]
  refine valuesOf_nodup ?_ k
  refine List.Nodup.filterMap ?_ List.nodup_range
  intro x y b hx hy
  simp only [Option.mem_def] at hx hy
  split at hx
  · simp at hx
  · split at hy
    · simp at hy
    · rw [← hy] at hx
      simp only [Option.some.injEq, Prod.mk.injEq] at hx
      exact hx.2

theorem byContr_exists {j : Nat} (hj : j < n) (hne : contr I j ≠ []) : ∃ c ∈ byContr I n, c.1 = contr I j ∧ j ∈ c.2 := by
  refine ⟨(contr I j, valuesOf _ (contr I j)), mem_gather.mpr ⟨?_, rfl⟩, rfl, ?_⟩
  · exact List.mem_map.mpr ⟨(contr I j, j), List.mem_filterMap.mpr ⟨j, List.mem_range.mpr hj, by rw [if_neg hne]⟩, rfl⟩
  · exact mem_valuesOf.mpr (List.mem_filterMap.mpr ⟨j, List.mem_range.mpr hj, by rw [if_neg hne]⟩)

theorem byContr_eq {c c' : List Term × List Nat} (h : c ∈ byContr I n) (h' : c' ∈ byContr I n) (he : c.1 = c'.1) : c = c' := by
  refine Prod.ext he ?_
  have e1 := (mem_gather.mp (show (c.1, c.2) ∈ _ from h)).2
  have e2 := (mem_gather.mp (show (c'.1, c'.2) ∈ _ from h')).2
  rw [e1, e2, he]

/-- the pairs from which the entries are made -/
def pairs (I : Info α) (c : List Term × List Nat) : List ((Nat × List Nat) × Term) :=
  c.1.flatMap fun tm => match tm with
    | .pos _ _ => (c.2.filter fun j => termIters I j tm ≠ []).map fun j => ((j, termIters I j tm), tm)
    | .const K => [((K.1, List.range I.iters), tm)]

theorem mem_pairs (hI : 0 < I.iters) {c : List Term × List Nat} (h : c ∈ byContr I n) {j : Nat} {its : List Nat} {tm : Term} :
    ((j, its), tm) ∈ pairs I c ↔ j ∈ c.2 ∧ tm ∈ c.1 ∧ its = termIters I j tm := by
  obtain ⟨_, _, hne, hj⟩ := byContr_mem h
  unfold pairs
  rw [List.mem_flatMap]
  constructor
  · rintro ⟨tm', h1, h2⟩
    cases tm' with
    | pos k K =>
      simp only [List.mem_map, List.mem_filter, Prod.mk.injEq] at h2
      obtain ⟨j', ⟨g1, _⟩, ⟨rfl, rfl⟩, rfl⟩ := h2
      exact ⟨g1, h1, rfl⟩
    | const K =>
      simp only [List.mem_singleton, Prod.mk.injEq] at h2
      obtain ⟨⟨rfl, rfl⟩, rfl⟩ := h2
      obtain ⟨j0, hj0⟩ := List.exists_mem_of_ne_nil _ hne
      have := (mem_contr hI (tm := .const K)).mp (by rw [(hj j0 hj0).2]; exact h1)
      have h2 : K.1 = j0 := this.2.2
      exact ⟨h2 ▸ hj0, h1, rfl⟩
  · rintro ⟨h1, h2, rfl⟩
    refine ⟨tm, h2, ?_⟩
    have hc := (mem_contr hI).mp (show tm ∈ contr I j by rw [(hj j h1).2]; exact h2)
    cases tm with
    | pos k K =>
      simp only [List.mem_map, List.mem_filter, Prod.mk.injEq]
      exact ⟨j, ⟨h1, by simpa using hc.1⟩, ⟨rfl, rfl⟩, trivial⟩
    | const K =>
      obtain rfl : K.1 = j := hc.2.2
      simp [termIters]

theorem pairs_nodup (hcd : (I.const.map (·.1)).Nodup) {c : List Term × List Nat} (h : c ∈ byContr I n) : (pairs I c).Nodup := by
  obtain ⟨_, hnd, hne, hj⟩ := byContr_mem h
  obtain ⟨j0, hj0⟩ := List.exists_mem_of_ne_nil _ hne
  have hc1 : c.1.Nodup := by rw [← (hj j0 hj0).2]; exact contr_nodup hcd j0
  unfold pairs
  rw [List.nodup_flatMap]
  refine ⟨?_, ?_⟩
  · intro tm _
    cases tm with
    | pos k K =>
      simp only
      refine List.Nodup.map ?_ (hnd.filter _)
      intro x y hxy
      simp only [Prod.mk.injEq] at hxy
      exact hxy.1.1
    | const j => simp
  · refine List.Pairwise.imp ?_ hc1
    intro x y hxy
    simp only [Function.onFun, List.Disjoint]
    intro p hp hq
    have h1 : p.2 = x := by
      cases x with
      | pos k K => simp only [List.mem_map] at hp; obtain ⟨_, _, rfl⟩ := hp; rfl
      | const j => simp only [List.mem_singleton] at hp; rw [hp]
    have h2 : p.2 = y := by
      cases y with
      | pos k K => simp only [List.mem_map] at hq; obtain ⟨_, _, rfl⟩ := hq; rfl
      | const j => simp only [List.mem_singleton] at hq; rw [hq]
    exact hxy (h1.symm.trans h2)

/-! ### all entries -/

def allEntries (I : Info α) (n : Nat) : List ((Nat × List Nat) × List Term) := (byContr I n).flatMap (entries I)

theorem entry_mem (hI : 0 < I.iters) (hcd : (I.const.map (·.1)).Nodup) {j : Nat} {its : List Nat} {tms : List Term} (h : ((j, its), tms) ∈ allEntries I n) :
    j < n ∧ tms ≠ [] ∧ tms.Nodup ∧ ∀ tm, tm ∈ tms ↔ tm ∈ contr I j ∧ termIters I j tm = its := by
  unfold allEntries at h
  obtain ⟨c, hc, h⟩ := List.mem_flatMap.mp h
  obtain ⟨h1, h2⟩ := mem_gather.mp (show ((j, its), tms) ∈ gather (pairs I c) from h)
  obtain ⟨_, _, _, hj⟩ := byContr_mem hc
  obtain ⟨⟨k, tm⟩, hp, hk⟩ := List.mem_map.mp h1
  simp only at hk
  subst hk
  obtain ⟨g1, g2, g3⟩ := (mem_pairs hI hc).mp hp
  refine ⟨(hj j g1).1, ?_, ?_, ?_⟩
  · have : tm ∈ tms := by rw [h2, mem_valuesOf]; exact hp
    exact List.ne_nil_of_mem this
  · rw [h2]; exact valuesOf_nodup (pairs_nodup hcd hc) _
  · intro tm'
    rw [h2, mem_valuesOf, mem_pairs hI hc, (hj j g1).2]
    constructor
    · rintro ⟨_, k2, k3⟩; exact ⟨k2, k3.symm⟩
    · rintro ⟨k2, k3⟩; exact ⟨g1, k2, k3.symm⟩

theorem entry_exists (hI : 0 < I.iters) {j : Nat} (hj : j < n) {tm : Term} (htm : tm ∈ contr I j) :
    ∃ tms, ((j, termIters I j tm), tms) ∈ allEntries I n ∧ tm ∈ tms := by
  obtain ⟨c, hc, h1, h2⟩ := byContr_exists hj (List.ne_nil_of_mem htm)
  have hp : ((j, termIters I j tm), tm) ∈ pairs I c := (mem_pairs hI hc).mpr ⟨h2, by rw [h1]; exact htm, rfl⟩
  refine ⟨valuesOf (pairs I c) (j, termIters I j tm), ?_, mem_valuesOf.mpr hp⟩
  exact List.mem_flatMap.mpr ⟨c, hc, mem_gather.mpr ⟨List.mem_map.mpr ⟨_, hp, rfl⟩, rfl⟩⟩

theorem entry_eq (hI : 0 < I.iters) {j : Nat} {its : List Nat} {tms tms' : List Term} (h : ((j, its), tms) ∈ allEntries I n)
    (h' : ((j, its), tms') ∈ allEntries I n) : tms = tms' := by
  obtain ⟨c, hc, h⟩ := List.mem_flatMap.mp h
  obtain ⟨c', hc', h'⟩ := List.mem_flatMap.mp h'
  have g := mem_gather.mp (show ((j, its), tms) ∈ gather (pairs I c) from h)
  have g' := mem_gather.mp (show ((j, its), tms') ∈ gather (pairs I c') from h')
  have key : ∀ {c : List Term × List Nat}, c ∈ byContr I n → (j, its) ∈ (pairs I c).map (·.1) → contr I j = c.1 := by
    intro c hc hm
    obtain ⟨⟨k, tm⟩, hp, hk⟩ := List.mem_map.mp hm
    simp only at hk
    subst hk
    obtain ⟨_, _, _, hj⟩ := byContr_mem hc
    exact (hj j ((mem_pairs hI hc).mp hp).1).2
  obtain rfl := byContr_eq hc hc' ((key hc g.1).symm.trans (key hc' g'.1))
  rw [g.2, g'.2]

theorem entry_iters (hI : 0 < I.iters) (hcd : (I.const.map (·.1)).Nodup) {j : Nat} {its its' : List Nat} {tms : List Term} (h : ((j, its), tms) ∈ allEntries I n)
    (h' : ((j, its'), tms) ∈ allEntries I n) : its = its' := by
  obtain ⟨_, h1, _, h2⟩ := entry_mem hI hcd h
  obtain ⟨_, _, _, h3⟩ := entry_mem hI hcd h'
  obtain ⟨tm, htm⟩ := List.exists_mem_of_ne_nil _ h1
  rw [← ((h2 tm).mp htm).2, ← ((h3 tm).mp htm).2]

/-! ### the groups -/

theorem addSub_spec (e : (Nat × List Nat) × List Term) : ∀ gs : List RowGroup,
    (e.2 ∉ gs.map (·.terms) ∧ addSub n gs e = gs ++ [⟨e.2, [e.1], e.1.2⟩]) ∨
    ∃ pre g post, gs = pre ++ g :: post ∧ g.terms = e.2 ∧ addSub n gs e = pre ++ ⟨e.2, put e.1.1 e.1.2 g.rows, union n g.iters e.1.2⟩ :: post
  | [] => Or.inl ⟨by simp, rfl⟩
  | g :: gs => by
    rw [addSub]
    by_cases h : g.terms = e.2
    · rw [if_pos h]
      exact Or.inr ⟨[], g, gs, rfl, h, by rw [h]; rfl⟩
    · rw [if_neg h]
      rcases addSub_spec e gs with ⟨h1, h2⟩ | ⟨pre, g', post, h1, h2, h3⟩
      · left
        refine ⟨?_, by rw [h2]; rfl⟩
        rw [List.map_cons, List.mem_cons]
        rintro (h' | h')
        · exact h h'.symm
        · exact h1 h'
      · exact Or.inr ⟨g :: pre, g', post, by rw [h1]; rfl, h2, by rw [h3]; rfl⟩

/-- the groups made of the entries -/
structure GroupsOf (n : Nat) (es : List ((Nat × List Nat) × List Term)) (gs : List RowGroup) : Prop where
  nd : (gs.map (·.terms)).Nodup
  rows : ∀ g ∈ gs, ∀ j its, (j, its) ∈ g.rows → ((j, its), g.terms) ∈ es
  sorted : ∀ g ∈ gs, Sorted g.rows
  all : ∀ j its tms, ((j, its), tms) ∈ es → ∃ g ∈ gs, g.terms = tms ∧ (j, its) ∈ g.rows ∧ ∀ it ∈ its, it ∈ g.iters
  its : ∀ g ∈ gs, ∀ it ∈ g.iters, ∃ j its, ((j, its), g.terms) ∈ es ∧ it ∈ its
  sub : ∀ g ∈ gs, g.iters.Sublist (List.range n)
  ne : ∀ g ∈ gs, g.rows ≠ []

theorem mem_union {a b : List Nat} {it : Nat} : it ∈ union n a b ↔ it < n ∧ (it ∈ a ∨ it ∈ b) := by
  simp [union, List.mem_filter]

theorem groupsOf_foldl (es : List ((Nat × List Nat) × List Term))
    (hfun : ∀ j its its' tms, ((j, its), tms) ∈ es → ((j, its'), tms) ∈ es → its = its')
    (hlt : ∀ j its tms, ((j, its), tms) ∈ es → its.Sublist (List.range n)) : GroupsOf n es (es.foldl (addSub n) []) := by
  induction es using List.reverseRecOn with
  | nil => exact ⟨by simp, by simp, by simp, by simp, by simp, by simp, by simp⟩
  | append_singleton es e ih =>
    have ih := ih (fun j its its' tms h h' => hfun j its its' tms (List.mem_append_left _ h) (List.mem_append_left _ h'))
      fun j its tms h => hlt j its tms (List.mem_append_left _ h)
    rw [List.foldl_append, List.foldl_cons, List.foldl_nil]
    generalize es.foldl (addSub n) [] = gs at ih
    obtain ⟨⟨je, ie⟩, te⟩ := e
    have hie := hlt je ie te (List.mem_append_right _ (List.mem_singleton.mpr rfl))
    rcases addSub_spec ((je, ie), te) gs with ⟨h1, h2⟩ | ⟨pre, g0, post, rfl, h2, h3⟩
    · rw [h2]
      simp only at h1
      refine ⟨?_, ?_, ?_, ?_, ?_, ?_, ?_⟩
      · rw [List.map_append, List.nodup_append]
        refine ⟨ih.nd, by simp, ?_⟩
        intro x hx y hy hxy
        simp only [List.map_cons, List.map_nil, List.mem_singleton] at hy
        exact h1 (hy ▸ hxy ▸ hx)
      · intro g hg j its hj
        rcases List.mem_append.mp hg with hg | hg
        · exact List.mem_append_left _ (ih.rows g hg j its hj)
        · obtain rfl := List.mem_singleton.mp hg
          simp only [List.mem_singleton, Prod.mk.injEq] at hj
          obtain ⟨rfl, rfl⟩ := hj
          exact List.mem_append_right _ (List.mem_singleton.mpr rfl)
      · intro g hg
        rcases List.mem_append.mp hg with hg | hg
        · exact ih.sorted g hg
        · obtain rfl := List.mem_singleton.mp hg
          exact List.pairwise_singleton _ _
      · intro j its tms h
        rcases List.mem_append.mp h with h | h
        · obtain ⟨g, g1, g2⟩ := ih.all j its tms h
          exact ⟨g, List.mem_append_left _ g1, g2⟩
        · simp only [List.mem_singleton, Prod.mk.injEq] at h
          obtain ⟨⟨rfl, rfl⟩, rfl⟩ := h
          exact ⟨_, List.mem_append_right _ (List.mem_singleton.mpr rfl), rfl, by simp, fun _ h => h⟩
      · intro g hg it hit
        rcases List.mem_append.mp hg with hg | hg
        · obtain ⟨j, its, k1, k2⟩ := ih.its g hg it hit
          exact ⟨j, its, List.mem_append_left _ k1, k2⟩
        · obtain rfl := List.mem_singleton.mp hg
          exact ⟨je, ie, List.mem_append_right _ (List.mem_singleton.mpr rfl), hit⟩
      · intro g hg
        rcases List.mem_append.mp hg with hg | hg
        · exact ih.sub g hg
        · obtain rfl := List.mem_singleton.mp hg
          exact hie
      · intro g hg
        rcases List.mem_append.mp hg with hg | hg
        · exact ih.ne g hg
        · obtain rfl := List.mem_singleton.mp hg
          simp
    · rw [h3]
      simp only at h2 ⊢
      have hg0 : g0 ∈ pre ++ g0 :: post := List.mem_append_right _ List.mem_cons_self
      have hother : ∀ g, g ∈ pre ∨ g ∈ post → g ∈ pre ++ g0 :: post := fun g h =>
        h.elim (List.mem_append_left _) fun h => List.mem_append_right _ (List.mem_cons_of_mem _ h)
      have hsplit : ∀ g, g ∈ pre ++ (⟨te, put je ie g0.rows, union n g0.iters ie⟩ : RowGroup) :: post →
          (g ∈ pre ∨ g ∈ post) ∨ g = ⟨te, put je ie g0.rows, union n g0.iters ie⟩ := by
        intro g hg
        rcases List.mem_append.mp hg with hg | hg
        · exact Or.inl (Or.inl hg)
        · rcases List.mem_cons.mp hg with hg | hg
          · exact Or.inr hg
          · exact Or.inl (Or.inr hg)
      refine ⟨?_, ?_, ?_, ?_, ?_, ?_, ?_⟩
      · have := ih.nd
        simp only [List.map_append, List.map_cons] at this ⊢
        rwa [h2] at this
      · intro g hg j its hj
        rcases hsplit g hg with hg | rfl
        · exact List.mem_append_left _ (ih.rows g (hother g hg) j its hj)
        · simp only at hj ⊢
          rcases put_mem hj with h | h
          · simp only [Prod.mk.injEq] at h
            obtain ⟨rfl, rfl⟩ := h
            exact List.mem_append_right _ (List.mem_singleton.mpr rfl)
          · rw [← h2]
            exact List.mem_append_left _ (ih.rows g0 hg0 j its h)
      · intro g hg
        rcases hsplit g hg with hg | rfl
        · exact ih.sorted g (hother g hg)
        · exact put_sorted (ih.sorted g0 hg0)
      · intro j its tms h
        rcases List.mem_append.mp h with h | h
        · obtain ⟨g, g1, g2, g3, g4⟩ := ih.all j its tms h
          rcases List.mem_append.mp g1 with g1 | g1
          · exact ⟨g, List.mem_append_left _ g1, g2, g3, g4⟩
          · rcases List.mem_cons.mp g1 with rfl | g1
            · refine ⟨_, List.mem_append_right _ List.mem_cons_self, h2.symm.trans g2, ?_, fun it hit =>
                mem_union.mpr ⟨List.mem_range.mp ((ih.sub g hg0).subset (g4 it hit)), Or.inl (g4 it hit)⟩⟩
              simp only
              by_cases hj : j = je
              · subst hj
                have : its = ie := hfun j its ie tms h (by
                  rw [← g2, h2]; exact List.mem_append_right _ (List.mem_singleton.mpr rfl))
                rw [this]
                exact mem_put_self
              · exact mem_put_other g3 hj
            · exact ⟨g, List.mem_append_right _ (List.mem_cons_of_mem _ g1), g2, g3, g4⟩
        · simp only [List.mem_singleton, Prod.mk.injEq] at h
          obtain ⟨⟨rfl, rfl⟩, rfl⟩ := h
          exact ⟨_, List.mem_append_right _ List.mem_cons_self, rfl, mem_put_self, fun it hit =>
            mem_union.mpr ⟨List.mem_range.mp (hie.subset hit), Or.inr hit⟩⟩
      · intro g hg it hit
        rcases hsplit g hg with hg | rfl
        · obtain ⟨j, its, k1, k2⟩ := ih.its g (hother g hg) it hit
          exact ⟨j, its, List.mem_append_left _ k1, k2⟩
        · simp only at hit ⊢
          rcases (mem_union.mp hit).2 with h | h
          · obtain ⟨j, its, k1, k2⟩ := ih.its g0 hg0 it h
            rw [h2] at k1
            exact ⟨j, its, List.mem_append_left _ k1, k2⟩
          · exact ⟨je, ie, List.mem_append_right _ (List.mem_singleton.mpr rfl), h⟩
      · intro g hg
        rcases hsplit g hg with hg | rfl
        · exact ih.sub g (hother g hg)
        · exact List.filter_sublist
      · intro g hg
        rcases hsplit g hg with hg | rfl
        · exact ih.ne g (hother g hg)
        · exact List.ne_nil_of_mem (mem_put_self (x := je) (p := ie))

end Verif.Loops.Rev2
