import Verif.Paths.Lemmas
/- What the recursive search of `findPaths` does. -/
namespace Verif.Paths
open Verif.Codegen

variable {α : Type} {G : Graph α}

/-- every argument of `v` leading to the target is taken by one of the routes -/
def GoodV (G : Graph α) (root code : Nat) (rs : List (List Nat)) (v : Nat) : Prop :=
  ∀ i is, Route G v (i :: is) code → ∃ p is', Route G root p v ∧ Route G v (i :: is') code ∧ p ++ i :: is' ∈ rs

theorem GoodV.mono {root code v : Nat} {rs rs' : List (List Nat)} (h : GoodV G root code rs v)
    (hs : ∀ r ∈ rs, r ∈ rs') : GoodV G root code rs' v := by
  intro i is hi
  obtain ⟨p, is', h1, h2, h3⟩ := h i is hi
  exact ⟨p, is', h1, h2, hs _ h3⟩

/-- state before the search below the node `n` reached by the route `c` -/
structure Pre (G : Graph α) (rank : Nat → Nat) (root code : Nat) (rs : List (List Nat)) (c : List Nat) (n : Nat)
    (st : FSt) : Prop where
  found : st.found = rs.map (full G root)
  routes : ∀ r ∈ rs, Route G root r code
  nodup : rs.Nodup
  fresh : ∀ r ∈ rs, ¬ c <+: r
  vis : ∀ v ∈ st.visited, v ≠ code ∧ (∃ r, Route G root r v ∧ ¬ c <+: r) ∧
    (GoodV G root code rs v ∨ rank n < rank v)

/-- state after it -/
structure Post (G : Graph α) (rank : Nat → Nat) (root code max : Nat) (rs : List (List Nat)) (c : List Nat)
    (n : Nat) (st st' : FSt) (new : List (List Nat)) : Prop where
  found : st'.found = (rs ++ new).map (full G root)
  routes : ∀ r ∈ new, Route G root r code
  nodup : new.Nodup
  below : ∀ r ∈ new, c <+: r
  vis : ∀ v ∈ st'.visited, v ∈ st.visited ∨ (v ≠ code ∧ ∃ r, Route G root r v ∧ c <+: r)
  keep : ∀ v ∈ st.visited, v ∈ st'.visited
  good : (rs ++ new).length ≠ max → ∀ v ∈ st'.visited,
    GoodV G root code (rs ++ new) v ∨ (v ∈ st.visited ∧ rank n < rank v)
  some : (rs ++ new).length ≠ max → (∃ is, Route G n is code) → new ≠ []
  all : (rs ++ new).length ≠ max → OneWay G root code → ∀ is, Route G n is code → c ++ is ∈ new

theorem prefix_snoc_ne {c r : List Nat} {i j : Nat} (h : c ++ [i] <+: r) (hij : i ≠ j) : ¬ c ++ [j] <+: r := by
  rintro ⟨t, ht⟩
  obtain ⟨s, hs⟩ := h
  rw [← ht] at hs
  simp only [List.append_assoc, List.append_cancel_left_eq, List.cons_append, List.nil_append,
    List.cons.injEq] at hs
  exact hij hs.1

theorem prefix_of_snoc {c r : List Nat} {i : Nat} (h : c ++ [i] <+: r) : c <+: r := by
  obtain ⟨s, hs⟩ := h
  exact ⟨[i] ++ s, by rw [← hs]; simp⟩

/-- state within the loop over the arguments of `n`: the arguments before `i` are done -/
structure Mid (G : Graph α) (rank : Nat → Nat) (root code : Nat) (rs : List (List Nat)) (c : List Nat)
    (n i : Nat) (vis0 : List Nat) (st : FSt) (new : List (List Nat)) : Prop where
  found : st.found = (rs ++ new).map (full G root)
  routes : ∀ r ∈ new, Route G root r code
  nodup : new.Nodup
  below : ∀ r ∈ new, ∃ j, j < i ∧ c ++ [j] <+: r
  vis : ∀ v ∈ st.visited, v ∈ vis0 ∨ (v ≠ code ∧ ∃ r, Route G root r v ∧ (r = c ∨ ∃ j, j < i ∧ c ++ [j] <+: r))
  keep : ∀ v ∈ n :: vis0, v ∈ st.visited
  good : ∀ v ∈ st.visited, GoodV G root code (rs ++ new) v ∨ (v ∈ n :: vis0 ∧ rank n ≤ rank v)
  some : ∀ j is, j < i → Route G n (j :: is) code → ∃ is', Route G n (j :: is') code ∧ c ++ j :: is' ∈ new
  all : OneWay G root code → ∀ j is, j < i → Route G n (j :: is) code → c ++ j :: is ∈ new

theorem overArgs_spec {rank : Nat → Nat} (hrank : Ranked G rank) {root code max n : Nat}
    {c : List Nat} {rs : List (List Nat)} {vis0 : List Nat} {st0 : FSt}
    (hst0 : st0.visited = vis0)
    (hcode : n ≠ code) (hc : Route G root c n)
    (hpre : Pre G rank root code rs c n st0)
    (f : Nat → Nat → FSt → Option FSt)
    (hf : ∀ m i rs' st, (G n).args[i]? = some (.node m) → Pre G rank root code rs' (c ++ [i]) m st →
      ∃ st' new, f m i st = some st' ∧ Post G rank root code max rs' (c ++ [i]) m st st' new) :
    ∀ (as : List (Arg α)) (i : Nat) (st : FSt) (new : List (List Nat)), (G n).args.drop i = as →
      Mid G rank root code rs c n i vis0 st new →
      ∃ st' new', overArgs f max as i st = some st' ∧
        Post G rank root code max rs c n st0 st' new' := by
  intro as
  induction as with
  | nil =>
    intro i st new has h
    refine ⟨st, new, rfl, h.found, h.routes, h.nodup, ?_, ?_, ?_, ?_, ?_, ?_⟩
    · intro r hr
      obtain ⟨j, _, hj⟩ := h.below r hr
      exact prefix_of_snoc hj
    · intro v hv
      rcases h.vis v hv with h1 | ⟨h1, r, h2, h3⟩
      · left; rw [hst0]; exact h1
      · right
        refine ⟨h1, r, h2, ?_⟩
        rcases h3 with rfl | ⟨j, _, hj⟩
        · exact List.prefix_refl _
        · exact prefix_of_snoc hj
    · intro v hv; rw [hst0] at hv; exact h.keep v (List.mem_cons_of_mem _ hv)
    · intro _ v hv
      rcases h.good v hv with h1 | ⟨h1, h2⟩
      · exact .inl h1
      · rcases List.mem_cons.mp h1 with rfl | h1
        · left
          intro j is hj
          have hlt : j < i := by
            obtain ⟨m, hm, _⟩ := route_cons.mp hj
            have := (List.getElem?_eq_some_iff.mp hm).1
            rw [List.drop_eq_nil_iff] at has
            omega
          obtain ⟨is', h3, h4⟩ := h.some j is hlt hj
          exact ⟨c, is', hc, h3, List.mem_append_right _ h4⟩
        · rcases hpre.vis v (by rw [hst0]; exact h1) with ⟨_, _, h3 | h3⟩
          · exact .inl (h3.mono fun r hr => List.mem_append_left _ hr)
          · exact .inr ⟨by rw [hst0]; exact h1, h3⟩
    · intro _ ⟨is, his⟩ hnil
      cases is with
      | nil => exact hcode (route_nil.mp his)
      | cons j is =>
        have hlt : j < i := by
          obtain ⟨m, hm, _⟩ := route_cons.mp his
          have := (List.getElem?_eq_some_iff.mp hm).1
          rw [List.drop_eq_nil_iff] at has
          omega
        obtain ⟨is', _, h4⟩ := h.some j is hlt his
        rw [hnil] at h4; cases h4
    · intro _ how is his
      cases is with
      | nil => exact absurd (route_nil.mp his) hcode
      | cons j is =>
        have hlt : j < i := by
          obtain ⟨m, hm, _⟩ := route_cons.mp his
          have := (List.getElem?_eq_some_iff.mp hm).1
          rw [List.drop_eq_nil_iff] at has
          omega
        exact h.all how j is hlt his
  | cons a as ih =>
    intro i st new has h
    have hget : (G n).args[i]? = some a := by
      have := congrArg List.head? has
      rw [List.head?_drop] at this
      simpa using this
    have hdrop : (G n).args.drop (i + 1) = as := by
      rw [← List.drop_drop, has]; rfl
    cases a with
    | param v =>
      refine ih (i + 1) st new hdrop ⟨h.found, h.routes, h.nodup, ?_, ?_, h.keep, h.good, ?_, ?_⟩
      · intro r hr; obtain ⟨j, h1, h2⟩ := h.below r hr; exact ⟨j, by omega, h2⟩
      · intro w hw
        rcases h.vis w hw with h1 | ⟨h1, r, h2, h3⟩
        · exact .inl h1
        · refine .inr ⟨h1, r, h2, ?_⟩
          rcases h3 with h3 | ⟨j, h3, h4⟩
          · exact .inl h3
          · exact .inr ⟨j, by omega, h4⟩
      · intro j is hj hr
        by_cases hji : j = i
        · subst hji
          obtain ⟨m, hm, _⟩ := route_cons.mp hr
          rw [hget] at hm; cases hm
        · exact h.some j is (by omega) hr
      · intro how j is hj hr
        by_cases hji : j = i
        · subst hji
          obtain ⟨m, hm, _⟩ := route_cons.mp hr
          rw [hget] at hm; cases hm
        · exact h.all how j is (by omega) hr
    | node m =>
      have hrm : rank m < rank n := hrank n m (mem_kids_of hget)
      have hpre' : Pre G rank root code (rs ++ new) (c ++ [i]) m st := by
        refine ⟨h.found, ?_, ?_, ?_, ?_⟩
        · intro r hr
          rcases List.mem_append.mp hr with hr | hr
          · exact hpre.routes r hr
          · exact h.routes r hr
        · rw [List.nodup_append]
          refine ⟨hpre.nodup, h.nodup, ?_⟩
          intro a ha b hb e
          subst e
          obtain ⟨j, _, hj⟩ := h.below a hb
          exact hpre.fresh a ha (prefix_of_snoc hj)
        · intro r hr hp
          rcases List.mem_append.mp hr with hr | hr
          · exact hpre.fresh r hr (prefix_of_snoc hp)
          · obtain ⟨j, h1, h2⟩ := h.below r hr
            exact prefix_snoc_ne h2 (by omega) hp
        · intro v hv
          refine ⟨?_, ?_, ?_⟩
          · rcases h.vis v hv with h1 | ⟨h1, _⟩
            · exact (hpre.vis v (by rw [hst0]; exact h1)).1
            · exact h1
          · rcases h.vis v hv with h1 | ⟨_, r, h2, h3⟩
            · obtain ⟨_, ⟨r, h2, h3⟩, _⟩ := hpre.vis v (by rw [hst0]; exact h1)
              exact ⟨r, h2, fun hp => h3 (prefix_of_snoc hp)⟩
            · refine ⟨r, h2, ?_⟩
              rcases h3 with rfl | ⟨j, h4, h5⟩
              · intro hp
                have := hp.length_le
                rw [List.length_append, List.length_singleton] at this
                omega
              · exact prefix_snoc_ne h5 (by omega)
          · rcases h.good v hv with h1 | ⟨_, h2⟩
            · exact .inl h1
            · exact .inr (by omega)
      obtain ⟨st', new', e, hp⟩ := hf m i (rs ++ new) st hget hpre'
      have hrt : ∀ is, Route G n (i :: is) code → Route G m is code := by
        intro is his
        obtain ⟨m', hm', h2⟩ := route_cons.mp his
        rw [hget] at hm'; cases hm'; exact h2
      have hbel : ∀ r ∈ new ++ new', ∃ j, j < i + 1 ∧ c ++ [j] <+: r := by
        intro r hr
        rcases List.mem_append.mp hr with hr | hr
        · obtain ⟨j, h1, h2⟩ := h.below r hr; exact ⟨j, by omega, h2⟩
        · exact ⟨i, by omega, hp.below r hr⟩
      have hnd : (new ++ new').Nodup := by
        rw [List.nodup_append]
        refine ⟨h.nodup, hp.nodup, ?_⟩
        intro a ha b hb e'
        subst e'
        obtain ⟨j, h1, h2⟩ := h.below a ha
        exact prefix_snoc_ne h2 (by omega) (hp.below a hb)
      have hro : ∀ r ∈ new ++ new', Route G root r code := by
        intro r hr
        rcases List.mem_append.mp hr with hr | hr
        · exact h.routes r hr
        · exact hp.routes r hr
      have hvis : ∀ v ∈ st'.visited, v ∈ vis0 ∨ (v ≠ code ∧ ∃ r, Route G root r v ∧
          (r = c ∨ ∃ j, j < i + 1 ∧ c ++ [j] <+: r)) := by
        intro v hv
        rcases hp.vis v hv with hv | ⟨h1, r, h2, h3⟩
        · rcases h.vis v hv with h1 | ⟨h1, r, h2, h3⟩
          · exact .inl h1
          · refine .inr ⟨h1, r, h2, ?_⟩
            rcases h3 with h3 | ⟨j, h3, h4⟩
            · exact .inl h3
            · exact .inr ⟨j, by omega, h4⟩
        · exact .inr ⟨h1, r, h2, .inr ⟨i, by omega, h3⟩⟩
      have hfound : st'.found = (rs ++ (new ++ new')).map (full G root) := by
        rw [hp.found, List.append_assoc]
      have hkeep : ∀ v ∈ n :: vis0, v ∈ st'.visited := fun v hv => hp.keep v (h.keep v hv)
      rw [overArgs, e]
      simp only
      by_cases hmax : st'.found.length = max
      · rw [if_pos hmax]
        have hlen : (rs ++ (new ++ new')).length = max := by
          rw [← hmax, hfound, List.length_map]
        refine ⟨st', new ++ new', rfl, hfound, hro, hnd, ?_, ?_, ?_, ?_, ?_, ?_⟩
        · intro r hr
          obtain ⟨j, _, hj⟩ := hbel r hr
          exact prefix_of_snoc hj
        · intro v hv
          rcases hvis v hv with h1 | ⟨h1, r, h2, h3⟩
          · left; rw [hst0]; exact h1
          · right
            refine ⟨h1, r, h2, ?_⟩
            rcases h3 with rfl | ⟨j, _, hj⟩
            · exact List.prefix_refl _
            · exact prefix_of_snoc hj
        · intro v hv; rw [hst0] at hv; exact hkeep v (List.mem_cons_of_mem _ hv)
        · intro hne; exact absurd hlen hne
        · intro hne; exact absurd hlen hne
        · intro hne; exact absurd hlen hne
      · rw [if_neg hmax]
        have hlen : (rs ++ new ++ new').length ≠ max := by
          rw [← List.length_map (f := full G root), ← hp.found]; exact hmax
        refine ih (i + 1) st' (new ++ new') hdrop ⟨hfound, hro, hnd, hbel, hvis, hkeep, ?_, ?_, ?_⟩
        · intro v hv
          rw [← List.append_assoc]
          rcases hp.good hlen v hv with h1 | ⟨h1, h2⟩
          · exact .inl h1
          · rcases h.good v h1 with h3 | h3
            · exact .inl (h3.mono fun r hr => List.mem_append_left _ hr)
            · exact .inr h3
        · intro j is hj hr
          by_cases hji : j = i
          · subst hji
            have hne := hp.some hlen ⟨is, hrt is hr⟩
            obtain ⟨r, hr'⟩ := List.exists_mem_of_ne_nil _ hne
            obtain ⟨t, ht⟩ := hp.below r hr'
            have hcode' := hp.routes r hr'
            refine ⟨t, ?_, ?_⟩
            · rw [← ht, List.append_assoc] at hcode'
              obtain ⟨k, h1, h2⟩ := route_append.mp hcode'
              rw [route_unique h1 hc] at h2
              exact h2
            · have : c ++ j :: t = r := by rw [← ht]; simp
              rw [this]; exact List.mem_append_right _ hr'
          · obtain ⟨is', h1, h2⟩ := h.some j is (by omega) hr
            exact ⟨is', h1, List.mem_append_left _ h2⟩
        · intro how j is hj hr
          by_cases hji : j = i
          · subst hji
            have := hp.all hlen how is (hrt is hr)
            rw [List.append_assoc] at this
            exact List.mem_append_right _ this
          · exact List.mem_append_left _ (h.all how j is (by omega) hr)

theorem search_spec {rank : Nat → Nat} (hrank : Ranked G rank) {root code max : Nat} :
    ∀ (fuel : Nat) (cur : DPath) (n a : Nat) (c : List Nat) (rs : List (List Nat)) (st : FSt), rank n < fuel →
      Route G root c n → cur ++ [(n, a)] = full G root c → Pre G rank root code rs c n st →
      ∃ st' new, search G code max fuel cur n a st = some st' ∧
        Post G rank root code max rs c n st st' new := by
  intro fuel
  induction fuel with
  | zero => intro cur n a c rs st h; omega
  | succ fuel ih =>
    intro cur n a c rs st hfuel hc hcur hpre
    rw [search]
    by_cases h1 : n = code
    · rw [if_pos h1]
      subst h1
      refine ⟨_, [c], rfl, ?_, ?_, ?_, ?_, ?_, ?_, ?_, ?_, ?_⟩
      · simp [hpre.found, hcur]
      · intro r hr; simp only [List.mem_singleton] at hr; subst hr; exact hc
      · simp
      · intro r hr; simp only [List.mem_singleton] at hr; subst hr; exact List.prefix_refl _
      · intro v hv; exact .inl hv
      · intro v hv; exact hv
      · intro _ v hv
        rcases (hpre.vis v hv).2.2 with h | h
        · exact .inl (h.mono fun r hr => List.mem_append_left _ hr)
        · exact .inr ⟨hv, h⟩
      · intro _ _; simp
      · intro _ _ is his
        have := route_rank hrank his
        have : is = [] := by
          rw [← List.length_eq_zero_iff]; omega
        subst this; simp
    · rw [if_neg h1]
      by_cases h2 : (G n).args.isEmpty
      · rw [if_pos h2]
        have hno : ∀ is, ¬ Route G n is code := by
          intro is his
          cases is with
          | nil => exact h1 (route_nil.mp his)
          | cons j is =>
            obtain ⟨m, hm, _⟩ := route_cons.mp his
            rw [List.isEmpty_iff] at h2
            rw [h2] at hm; simp at hm
        refine ⟨_, [], rfl, by simp [hpre.found], ?_, List.nodup_nil, ?_, fun v hv => .inl hv, fun v hv => hv,
          ?_, ?_, ?_⟩
        · intro r hr; cases hr
        · intro r hr; cases hr
        · intro _ v hv
          rw [List.append_nil]
          rcases (hpre.vis v hv).2.2 with h | h
          · exact .inl h
          · exact .inr ⟨hv, h⟩
        · rintro _ ⟨is, his⟩; exact absurd his (hno is)
        · intro _ _ is his; exact absurd his (hno is)
      · rw [if_neg h2]
        by_cases h3 : n ∈ st.visited
        · rw [if_pos h3]
          obtain ⟨_, ⟨r0, hr0, hr0c⟩, hg⟩ := hpre.vis n h3
          have hgood : GoodV G root code rs n := by
            rcases hg with hg | hg
            · exact hg
            · omega
          obtain ⟨f1, f2, f3, f4⟩ := fromNode_ok n st.found
          -- every suffix comes from a route below `n`
          have hsuf : ∀ q ∈ findPathsFromNode st.found n, ∃ is, Route G n is code ∧ q = stepsDown G n is ∧ is ≠ [] := by
            intro q hq
            obtain ⟨p, hp, pre, x, e1, e2⟩ := f2 q hq
            rw [hpre.found] at hp
            obtain ⟨r, hr, rfl⟩ := List.mem_map.mp hp
            obtain ⟨p1, p2, _, _, g3, g4⟩ := split_at (a := (root, 0)) (hpre.routes r hr) e1
            rw [e2] at g3 g4
            refine ⟨p2, g3, g4, ?_⟩
            rintro rfl
            exact f4 q hq g4
          let back : DPath → List Nat := fun q => c ++ q.map Prod.snd
          have hback : ∀ q ∈ findPathsFromNode st.found n, ∃ is, Route G n is code ∧ q = stepsDown G n is ∧
              back q = c ++ is ∧ is ≠ [] := by
            intro q hq
            obtain ⟨is, g1, g2, g3⟩ := hsuf q hq
            refine ⟨is, g1, g2, ?_, g3⟩
            show c ++ _ = _
            rw [g2, stepsDown_snd g1]
          refine ⟨_, (findPathsFromNode st.found n).map back, rfl, ?_, ?_, ?_, ?_, fun v hv => .inl hv,
            fun v hv => hv, ?_, ?_, ?_⟩
          · simp only
            rw [List.map_append, ← hpre.found, List.map_map]
            congr 1
            apply List.map_congr_left
            intro q hq
            obtain ⟨is, g1, g2, g3, _⟩ := hback q hq
            show (cur ++ [(n, a)]) ++ q = full G root (back q)
            rw [g3, hcur, full_append hc, ← g2]
          · intro r hr
            obtain ⟨q, hq, rfl⟩ := List.mem_map.mp hr
            obtain ⟨is, g1, g2, g3, _⟩ := hback q hq
            rw [g3]; exact route_append.mpr ⟨n, hc, g1⟩
          · refine (List.Nodup.of_map headIdx f1).map_on ?_
            intro x hx y hy e
            obtain ⟨is, g1, g2, g3, _⟩ := hback x hx
            obtain ⟨is', g1', g2', g3', _⟩ := hback y hy
            rw [g3, g3'] at e
            rw [List.append_cancel_left_eq] at e
            rw [g2, g2', e]
          · intro r hr
            obtain ⟨q, hq, rfl⟩ := List.mem_map.mp hr
            exact ⟨_, rfl⟩
          · intro _ v hv
            rcases (hpre.vis v hv).2.2 with h | h
            · exact .inl (h.mono fun r hr => List.mem_append_left _ hr)
            · exact .inr ⟨hv, h⟩
          · rintro _ ⟨is, his⟩ hnil
            cases is with
            | nil => exact h1 (route_nil.mp his)
            | cons i is =>
              obtain ⟨p, is', g1, g2, g3⟩ := hgood i is his
              obtain ⟨m, hm, _⟩ := route_cons.mp g2
              obtain ⟨pre, x, e1, e2⟩ := full_passes g1 g2
              rw [stepsDown, hm] at e1
              have := f3 (full G root (p ++ i :: is')) (by rw [hpre.found]; exact List.mem_map.mpr ⟨_, g3, rfl⟩)
                pre x (m, i) _ e1 e2
              obtain ⟨q, hq, _⟩ := List.mem_map.mp this
              have : back q ∈ (findPathsFromNode st.found n).map back := List.mem_map.mpr ⟨q, hq, rfl⟩
              rw [hnil] at this; cases this
          · intro _ how is his
            cases is with
            | nil => exact absurd (route_nil.mp his) h1
            | cons i is =>
              obtain ⟨p, is', g1, g2, g3⟩ := hgood i is his
              obtain ⟨m, hm, _⟩ := route_cons.mp g2
              obtain ⟨pre, x, e1, e2⟩ := full_passes g1 g2
              rw [stepsDown, hm] at e1
              have := f3 (full G root (p ++ i :: is')) (by rw [hpre.found]; exact List.mem_map.mpr ⟨_, g3, rfl⟩)
                pre x (m, i) _ e1 e2
              obtain ⟨q, hq, hqi⟩ := List.mem_map.mp this
              obtain ⟨js, k1, k2, k3, k4⟩ := hback q hq
              refine List.mem_map.mpr ⟨q, hq, ?_⟩
              rw [k3]
              cases js with
              | nil => exact absurd rfl k4
              | cons j js =>
                obtain ⟨m', hm', _⟩ := route_cons.mp k1
                rw [k2, stepsDown, hm'] at hqi
                simp [headIdx] at hqi
                subst hqi
                rw [how n r0 c hr0 hc (by rintro rfl; exact hr0c (List.prefix_refl _)) j js is k1 his]
        · rw [if_neg h3]
          have hf : ∀ m i rs' st, (G n).args[i]? = some (.node m) → Pre G rank root code rs' (c ++ [i]) m st →
              ∃ st' new, search G code max fuel (cur ++ [(n, a)]) m i st = some st' ∧
                Post G rank root code max rs' (c ++ [i]) m st st' new := by
            intro m i rs' st hm hp
            have hci : Route G n [i] m := route_cons.mpr ⟨m, hm, route_nil.mpr rfl⟩
            refine ih (cur ++ [(n, a)]) m i (c ++ [i]) rs' st ?_ (route_append.mpr ⟨n, hc, hci⟩) ?_ hp
            · have := hrank n m (mem_kids_of hm); omega
            · rw [full_append hc, hcur, stepsDown, hm]
              simp [stepsDown]
          refine overArgs_spec hrank rfl h1 hc hpre _ hf (G n).args 0 _ [] rfl ?_
          refine ⟨by simp [hpre.found], ?_, List.nodup_nil, ?_, ?_, ?_, ?_, ?_, ?_⟩
          · intro r hr; cases hr
          · intro r hr; cases hr
          · intro v hv
            rcases List.mem_cons.mp hv with rfl | hv
            · exact .inr ⟨h1, c, hc, .inl rfl⟩
            · exact .inl hv
          · intro v hv; exact hv
          · intro v hv
            rcases List.mem_cons.mp hv with rfl | hv
            · exact .inr ⟨List.mem_cons_self, Nat.le_refl _⟩
            · rcases (hpre.vis v hv).2.2 with h | h
              · left; rw [List.append_nil]; exact h
              · exact .inr ⟨List.mem_cons_of_mem _ hv, by omega⟩
          · intro j is hj; omega
          · intro _ j is hj; omega

end Verif.Paths
