import Verif.Paths.LemmasSearch
import Verif.Paths.LemmasBif
/-
C40: the search of paths in the operation graph. `rank` witnesses that the graph has no cycles and
bounds its depth by `fuel`.
-/
namespace Verif.Paths
open Verif.Codegen

variable {α : Type} {G : Graph α}

/-! ### examples -/

/-- `z = -(x + x)`, `w = z + z` and `y = w * x` -/
def exGraph : Graph Nat
  | 1 => ⟨.add, [.node 0, .node 0]⟩
  | 2 => ⟨.neg, [.node 1]⟩
  | 3 => ⟨.add, [.node 2, .node 2]⟩
  | 4 => ⟨.mul, [.node 3, .node 0]⟩
  | _ => ⟨.inv, []⟩

theorem exGraph_ranked : Ranked exGraph id := by
  intro n m h
  match n with
  | 0 => cases h
  | 1 => simp [kids, argNodes, exGraph] at h; subst h; decide
  | 2 => simp [kids, argNodes, exGraph] at h; subst h; decide
  | 3 => simp [kids, argNodes, exGraph] at h; subst h; decide
  | 4 => simp [kids, argNodes, exGraph] at h; rcases h with rfl | rfl <;> decide
  | n + 5 => simp [kids, argNodes, exGraph] at h

/-! ### `findPaths` -/

theorem searchAll (rank : Nat → Nat) (hrank : Ranked G rank) {fuel root code max : Nat}
    (hfuel : rank root < fuel) (hmax : 0 < max) :
    ∃ rs, findPaths G fuel root code max = some (rs.map (full G root)) ∧
      (∀ r ∈ rs, Route G root r code) ∧ rs.Nodup ∧
      (rs.length ≠ max → Reaches G root code → rs ≠ []) ∧
      (rs.length ≠ max → OneWay G root code → ∀ is, Route G root is code → is ∈ rs) := by
  unfold findPaths
  rw [if_pos hmax]
  by_cases h : root = code
  · rw [if_pos h]
    subst h
    refine ⟨[[]], rfl, ?_, by simp, by simp, ?_⟩
    · intro r hr; simp only [List.mem_singleton] at hr; subst hr; exact route_nil.mpr rfl
    · intro _ _ is his
      have := route_rank hrank his
      have : is = [] := by rw [← List.length_eq_zero_iff]; omega
      subst this; simp
  · rw [if_neg h]
    obtain ⟨st', new, e, hp⟩ := search_spec hrank (root := root) (code := code) (max := max) fuel []
      root 0 [] [] ⟨[], []⟩ hfuel (route_nil.mpr rfl) rfl
      ⟨rfl, by simp, List.nodup_nil, by simp, by simp⟩
    rw [e]
    refine ⟨new, ?_, hp.routes, hp.nodup, ?_, ?_⟩
    · simp [hp.found]
    · intro h1 h2; exact hp.some (by simpa using h1) h2
    · intro h1 h2 is his; exact hp.all (by simpa using h1) h2 is his

/-- Every path returned leads from the root to the target along recorded arguments, and no path is
returned twice; for every limit. -/
theorem findPaths_sound (rank : Nat → Nat) (hrank : Ranked G rank) {fuel root code : Nat} (max : Nat)
    (hfuel : rank root < fuel) :
    ∃ ps, findPaths G fuel root code max = some ps ∧ ps.Nodup ∧
      ∀ p ∈ ps, ∃ r, Route G root r code ∧ p = (root, 0) :: stepsDown G root r := by
  by_cases hmax : 0 < max
  · obtain ⟨rs, h1, h2, h3, _⟩ := searchAll rank hrank (code := code) hfuel hmax
    refine ⟨_, h1, ?_, ?_⟩
    · exact h3.map_on fun a ha b hb e => full_inj (h2 a ha) (h2 b hb) e
    · intro p hp
      obtain ⟨r, hr, rfl⟩ := List.mem_map.mp hp
      exact ⟨r, h2 r hr, rfl⟩
  · refine ⟨[], ?_, List.nodup_nil, fun p hp => by cases hp⟩
    unfold findPaths
    rw [if_neg hmax]

/-- a path is found exactly when there is one -/
theorem findPaths_nonempty (rank : Nat → Nat) (hrank : Ranked G rank) {fuel root code max : Nat}
    (hfuel : rank root < fuel) (hmax : 0 < max) :
    ∃ ps, findPaths G fuel root code max = some ps ∧ (ps ≠ [] ↔ ∃ r, Route G root r code) := by
  obtain ⟨rs, h1, h2, _, h4, _⟩ := searchAll rank hrank (code := code) hfuel hmax
  refine ⟨_, h1, ?_⟩
  constructor
  · intro h
    rw [Ne, List.map_eq_nil_iff] at h
    obtain ⟨r, hr⟩ := List.exists_mem_of_ne_nil _ h
    exact ⟨r, h2 r hr⟩
  · intro h hn
    rw [List.map_eq_nil_iff] at hn
    subst hn
    exact h4 (by simp; omega) h rfl

/-- Fewer (or more) paths than the limit are returned only if there are no others, for graphs in which
each argument of a node reached in several ways leads to the target in at most one way. Without this
condition the statement is false (`missing_paths_counterexample`). -/
theorem findPaths_complete_partial (rank : Nat → Nat) (hrank : Ranked G rank) {fuel root code max : Nat}
    (hfuel : rank root < fuel) (hone : OneWay G root code) :
    ∃ ps, findPaths G fuel root code max = some ps ∧
      (ps.length ≠ max → ∀ r, Route G root r code → (root, 0) :: stepsDown G root r ∈ ps) := by
  by_cases hmax : 0 < max
  · obtain ⟨rs, h1, _, _, _, h5⟩ := searchAll rank hrank (code := code) hfuel hmax
    refine ⟨_, h1, ?_⟩
    intro h r hr
    exact List.mem_map.mpr ⟨r, h5 (by simpa using h) hone r hr, rfl⟩
  · refine ⟨[], ?_, ?_⟩
    · unfold findPaths; rw [if_neg hmax]
    · intro h; simp at h; omega

/-- Four routes lead from `w = z + z` with `z = -(x + x)` to `x`, but only three paths are found with
room for ten: the paths reused for a node searched before are limited to one for each of its arguments
(`argsFound`, operation_path.hpp l.197). -/
theorem missing_paths_counterexample :
    Route exGraph 3 [1, 0, 1] 0 ∧
    findPaths exGraph 10 3 0 10 = some [
      [(3, 0), (2, 0), (1, 0), (0, 0)], [(3, 0), (2, 0), (1, 0), (0, 1)], [(3, 0), (2, 1), (1, 0), (0, 0)]] := by
  decide

/-- The limit is exceeded when paths are reused: three were asked for, four are returned
(the test `found.size() == max`, operation_path.hpp l.177, is passed over). -/
theorem limit_exceeded_counterexample :
    (findPaths (fun n => if n = 2 then ⟨.add, [.node 1, .node 1]⟩ else if n = 1 then
      ⟨.mul, [.node 0, .node 0]⟩ else (⟨.inv, []⟩ : Node Nat)) 10 2 0 3).map List.length = some 4 := by
  decide

example : findPaths exGraph 10 4 3 10 = some [[(4, 0), (3, 0)]] := by decide
example : ∃ ps, findPaths exGraph 10 4 0 2 = some ps ∧ ps.Nodup ∧
    ∀ p ∈ ps, ∃ r, Route exGraph 4 r 0 ∧ p = (4, 0) :: stepsDown exGraph 4 r :=
  findPaths_sound id exGraph_ranked 2 (by decide)
/-- the condition of `findPaths_complete_partial` allows shared nodes -/
example : OneWay exGraph 3 1 := by
  intro n r r' h3 _ _ i is is' h h'
  have hl : ∀ (n i : Nat) (is : List Nat), Route exGraph n (i :: is) 1 → (n = 2 ∧ is = []) ∨ (n = 3 ∧ is = [0]) ∨
      (n = 4 ∧ ∃ j, is = [j, 0]) := by
    intro n i is h
    obtain ⟨m, hm, h1⟩ := route_cons.mp h
    have hr := route_rank exGraph_ranked h
    simp only [id, List.length_cons] at hr
    match n, i with
    | 2, 0 =>
      simp [exGraph] at hm; subst hm
      have := route_rank exGraph_ranked h1
      simp at this; exact .inl ⟨rfl, List.length_eq_zero_iff.mp (by omega)⟩
    | 3, 0 | 3, 1 =>
      simp [exGraph] at hm; subst hm
      cases is with
      | nil => exact absurd (route_nil.mp h1) (by decide)
      | cons k ks =>
        obtain ⟨m, hm, h2⟩ := route_cons.mp h1
        have := route_rank exGraph_ranked h1
        obtain rfl : ks = [] := List.length_eq_zero_iff.mp (by simp at this; omega)
        match k with
        | 0 => exact .inr (.inl ⟨rfl, rfl⟩)
        | k + 1 => simp [exGraph] at hm
    | 4, 0 =>
      simp [exGraph] at hm; subst hm
      cases is with
      | nil => exact absurd (route_nil.mp h1) (by decide)
      | cons k ks =>
        obtain ⟨m, hm, h2⟩ := route_cons.mp h1
        match k with
        | 0 | 1 =>
          simp [exGraph] at hm; subst hm
          cases ks with
          | nil => exact absurd (route_nil.mp h2) (by decide)
          | cons l ls =>
            obtain ⟨m, hm, h3⟩ := route_cons.mp h2
            have := route_rank exGraph_ranked h2
            obtain rfl : ls = [] := List.length_eq_zero_iff.mp (by simp at this; omega)
            match l with
            | 0 => exact .inr (.inr ⟨rfl, _, rfl⟩)
            | l + 1 => simp [exGraph] at hm
        | k + 2 => simp [exGraph] at hm
    | 4, 1 =>
      simp [exGraph] at hm; subst hm
      have := route_rank exGraph_ranked h1
      simp at this
    | 0, _ | 1, _ => omega
    | 2, i + 1 => simp [exGraph] at hm
    | 3, i + 2 => simp [exGraph] at hm
    | 4, i + 2 => simp [exGraph] at hm
    | n + 5, i => simp [exGraph] at hm
  have hn : n ≠ 4 := by
    rintro rfl
    have := route_rank exGraph_ranked h3
    simp at this; omega
  rcases hl n i is h with ⟨_, h1⟩ | ⟨_, h1⟩ | ⟨h1, _⟩
  · rcases hl n i is' h' with ⟨_, h2⟩ | ⟨_, h2⟩ | ⟨h2, _⟩
    · rw [h1, h2]
    · omega
    · omega
  · rcases hl n i is' h' with ⟨_, h2⟩ | ⟨_, h2⟩ | ⟨h2, _⟩
    · omega
    · rw [h1, h2]
    · omega
  · omega

/-! ### `findPathGraph` and `findSingleBifurcation` -/

/-- Unless the limit of bifurcations is reached, the graph found contains exactly the nodes on a route
from the root to the target, each with exactly the arguments which lead to the target (in increasing
order) and exactly its uses on such routes. The number of bifurcations is not increased exactly when
every node has at most one such argument. -/
theorem findPathGraph_exact (rank : Nat → Nat) (hrank : Ranked G rank) {fuel root target b0 maxB : Nat}
    (hfuel : rank root < fuel) (hb0 : b0 ≤ maxB) :
    ∃ g b, findPathGraph G fuel root target b0 maxB = some (g, b) ∧ b0 ≤ b ∧ (b < maxB →
      (∀ v, (∃ e, g v = some e) ↔ (∃ r, Route G root r v) ∧ ∃ r, Route G v r target) ∧
      (∀ v e, g v = some e →
        e.arguments.Pairwise (· < ·) ∧
        (∀ i, i ∈ e.arguments ↔ ∃ is, Route G v (i :: is) target) ∧
        (∀ p i, (p, i) ∈ e.usage ↔ (∃ r, Route G root r p) ∧ (G p).args[i]? = some (.node v))) ∧
      (b = b0 ↔ ∀ v e, g v = some e → e.arguments.length ≤ 1)) := by
  obtain ⟨g, b, h1, h2, h3⟩ := findPathGraph_spec (G := G) hrank (T := target) hfuel hb0
  refine ⟨g, b, h1, h2, ?_⟩
  intro hb
  obtain ⟨hg, hc⟩ := h3 hb
  refine ⟨?_, ?_, ?_⟩
  · intro v
    rw [← Option.isSome_iff_exists]
    exact hg.present v
  · intro v e he
    have ha : argsOf g v = e.arguments := by unfold argsOf; rw [he]
    have hu : useOf g v = e.usage := by unfold useOf; rw [he]
    have hs : (g v).isSome = true := by rw [he]; rfl
    obtain ⟨hr, hvt⟩ := (hg.present v).mp hs
    refine ⟨by rw [← ha]; exact hg.sorted v, ?_, ?_⟩
    · intro i
      rw [← ha, hg.args]
      exact ⟨fun h => h.2, fun h => ⟨hr, h⟩⟩
    · intro p i
      rw [← hu, hg.usage, hg.args]
      constructor
      · rintro ⟨⟨h4, _⟩, h5⟩; exact ⟨h4, h5⟩
      · rintro ⟨h4, h5⟩
        obtain ⟨is, his⟩ := hvt
        exact ⟨⟨h4, is, route_cons.mpr ⟨v, h5, his⟩⟩, h5⟩
  · rw [hc]
    constructor
    · intro h v e he
      have := h v
      unfold argsOf at this; rw [he] at this; exact this
    · intro h v
      unfold argsOf
      cases hv : g v with
      | none => simp
      | some e => exact h v e hv

/-- Routes are recorded one node at a time: no bifurcation means that there is at most one route. -/
theorem no_bifurcation_unique (rank : Nat → Nat) (hrank : Ranked G rank) {fuel root target maxB : Nat}
    (hfuel : rank root < fuel) (hmax : 0 < maxB) :
    ∃ g b, findPathGraph G fuel root target 0 maxB = some (g, b) ∧
      (b = 0 ↔ ∀ r r', Route G root r target → Route G root r' target → r = r') := by
  obtain ⟨g, b, h1, _, h3⟩ := findPathGraph_spec (G := G) hrank (T := target) hfuel (Nat.zero_le maxB)
  refine ⟨g, b, h1, ?_⟩
  constructor
  · intro hb
    obtain ⟨hg, hc⟩ := h3 (by omega)
    have hone := hc.mp hb
    have key : ∀ (r r' : List Nat) (v : Nat), Reaches G root v → Route G v r target → Route G v r' target →
        r = r' := by
      intro r
      induction r with
      | nil =>
        intro r' v _ h h'
        rw [route_nil] at h; subst h
        have := route_rank hrank h'
        exact (List.length_eq_zero_iff.mp (by omega)).symm
      | cons i r ih =>
        intro r' v hv h h'
        cases r' with
        | nil =>
          rw [route_nil] at h'; subst h'
          have := route_rank hrank h
          rw [List.length_cons] at this; omega
        | cons j r' =>
          have hi := (hg.args v i).mpr ⟨hv, r, h⟩
          have hj := (hg.args v j).mpr ⟨hv, r', h'⟩
          have hl := hone v
          have hij : i = j := by
            match argsOf g v, hl, hi, hj with
            | [], _, hi, _ => cases hi
            | [k], _, hi, hj =>
              simp only [List.mem_singleton] at hi hj; rw [hi, hj]
            | _ :: _ :: _, hl, _, _ => simp at hl
          subst hij
          obtain ⟨m, hm, h1⟩ := route_cons.mp h
          obtain ⟨m', hm', h2⟩ := route_cons.mp h'
          rw [hm] at hm'; cases hm'
          rw [ih r' m (hv.trans (.step hm)) h1 h2]
    intro r r' h h'
    exact key r r' root (.refl _) h h'
  · intro huniq
    apply Classical.byContradiction
    intro hb
    obtain ⟨r, r', h4, h5, h6⟩ := findPathGraph_two hrank hfuel (Nat.zero_le maxB) h1 hb
    exact h6 (huniq r r' h4 h5)

/-- The paths returned by `findSingleBifurcation` on the graph found by `findPathGraph`: none if there is
no route, the only route, or the two routes of a node where two arguments lead to the target, each in
one way only; `bifIndex` is the position of this node in both paths. -/
theorem findSingleBifurcation_correct (rank : Nat → Nat) (hrank : Ranked G rank)
    {fuel root target maxB b : Nat} {g : PGraph} (hfuel : rank root < fuel)
    (h : findPathGraph G fuel root target 0 maxB = some (g, b)) (hb : b < maxB) :
    ∃ q, findSingleBifurcation G g fuel root target = some q ∧
      (q = ([], none) ∧ (∀ r, ¬ Route G root r target) ∨
      (∃ r, q = ([stepsUp G root r], none) ∧ ∀ r', Route G root r' target ↔ r' = r) ∨
      ∃ w r i j is js, q = ([stepsUp G root (r ++ i :: is), stepsUp G root (r ++ j :: js)], some r.length) ∧
        Route G root r w ∧ i < j ∧
        (∀ is', Route G w (i :: is') target ↔ is' = is) ∧ (∀ js', Route G w (j :: js') target ↔ js' = js)) := by
  obtain ⟨g', b', h1, _, h3⟩ := findPathGraph_spec (G := G) hrank (T := target) hfuel (Nat.zero_le maxB)
  rw [h] at h1
  cases h1
  obtain ⟨q, e, hq⟩ := single_spec hrank (h3 hb).1 hfuel
  refine ⟨q, e, ?_⟩
  cases hq with
  | absent hn => exact .inl ⟨rfl, fun r hr => hn ⟨r, hr⟩⟩
  | one h1 h2 =>
    refine .inr (.inl ⟨_, rfl, fun r' => ⟨h2 r', ?_⟩⟩)
    rintro rfl; exact h1
  | two h1 h2 h3 h4 h5 h6 =>
    refine .inr (.inr ⟨_, _, _, _, _, _, rfl, h1, h2, fun s => ⟨h5 s, ?_⟩, fun s => ⟨h6 s, ?_⟩⟩)
    · rintro rfl; exact h3
    · rintro rfl; exact h4

/-- the root may be used with the graph of its paths: three bifurcations on the way to `x` -/
example : ((findPathGraph exGraph 10 4 0 0 50).map fun q => (q.2, (List.range 5).map q.1)) =
    some (3, [some ⟨[], [(1, 0), (1, 1), (4, 1)]⟩, some ⟨[0, 1], [(2, 0)]⟩, some ⟨[0], [(3, 0), (3, 1)]⟩,
      some ⟨[0, 1], [(4, 0)]⟩, some ⟨[0, 1], []⟩]) := by decide
/-- and two paths from `w` to `z` which separate at `w`, in position 1 of the paths from `y` -/
example : ((findPathGraph exGraph 10 4 2 0 50).bind fun q => findSingleBifurcation exGraph q.1 10 4 2) =
    some ([[(4, some 0), (3, some 0), (2, none)], [(4, some 0), (3, some 1), (2, none)]], some 1) := by decide
example : findPathGraph exGraph 10 4 3 0 1 ≠ none ∧
    (findPathGraph exGraph 10 4 3 0 1).map (·.2) = some 0 := by decide
/-- the limit of bifurcations ends the search -/
example : (findPathGraph exGraph 10 4 0 0 1).map (·.2) = some 1 := by decide

end Verif.Paths
