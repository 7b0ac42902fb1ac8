import Verif.Paths.LemmasGraph
/- The path graph as a whole and `findSingleBifurcation`. -/
namespace Verif.Paths
open Verif.Codegen

variable {α : Type} {G : Graph α}

/-- the graph of all routes from `root` to `T` -/
structure PathGraph (G : Graph α) (root T : Nat) (g : PGraph) : Prop where
  present : ∀ v, (g v).isSome = true ↔ Reaches G root v ∧ Reaches G v T
  args : ∀ v i, i ∈ argsOf g v ↔ Reaches G root v ∧ ∃ is, Route G v (i :: is) T
  sorted : ∀ v, (argsOf g v).Pairwise (· < ·)
  usage : ∀ m p i, (p, i) ∈ useOf g m ↔ i ∈ argsOf g p ∧ (G p).args[i]? = some (.node m)

theorem sum_zero {l : List Nat} (h : l.sum = 0) : ∀ x ∈ l, x = 0 := by
  induction l with
  | nil => intro x hx; cases hx
  | cons a l ih =>
    rw [List.sum_cons] at h
    intro x hx
    rcases List.mem_cons.mp hx with rfl | hx
    · omega
    · exact ih (by omega) x hx

theorem findPathGraph_spec {rank : Nat → Nat} (hrank : Ranked G rank) {fuel root T b0 maxB : Nat}
    (hfuel : rank root < fuel) (hb0 : b0 ≤ maxB) :
    ∃ g b, findPathGraph G fuel root T b0 maxB = some (g, b) ∧ b0 ≤ b ∧
      (b < maxB → PathGraph G root T g ∧ (b = b0 ↔ ∀ v, (argsOf g v).length ≤ 1)) := by
  unfold findPathGraph
  rw [if_pos hb0]
  by_cases hrt : root = T
  · rw [if_pos hrt]
    subst hrt
    have hargs : ∀ v, argsOf (PGraph.modify (fun _ => none) root id) v = [] := by
      intro v; rw [argsOf_start]; rfl
    refine ⟨_, b0, rfl, Nat.le_refl _, fun _ => ⟨⟨?_, ?_, ?_, ?_⟩, by simp [hargs]⟩⟩
    · intro v
      rw [isSome_start]
      constructor
      · rintro (rfl | h)
        · exact ⟨.refl _, .refl _⟩
        · simp at h
      · rintro ⟨h1, h2⟩; exact .inl (h1.antisymm hrank h2).symm
    · intro v i
      rw [hargs]
      constructor
      · intro h; cases h
      · rintro ⟨h1, is, h2⟩
        have h3 := h1.rank_le hrank
        have h4 := route_rank hrank h2
        simp at h4; omega
    · intro v; rw [hargs]; simp
    · intro m p i; rw [useOf_start, hargs]; simp [useOf]
  · rw [if_neg hrt]
    have hinv : Inv G T b0 ⟨fun _ => none, b0, []⟩ := by
      refine ⟨List.nodup_nil, by simp, ?_, ?_, ?_, ?_, rfl, ?_, rfl⟩
      · intro v _ h; simp at h
      · intro m p i; simp [useOf, argsOf]
      · intro p i h; simp [argsOf] at h
      · intro p; simp [argsOf]
      · intro h; simp at h
    obtain ⟨b, st', e, hp⟩ := graphSearch_spec hrank (maxB := maxB) fuel root _ hfuel hinv
      (fun _ v hv => by cases hv)
    rw [e]
    refine ⟨st'.graph, st'.bifs, rfl, hp.frame.mono, ?_⟩
    intro hb
    obtain ⟨hroot', hdone⟩ := hp.done hb
    have hroot : root ∈ st'.visited := hroot'.resolve_left hrt
    have hex : ∀ v ∈ st'.visited, Exact G T st' v := by
      intro v hv
      rcases hdone v hv with h | ⟨h, _⟩
      · exact h
      · cases h
    have hreach : ∀ v ∈ st'.visited, Reaches G root v := by
      intro v hv
      rcases hp.frame.new v hv with h | h
      · cases h
      · exact h
    -- every node on a route has been visited
    have hvis : ∀ (is : List Nat) (u v : Nat), u ∈ st'.visited → Route G u is v → Reaches G v T →
        v = T ∨ v ∈ st'.visited := by
      intro is
      induction is with
      | nil => intro u v hu h _; rw [route_nil] at h; subst h; exact .inr hu
      | cons i is ih =>
        intro u v hu h hv
        obtain ⟨m, hm, h'⟩ := route_cons.mp h
        rcases (hex u hu).closed i m hm with h1 | h1
        · subst h1; exact .inl (hv.antisymm hrank ⟨is, h'⟩)
        · exact ih m v h1 h' hv
    refine ⟨⟨?_, ?_, hp.inv.sorted, hp.inv.usage⟩, ?_⟩
    · intro v
      constructor
      · intro hv
        by_cases hvT : v = T
        · subst hvT
          obtain ⟨⟨p, i⟩, hpi⟩ := List.exists_mem_of_ne_nil _ (hp.inv.used hv)
          obtain ⟨h1, h2⟩ := (hp.inv.usage v p i).mp hpi
          have hps : (st'.graph p).isSome = true := isSome_of_args (by intro h0; rw [h0] at h1; cases h1)
          have hpv : p ≠ v := by
            rintro rfl
            have := hrank p p (mem_kids_of h2); omega
          exact ⟨(hreach p (hp.inv.marked p hpv hps)).trans (.step h2), .refl _⟩
        · have hvv := hp.inv.marked v hvT hv
          refine ⟨hreach v hvv, ?_⟩
          obtain ⟨i, hi⟩ := List.exists_mem_of_ne_nil _ ((hex v hvv).none hv)
          obtain ⟨m, hm, _, hr⟩ := hp.inv.sound v i hi
          exact (Reaches.step hm).trans hr
      · rintro ⟨⟨is, h1⟩, h2⟩
        -- the target is present when there is a route
        have hsomeT : ∀ (is : List Nat) (u : Nat), u ∈ st'.visited → Route G u is T →
            (st'.graph T).isSome = true := by
          intro is
          induction is with
          | nil => intro u hu h; rw [route_nil] at h; subst h; exact absurd hu hp.inv.target
          | cons i is ih =>
            intro u hu h
            have hi := (hex u hu).all i is h
            obtain ⟨m, hm, h'⟩ := route_cons.mp h
            obtain ⟨m', hm', hs, _⟩ := hp.inv.sound u i hi
            rw [hm] at hm'; cases hm'
            by_cases hmT : m = T
            · rw [← hmT]; exact hs
            · exact ih m (hp.inv.marked m hmT hs) h'
        rcases hvis is root v hroot h1 h2 with h3 | h3
        · subst h3; exact hsomeT is root hroot h1
        · obtain ⟨js, hjs⟩ := h2
          cases js with
          | nil => rw [route_nil] at hjs; subst hjs; exact absurd h3 hp.inv.target
          | cons j js =>
            have := (hex v h3).all j js hjs
            exact isSome_of_args (by intro h0; rw [h0] at this; cases this)
    · intro v i
      constructor
      · intro hi
        have hs : (st'.graph v).isSome = true := isSome_of_args (by intro h0; rw [h0] at hi; cases hi)
        have hvT : v ≠ T := by rintro rfl; rw [hp.inv.leaf] at hi; cases hi
        obtain ⟨m, hm, _, is, his⟩ := hp.inv.sound v i hi
        exact ⟨hreach v (hp.inv.marked v hvT hs), is, route_cons.mpr ⟨m, hm, his⟩⟩
      · rintro ⟨⟨js, h1⟩, is, h2⟩
        rcases hvis js root v hroot h1 ⟨_, h2⟩ with h3 | h3
        · subst h3
          have := route_rank hrank h2
          rw [List.length_cons] at this
          omega
        · exact (hex v h3).all i is h2
    · have hcount := hp.inv.count
      constructor
      · intro hbb v
        by_cases hv : v ∈ st'.visited
        · have h0 : extra st'.graph st'.visited = 0 := by omega
          have := sum_zero h0 ((argsOf st'.graph v).length - 1) (List.mem_map.mpr ⟨v, hv, rfl⟩)
          omega
        · by_cases hvT : v = T
          · subst hvT; rw [hp.inv.leaf]; simp
          · by_cases h1 : argsOf st'.graph v = []
            · rw [h1]; simp
            · exact absurd (hp.inv.marked v hvT (isSome_of_args h1)) hv
      · intro hall
        have : extra st'.graph st'.visited = 0 := by
          have h2 : extra st'.graph st'.visited = extra (fun _ => none) st'.visited :=
            extra_congr fun v _ => by have := hall v; simp [argsOf]; unfold argsOf at this; omega
          rw [h2]
          unfold extra
          simp [argsOf]
        omega

/-! ### following the path graph -/

/-- a route as a path of the path graph, without its last node -/
def edgesUp (G : Graph α) : Nat → List Nat → UPath
  | _, [] => []
  | n, i :: is =>
    match (G n).args[i]? with
    | some (.node m) => (n, some i) :: edgesUp G m is
    | _ => []

theorem edgesUp_length {n t : Nat} {p : List Nat} (h : Route G n p t) : (edgesUp G n p).length = p.length := by
  induction p generalizing n with
  | nil => rfl
  | cons i p ih =>
    obtain ⟨m, h1, h2⟩ := route_cons.mp h
    rw [edgesUp, h1]; simp [ih h2]

theorem stepsUp_append {n t : Nat} {p q : List Nat} (h : Route G n p t) :
    stepsUp G n (p ++ q) = edgesUp G n p ++ stepsUp G t q := by
  induction p generalizing n with
  | nil => rw [route_nil] at h; subst h; rfl
  | cons i p ih =>
    obtain ⟨m, h1, h2⟩ := route_cons.mp h
    rw [List.cons_append, stepsUp, edgesUp, h1]
    simp [ih h2]

theorem edgesUp_append {n t : Nat} {p q : List Nat} (h : Route G n p t) :
    edgesUp G n (p ++ q) = edgesUp G n p ++ edgesUp G t q := by
  induction p generalizing n with
  | nil => rw [route_nil] at h; subst h; rfl
  | cons i p ih =>
    obtain ⟨m, h1, h2⟩ := route_cons.mp h
    rw [List.cons_append, edgesUp, edgesUp, h1]
    simp [ih h2]

theorem argNode_eq {n i m : Nat} (h : (G n).args[i]? = some (.node m)) : argNode G n i = some m := by
  unfold argNode; rw [h]

/-- results of `findPathUpTo` -/
def UpTo (G : Graph α) (T : Nat) (acc : UPath) (v : Nat) (ps : List UPath) : Prop :=
  (∃ is, Route G v is T ∧ (∀ is', Route G v is' T → is' = is) ∧ ps = [acc ++ stepsUp G v is]) ∨
  (∃ w r i j is js, Route G v r w ∧ i < j ∧ Route G w (i :: is) T ∧ Route G w (j :: js) T ∧
    (∀ is', Route G w (i :: is') T → is' = is) ∧ (∀ js', Route G w (j :: js') T → js' = js) ∧
    ps = [stepsUp G w (i :: is), stepsUp G w (j :: js)])

theorem pathUpTo_spec {rank : Nat → Nat} (hrank : Ranked G rank) {root T : Nat} {g : PGraph}
    (hg : PathGraph G root T g) :
    ∀ (fuel : Nat) (acc : UPath) (v : Nat), rank v < fuel → Reaches G root v → Reaches G v T →
      ∃ ps, pathUpTo G g fuel acc v = some ps ∧ UpTo G T acc v ps := by
  intro fuel
  induction fuel with
  | zero => intro acc v h; omega
  | succ fuel ih =>
    intro acc v hfuel hr ht
    have hs : (g v).isSome = true := (hg.present v).mpr ⟨hr, ht⟩
    obtain ⟨e, he⟩ := Option.isSome_iff_exists.mp hs
    have hargs : argsOf g v = e.arguments := by unfold argsOf; rw [he]
    have hsort := hg.sorted v
    rw [hargs] at hsort
    have hmem : ∀ i, i ∈ e.arguments ↔ ∃ is, Route G v (i :: is) T := by
      intro i
      rw [← hargs, hg.args]
      exact ⟨fun h => h.2, fun h => ⟨hr, h⟩⟩
    have hleaf : e.arguments ≠ [] → v ≠ T := by
      rintro h rfl
      obtain ⟨i, hi⟩ := List.exists_mem_of_ne_nil _ h
      obtain ⟨is, his⟩ := (hmem i).mp hi
      have := route_rank hrank his
      rw [List.length_cons] at this
      omega
    rw [pathUpTo, he]
    simp only
    cases hl : e.arguments with
    | nil =>
      simp only
      refine ⟨_, rfl, .inl ⟨[], ?_, ?_, rfl⟩⟩
      · obtain ⟨is, his⟩ := ht
        cases is with
        | nil => exact his
        | cons i is => have := (hmem i).mpr ⟨is, his⟩; rw [hl] at this; cases this
      · intro is' his'
        cases is' with
        | nil => rfl
        | cons i is => have := (hmem i).mpr ⟨is, his'⟩; rw [hl] at this; cases this
    | cons i l =>
      have hvT := hleaf (by rw [hl]; simp)
      obtain ⟨is0, his0⟩ := (hmem i).mp (by rw [hl]; simp)
      obtain ⟨a, ha, ha'⟩ := route_cons.mp his0
      have hra : rank a < rank v := hrank v a (mem_kids_of ha)
      have hrta : Reaches G root a := hr.trans (.step ha)
      cases l with
      | nil =>
        simp only
        rw [argNode_eq ha]
        simp only
        obtain ⟨ps, e1, e2⟩ := ih (acc ++ [(v, some i)]) a (by omega) hrta ⟨is0, ha'⟩
        refine ⟨ps, e1, ?_⟩
        rcases e2 with ⟨is, h1, h2, h3⟩ | ⟨w, r, i', j', is, js, h1, h2⟩
        · left
          refine ⟨i :: is, route_cons.mpr ⟨a, ha, h1⟩, ?_, ?_⟩
          · intro is' his'
            cases is' with
            | nil => exact absurd (route_nil.mp his') hvT
            | cons k ks =>
              have := (hmem k).mpr ⟨ks, his'⟩
              rw [hl] at this
              simp only [List.mem_singleton] at this
              subst this
              obtain ⟨m, hm, hm'⟩ := route_cons.mp his'
              rw [ha] at hm; cases hm
              rw [h2 ks hm']
          · rw [h3, stepsUp, ha]; simp
        · right
          exact ⟨w, i :: r, i', j', is, js, route_cons.mpr ⟨a, ha, h1⟩, h2⟩
      | cons j l =>
        simp only
        obtain ⟨js0, hjs0⟩ := (hmem j).mp (by rw [hl]; simp)
        obtain ⟨b, hb, hb'⟩ := route_cons.mp hjs0
        have hrb : rank b < rank v := hrank v b (mem_kids_of hb)
        have hrtb : Reaches G root b := hr.trans (.step hb)
        rw [argNode_eq ha, argNode_eq hb]
        simp only
        obtain ⟨ps, e1, e2⟩ := ih [] a (by omega) hrta ⟨is0, ha'⟩
        rw [e1]
        simp only
        rcases e2 with ⟨is, h1, h2, h3⟩ | ⟨w, r, i', j', is, js, h1, h2, h3, h4, h5, h6, h7⟩
        · subst h3
          rw [if_neg (by simp)]
          obtain ⟨qs, f1, f2⟩ := ih [] b (by omega) hrtb ⟨js0, hb'⟩
          rw [f1]
          simp only
          rcases f2 with ⟨js, k1, k2, k3⟩ | ⟨w, r, i', j', is, js, k1, k2, k3, k4, k5, k6, k7⟩
          · subst k3
            rw [if_neg (by simp)]
            simp only
            refine ⟨_, rfl, .inr ⟨v, [], i, j, is, js, route_nil.mpr rfl, ?_, route_cons.mpr ⟨a, ha, h1⟩,
              route_cons.mpr ⟨b, hb, k1⟩, ?_, ?_, ?_⟩⟩
            · rw [hl] at hsort
              exact (List.pairwise_cons.mp hsort).1 j (by simp)
            · intro is' h
              obtain ⟨m, hm, hm'⟩ := route_cons.mp h
              rw [ha] at hm; cases hm
              exact h2 is' hm'
            · intro js' h
              obtain ⟨m, hm, hm'⟩ := route_cons.mp h
              rw [hb] at hm; cases hm
              exact k2 js' hm'
            · rw [stepsUp, stepsUp, ha, hb]; simp
          · rw [if_pos (by rw [k7]; rfl)]
            exact ⟨qs, rfl, .inr ⟨w, j :: r, i', j', is, js, route_cons.mpr ⟨b, hb, k1⟩, k2, k3, k4, k5, k6, k7⟩⟩
        · rw [if_pos (by rw [h7]; rfl)]
          exact ⟨ps, rfl, .inr ⟨w, i :: r, i', j', is, js, route_cons.mpr ⟨a, ha, h1⟩, h2, h3, h4, h5, h6, h7⟩⟩

theorem climb_spec {rank : Nat → Nat} (hrank : Ranked G rank) {root T : Nat} {g : PGraph}
    (hg : PathGraph G root T g) :
    ∀ (fuel n : Nat) (acc : UPath), rank root < fuel + rank n → Reaches G root n → Reaches G n T → n ≠ root →
      ∃ r, Route G root r n ∧ climb g root fuel n acc = some (edgesUp G root r ++ acc) := by
  intro fuel
  induction fuel with
  | zero => intro n acc h hr; have := hr.rank_le hrank; omega
  | succ fuel ih =>
    intro n acc hfuel hr ht hne
    have hs : (g n).isSome = true := (hg.present n).mpr ⟨hr, ht⟩
    obtain ⟨e, he⟩ := Option.isSome_iff_exists.mp hs
    have huse : useOf g n = e.usage := by unfold useOf; rw [he]
    rw [climb, he]
    simp only
    cases hl : e.usage with
    | nil =>
      exfalso
      obtain ⟨is, his⟩ := hr
      rcases List.eq_nil_or_concat is with rfl | ⟨is', i, rfl⟩
      · exact hne (route_nil.mp his).symm
      · rw [List.concat_eq_append] at his
        obtain ⟨p, h1, h2⟩ := route_append.mp his
        obtain ⟨m, hm, hm'⟩ := route_cons.mp h2
        rw [route_nil] at hm'; subst hm'
        obtain ⟨ks, hks⟩ := ht
        have hi : i ∈ argsOf g p := (hg.args p i).mpr ⟨⟨is', h1⟩, ks, route_cons.mpr ⟨m, hm, hks⟩⟩
        have := (hg.usage m p i).mpr ⟨hi, hm⟩
        rw [huse, hl] at this; cases this
    | cons q l =>
      obtain ⟨p, i⟩ := q
      simp only
      obtain ⟨h1, h2⟩ := (hg.usage n p i).mp (by rw [huse, hl]; simp)
      obtain ⟨hrp, ks, hks⟩ := (hg.args p i).mp h1
      have hrk := hrank p n (mem_kids_of h2)
      by_cases hp : p = root
      · rw [if_pos hp]
        subst hp
        refine ⟨[i], route_cons.mpr ⟨n, h2, route_nil.mpr rfl⟩, ?_⟩
        rw [edgesUp, h2]; rfl
      · rw [if_neg hp]
        obtain ⟨r, h3, h4⟩ := ih p ((p, some i) :: acc) (by omega) hrp ⟨_, hks⟩ hp
        refine ⟨r ++ [i], route_append.mpr ⟨p, h3, route_cons.mpr ⟨n, h2, route_nil.mpr rfl⟩⟩, ?_⟩
        rw [h4, edgesUp_append h3, edgesUp, h2]
        simp [edgesUp]

/-- results of `findSingleBifurcation` -/
inductive Single (G : Graph α) (root T : Nat) : List UPath × Option Nat → Prop
  | absent : ¬ Reaches G root T → Single G root T ([], none)
  | one {is : List Nat} : Route G root is T → (∀ is', Route G root is' T → is' = is) →
      Single G root T ([stepsUp G root is], none)
  | two {w : Nat} {r : List Nat} {i j : Nat} {is js : List Nat} : Route G root r w → i < j →
      Route G w (i :: is) T → Route G w (j :: js) T →
      (∀ is', Route G w (i :: is') T → is' = is) → (∀ js', Route G w (j :: js') T → js' = js) →
      Single G root T ([stepsUp G root (r ++ i :: is), stepsUp G root (r ++ j :: js)], some r.length)

theorem stepsUp_head {n t : Nat} {p : List Nat} (h : Route G n p t) :
    ∃ i rest, stepsUp G n p = (n, i) :: rest := by
  cases p with
  | nil => exact ⟨none, [], rfl⟩
  | cons i p =>
    obtain ⟨m, h1, _⟩ := route_cons.mp h
    rw [stepsUp, h1]; exact ⟨_, _, rfl⟩

theorem single_spec {rank : Nat → Nat} (hrank : Ranked G rank) {root T : Nat} {g : PGraph}
    (hg : PathGraph G root T g) {fuel : Nat} (hfuel : rank root < fuel) :
    ∃ q, findSingleBifurcation G g fuel root T = some q ∧ Single G root T q := by
  unfold findSingleBifurcation
  cases hT : g T with
  | none =>
    refine ⟨_, rfl, .absent ?_⟩
    intro h
    have := (hg.present T).mpr ⟨h, .refl _⟩
    rw [hT] at this; simp at this
  | some tail =>
    simp only
    have hs : (g T).isSome = true := by rw [hT]; rfl
    obtain ⟨hr, _⟩ := (hg.present T).mp hs
    have huse : useOf g T = tail.usage := by unfold useOf; rw [hT]
    by_cases hu : tail.usage = []
    · rw [if_pos hu]
      have hrt : root = T := by
        obtain ⟨is, his⟩ := hr
        rcases List.eq_nil_or_concat is with rfl | ⟨is', i, rfl⟩
        · exact route_nil.mp his
        · rw [List.concat_eq_append] at his
          obtain ⟨p, h1, h2⟩ := route_append.mp his
          obtain ⟨m, hm, hm'⟩ := route_cons.mp h2
          rw [route_nil] at hm'; subst hm'
          have hi : i ∈ argsOf g p := (hg.args p i).mpr ⟨⟨is', h1⟩, [], h2⟩
          have := (hg.usage m p i).mpr ⟨hi, hm⟩
          rw [huse, hu] at this; cases this
      subst hrt
      refine ⟨_, rfl, ?_⟩
      have : ([[(root, none)]] : List UPath) = [stepsUp G root []] := rfl
      rw [this]
      refine .one (route_nil.mpr rfl) ?_
      intro is' h
      have := route_rank hrank h
      rw [← List.length_eq_zero_iff]; omega
    · rw [if_neg hu]
      obtain ⟨ps, e1, e2⟩ := pathUpTo_spec hrank hg fuel [] root hfuel (.refl _) hr
      rw [e1]
      simp only
      rcases e2 with ⟨is, h1, h2, h3⟩ | ⟨w, r, i, j, is, js, h1, h2, h3, h4, h5, h6, h7⟩
      · obtain ⟨k, rest, hk⟩ := stepsUp_head h1
        rw [List.nil_append] at h3
        rw [h3, hk]
        simp only
        rw [if_neg (by simp), if_neg (by simp)]
        refine ⟨_, rfl, ?_⟩
        rw [← hk]
        exact .one h1 h2
      · obtain ⟨k, rest, hk⟩ := stepsUp_head h3
        rw [h7, hk]
        simp only
        by_cases hw : w = root
        · subst hw
          rw [if_neg (by simp), if_pos (by simp)]
          have hr0 : r = [] := by
            have := route_rank hrank h1
            rw [← List.length_eq_zero_iff]; omega
          subst hr0
          refine ⟨_, rfl, ?_⟩
          rw [← hk]
          exact .two (r := []) h1 h2 h3 h4 h5 h6
        · rw [if_pos hw]
          obtain ⟨r', h8, h9⟩ := climb_spec hrank hg fuel w [] (by omega) ⟨r, h1⟩ ⟨_, h3⟩ hw
          rw [h9]
          simp only
          refine ⟨_, rfl, ?_⟩
          rw [List.append_nil, List.map_cons, List.map_cons, List.map_nil, ← hk, ← stepsUp_append h8,
            ← stepsUp_append h8, edgesUp_length h8]
          exact .two h8 h2 h3 h4 h5 h6

theorem sum_ne_zero {l : List Nat} (h : l.sum ≠ 0) : ∃ x ∈ l, x ≠ 0 := by
  induction l with
  | nil => simp at h
  | cons a l ih =>
    by_cases ha : a = 0
    · obtain ⟨x, hx, h0⟩ := ih (by rw [List.sum_cons] at h; omega)
      exact ⟨x, List.mem_cons_of_mem _ hx, h0⟩
    · exact ⟨a, List.mem_cons_self, ha⟩

/-- a bifurcation is counted only when there are two routes -/
theorem findPathGraph_two {rank : Nat → Nat} (hrank : Ranked G rank) {fuel root T b0 maxB b : Nat} {g : PGraph}
    (hfuel : rank root < fuel) (hb0 : b0 ≤ maxB) (h : findPathGraph G fuel root T b0 maxB = some (g, b))
    (hb : b ≠ b0) : ∃ r r', Route G root r T ∧ Route G root r' T ∧ r ≠ r' := by
  unfold findPathGraph at h
  rw [if_pos hb0] at h
  by_cases hrt : root = T
  · rw [if_pos hrt] at h
    cases h
    exact absurd rfl hb
  · rw [if_neg hrt] at h
    have hinv : Inv G T b0 ⟨fun _ => none, b0, []⟩ := by
      refine ⟨List.nodup_nil, by simp, ?_, ?_, ?_, ?_, rfl, ?_, rfl⟩
      · intro v _ h; simp at h
      · intro m p i; simp [useOf, argsOf]
      · intro p i h; simp [argsOf] at h
      · intro p; simp [argsOf]
      · intro h; simp at h
    obtain ⟨b', st', e, hp⟩ := graphSearch_spec hrank (maxB := maxB) fuel root _ hfuel hinv
      (fun _ v hv => by cases hv)
    rw [e] at h
    simp only [Option.map_some, Option.some.injEq, Prod.mk.injEq] at h
    obtain ⟨rfl, rfl⟩ := h
    have hc := hp.inv.count
    have hne : extra st'.graph st'.visited ≠ 0 := by omega
    obtain ⟨x, hx, hx0⟩ := sum_ne_zero hne
    obtain ⟨v, hv, rfl⟩ := List.mem_map.mp hx
    obtain ⟨r, hr⟩ : Reaches G root v := by
      rcases hp.frame.new v hv with h | h
      · cases h
      · exact h
    match ha : argsOf st'.graph v with
    | [] => rw [ha] at hx0; simp at hx0
    | [_] => rw [ha] at hx0; simp at hx0
    | i :: j :: l =>
      have hs := hp.inv.sorted v
      rw [ha, List.pairwise_cons] at hs
      have hij := hs.1 j (by simp)
      obtain ⟨m, hm, _, is, hi⟩ := hp.inv.sound v i (by rw [ha]; simp)
      obtain ⟨m', hm', _, js, hj⟩ := hp.inv.sound v j (by rw [ha]; simp)
      refine ⟨r ++ i :: is, r ++ j :: js, route_append.mpr ⟨v, hr, route_cons.mpr ⟨m, hm, hi⟩⟩,
        route_append.mpr ⟨v, hr, route_cons.mpr ⟨m', hm', hj⟩⟩, ?_⟩
      intro h
      rw [List.append_cancel_left_eq] at h
      injection h with h1 _
      omega

end Verif.Paths
