import Verif.Solve.Lemmas
import Verif.Paths.Props
/- `solveFor` and `isSolvable` for a variable with one route. -/
namespace Verif.Solve
open Verif.Codegen Verif.Cg Verif.Paths Verif.Eval

variable {α : Type}

theorem countP_lt {p q : Nat → Bool} {l : List Nat} (hpq : ∀ a, p a = true → q a = true) {b : Nat} (hb : b ∈ l)
    (h1 : q b = true) (h2 : p b = false) : l.countP p < l.countP q := by
  induction l with
  | nil => cases hb
  | cons a l ih =>
    rw [List.countP_cons, List.countP_cons]
    have hle : l.countP p ≤ l.countP q := List.countP_mono_left fun a _ => hpq a
    rcases List.mem_cons.mp hb with h | h
    · subst h
      rw [h1, h2]; simp; omega
    · have := ih h
      cases hpa : p a with
      | false => simp only [Bool.false_eq_true, if_false]; omega
      | true => rw [hpq a hpa]; simp only [if_true]; omega

/-- a graph without cycles is not deeper than its number of nodes -/
theorem rank_bounded {w : World α} (hc : Closed w) (h : ∃ rank, Ranked w.graph rank) :
    ∃ rank, Ranked w.graph rank ∧ ∀ n, rank n ≤ w.nodes.length := by
  obtain ⟨rank, hr⟩ := h
  refine ⟨fun n => (List.range w.nodes.length).countP fun m => decide (rank m < rank n), ?_, ?_⟩
  · intro n m hm
    have hml : m < w.nodes.length := by
      unfold kids argNodes at hm
      rw [List.mem_filterMap] at hm
      obtain ⟨a, ha, hm⟩ := hm
      cases a with
      | param v => cases hm
      | node k =>
        cases hm
        obtain ⟨i, hi⟩ := List.getElem?_of_mem ha
        exact closed_kid hc hi
    have hlt := hr n m hm
    refine countP_lt (b := m) ?_ (List.mem_range.mpr hml) (by simpa using hlt) (by simp)
    intro a ha
    simp only [decide_eq_true_eq] at ha ⊢
    omega
  · intro n
    exact Nat.le_trans List.countP_le_length (by simp)

/-- what `findPathGraph` and `findSingleBifurcation` find -/
inductive Found (G : Graph α) (root var : Nat) : List UPath × Option Nat → Prop
  | absent : (∀ r, ¬ Route G root r var) → Found G root var ([], none)
  | one {r : List Nat} : (∀ r', Route G root r' var ↔ r' = r) → Found G root var ([stepsUp G root r], none)
  | two {w : Nat} {r : List Nat} {i j : Nat} {is js : List Nat} : Route G root r w → i < j →
      (∀ is', Route G w (i :: is') var ↔ is' = is) → (∀ js', Route G w (j :: js') var ↔ js' = js) →
      Found G root var ([stepsUp G root (r ++ i :: is), stepsUp G root (r ++ j :: js)], some r.length)

theorem search_spec {G : Graph α} {rank : Nat → Nat} (hrank : Ranked G rank) {fuel root var maxB : Nat}
    (hfuel : rank root < fuel) (hmax : 0 < maxB) :
    ∃ g b, findPathGraph G fuel root var 0 maxB = some (g, b) ∧
      (b = 0 ↔ ∀ r r', Route G root r var → Route G root r' var → r = r') ∧
      (b < maxB → ((g var).isSome = true ↔ ∃ r, Route G root r var) ∧
        ∃ q, findSingleBifurcation G g fuel root var = some q ∧ Found G root var q) := by
  obtain ⟨g, b, e, h1⟩ := no_bifurcation_unique rank hrank (target := var) hfuel hmax
  obtain ⟨g', b', e', _, h2⟩ := findPathGraph_exact rank hrank (target := var) hfuel (Nat.zero_le maxB)
  rw [e] at e'; cases e'
  refine ⟨g, b, e, h1, ?_⟩
  intro hb
  obtain ⟨h3, _, _⟩ := h2 hb
  refine ⟨?_, ?_⟩
  · rw [Option.isSome_iff_exists, h3]
    exact ⟨fun h => h.1, fun h => ⟨h, [], route_nil.mpr rfl⟩⟩
  · obtain ⟨q, hq, h4⟩ := findSingleBifurcation_correct rank hrank hfuel e hb
    refine ⟨q, hq, ?_⟩
    rcases h4 with ⟨rfl, h5⟩ | ⟨r, rfl, h5⟩ | ⟨w, r, i, j, is, js, rfl, h5, h6, h7, h8⟩
    · exact .absent h5
    · exact .one h5
    · exact .two h5 h6 h7 h8

/-- with one route, `solveFor` is `solveFor` of the path -/
theorem solveLoop_single {I : Interp α} {half : α} {ltr : Bool} {ord : Op → List Nat} {depth : Nat → Nat}
    {maxB fuel : Nat} {w : World α} (hc : Closed w) (hr : ∃ rank, Ranked w.graph rank) (hd : ∀ n, n < depth n)
    {root var : Nat} {is : List Nat} (his : ∀ is', Route w.graph root is' var ↔ is' = is) :
    solveLoop I half ltr ord depth maxB var (fuel + 1) root w =
      solvePath I half ltr w.graph (stepsUp w.graph root is) w (.const I.zero) := by
  obtain ⟨rank, hrank, hle⟩ := rank_bounded hc hr
  obtain ⟨g, b, e, h1, h2⟩ := search_spec hrank (var := var) (maxB := 50000)
    (Nat.lt_of_le_of_lt (hle root) (hd w.nodes.length)) (by omega)
  have hb : b = 0 := h1.mpr fun r r' h h' => by rw [(his r).mp h, (his r').mp h']
  obtain ⟨h3, q, h4, h5⟩ := h2 (by omega)
  have hsome : (g var).isSome = true := h3.mpr ⟨is, (his is).mpr rfl⟩
  unfold solveLoop
  rw [e]
  simp only
  rw [if_neg (by rw [Option.isNone_eq_false_iff.mpr hsome]; simp), h4]
  cases h5 with
  | absent h => exact absurd ((his is).mpr rfl) (h is)
  | one h =>
    have := (his _).mp ((h _).mpr rfl)
    subst this; rfl
  | @two v r i j js ks h6 h7 h8 h9 =>
    exfalso
    have a1 := (his _).mp (route_append.mpr ⟨v, h6, (h8 js).mpr rfl⟩)
    have a2 := (his _).mp (route_append.mpr ⟨v, h6, (h9 ks).mpr rfl⟩)
    rw [← a2] at a1
    have := List.append_cancel_left a1
    have := (List.cons.inj this).1
    omega

theorem solveLoop_absent {I : Interp α} {half : α} {ltr : Bool} {ord : Op → List Nat} {depth : Nat → Nat}
    {maxB fuel : Nat} {w : World α} (hc : Closed w) (hr : ∃ rank, Ranked w.graph rank) (hd : ∀ n, n < depth n)
    {root var : Nat} (his : ∀ is, ¬ Route w.graph root is var) :
    solveLoop I half ltr ord depth maxB var (fuel + 1) root w = .error .exception := by
  obtain ⟨rank, hrank, hle⟩ := rank_bounded hc hr
  obtain ⟨g, b, e, h1, h2⟩ := search_spec hrank (var := var) (maxB := 50000)
    (Nat.lt_of_le_of_lt (hle root) (hd w.nodes.length)) (by omega)
  have hb : b = 0 := h1.mpr fun r r' h h' => absurd h (his r)
  obtain ⟨h3, _⟩ := h2 (by omega)
  have hsome : ¬ (g var).isSome = true := fun h => by
    obtain ⟨r, hr⟩ := h3.mp h; exact his r hr
  unfold solveLoop
  rw [e]
  simp only
  rw [if_pos (by simpa using hsome)]

/-- `isSolvable` answers as `solveFor` behaves -/
theorem isSolvable_spec [DecidableEq α] {I : Interp α} (L : Laws I) {half : α} {ltr : Bool} {ord : Op → List Nat}
    {depth : Nat → Nat} {maxB fuel : Nat} (hmax : 0 < maxB) {h0 : Nat} {w : World α} (hw : OkW h0 none w)
    (hs : ShapedG w.graph) (hr : ∃ rank, Ranked w.graph rank) (hd : ∀ n, n < depth n) {root var : Nat} :
    isSolvable I half ltr ord depth maxB (fuel + 1) w root var =
      match solveFor I half ltr ord depth maxB (fuel + 1) w root var with
      | .ok _ => .ok true
      | .error .exception => .ok false
      | .error .ub => .error .ub := by
  obtain ⟨rank, hrank, hle⟩ := rank_bounded hw.closed hr
  have hfuel := Nat.lt_of_le_of_lt (hle root) (hd w.nodes.length)
  obtain ⟨g, b, e, h1, h2⟩ := search_spec hrank (var := var) (maxB := maxB) hfuel hmax
  unfold isSolvable
  rw [e]
  simp only
  by_cases hb : b = 0
  · rw [if_pos hb]
    obtain ⟨_, q, h4, h5⟩ := h2 (by omega)
    rw [h4]
    cases h5 with
    | absent h =>
      have hne : root ≠ var := fun h' => h [] (route_nil.mpr h')
      unfold solveFor
      rw [if_neg hne, solveLoop_absent hw.closed hr hd h]
    | @one is h =>
      have hroute := (h is).mpr rfl
      have hne := stepsUp_ne hroute
      obtain ⟨a, p, hp⟩ : ∃ a p, stepsUp w.graph root is = a :: p := by
        cases h' : stepsUp w.graph root is with
        | nil => exact absurd h' hne
        | cons a p => exact ⟨a, p, rfl⟩
      rw [hp]
      simp only
      rw [← hp]
      unfold solveFor
      by_cases heq : root = var
      · rw [if_pos heq]
        have : is = [] := ((h []).mp (route_nil.mpr heq)).symm
        subst this; rfl
      · rw [if_neg heq, solveLoop_single hw.closed hr hd h]
        rcases solvePath_spec L (half := half) (ltr := ltr) hw hs is root w (.const I.zero) (fun _ => some I.zero) hroute
          (fun u hu => by cases hu) (Grow.refl _) hw (vaC_const _ _ _) (den_const _ _ _) with ⟨h6, h7⟩ | ⟨h6, h7⟩
        · obtain ⟨r, w', e', _⟩ := h7.ex
          rw [h6, e']
        · rw [h6, h7]
    | @two v r i j js ks h6 h7 h8 h9 =>
      exfalso
      have a1 := h1.mp hb _ _ (route_append.mpr ⟨v, h6, (h8 js).mpr rfl⟩) (route_append.mpr ⟨v, h6, (h9 ks).mpr rfl⟩)
      have := (List.cons.inj (List.append_cancel_left a1)).1
      omega
  · rw [if_neg hb]
    cases solveFor I half ltr ord depth maxB (fuel + 1) w root var with
    | ok a => rfl
    | error x => cases x <;> rfl

end Verif.Solve
