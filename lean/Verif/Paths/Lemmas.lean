import Verif.Paths.Model
import Mathlib.Data.List.Nodup
/- Routes and the search `findPaths`. -/
namespace Verif.Paths
open Verif.Codegen

variable {α : Type} {G : Graph α}

theorem route_nil {n t : Nat} : Route G n [] t ↔ n = t := by
  unfold Route follow; simp

theorem route_cons {n i t : Nat} {is : List Nat} :
    Route G n (i :: is) t ↔ ∃ m, (G n).args[i]? = some (.node m) ∧ Route G m is t := by
  unfold Route
  rw [follow]
  split
  · rename_i m hm
    constructor
    · intro h; exact ⟨m, hm, h⟩
    · rintro ⟨m', h1, h2⟩; rw [hm] at h1; cases h1; exact h2
  · rename_i hm
    constructor
    · intro h; cases h
    · rintro ⟨m', h1, _⟩; exact absurd h1 (hm m')

theorem route_append {n t : Nat} {p q : List Nat} :
    Route G n (p ++ q) t ↔ ∃ m, Route G n p m ∧ Route G m q t := by
  induction p generalizing n with
  | nil => simp [route_nil]
  | cons i p ih =>
    rw [List.cons_append, route_cons]
    constructor
    · rintro ⟨m, h1, h2⟩
      obtain ⟨k, h3, h4⟩ := ih.mp h2
      exact ⟨k, route_cons.mpr ⟨m, h1, h3⟩, h4⟩
    · rintro ⟨k, h3, h4⟩
      obtain ⟨m, h1, h2⟩ := route_cons.mp h3
      exact ⟨m, h1, ih.mpr ⟨k, h2, h4⟩⟩

theorem route_unique {n t t' : Nat} {p : List Nat} (h : Route G n p t) (h' : Route G n p t') : t = t' := by
  unfold Route at h h'; rw [h] at h'; injection h'

theorem mem_argNodes_of {as : List (Arg α)} {i m : Nat} (h : as[i]? = some (.node m)) : m ∈ argNodes as := by
  unfold argNodes
  rw [List.mem_filterMap]
  exact ⟨.node m, List.mem_of_getElem? h, rfl⟩

theorem mem_kids_of {n i m : Nat} (h : (G n).args[i]? = some (.node m)) : m ∈ kids G n := mem_argNodes_of h

theorem route_rank {rank : Nat → Nat} (hr : Ranked G rank) {n t : Nat} {p : List Nat} (h : Route G n p t) :
    rank t + p.length ≤ rank n := by
  induction p generalizing n with
  | nil => rw [route_nil] at h; subst h; simp
  | cons i p ih =>
    obtain ⟨m, h1, h2⟩ := route_cons.mp h
    have := hr n m (mem_kids_of h1)
    have := ih h2
    simp only [List.length_cons]; omega

theorem stepsDown_snd {n t : Nat} {p : List Nat} (h : Route G n p t) : (stepsDown G n p).map Prod.snd = p := by
  induction p generalizing n with
  | nil => rfl
  | cons i p ih =>
    obtain ⟨m, h1, h2⟩ := route_cons.mp h
    rw [stepsDown, h1]
    simp [ih h2]

theorem stepsDown_append {n t : Nat} {p q : List Nat} (h : Route G n p t) :
    stepsDown G n (p ++ q) = stepsDown G n p ++ stepsDown G t q := by
  induction p generalizing n with
  | nil => rw [route_nil] at h; subst h; rfl
  | cons i p ih =>
    obtain ⟨m, h1, h2⟩ := route_cons.mp h
    rw [List.cons_append, stepsDown, stepsDown, h1]
    simp [ih h2]

/-- a route as a path of `findPaths` -/
def full (G : Graph α) (root : Nat) (r : List Nat) : DPath := (root, 0) :: stepsDown G root r

theorem full_append {root t : Nat} {p q : List Nat} (h : Route G root p t) :
    full G root (p ++ q) = full G root p ++ stepsDown G t q := by
  unfold full; rw [stepsDown_append h]; rfl

theorem full_inj {root t t' : Nat} {p q : List Nat} (h : Route G root p t) (h' : Route G root q t')
    (e : full G root p = full G root q) : p = q := by
  unfold full at e
  injection e with _ e
  rw [← stepsDown_snd h, ← stepsDown_snd h', e]

/-- a node passed by a path splits the route -/
theorem split_at {a x : Nat × Nat} {t : Nat} {r : List Nat} {pre s : DPath} (hr : Route G a.1 r t)
    (e : a :: stepsDown G a.1 r = pre ++ x :: s) :
    ∃ p q, r = p ++ q ∧ Route G a.1 p x.1 ∧ Route G x.1 q t ∧ s = stepsDown G x.1 q := by
  induction r generalizing a pre with
  | nil =>
    rw [route_nil] at hr
    cases pre with
    | nil => injection e with e1 e2; subst e1; exact ⟨[], [], rfl, route_nil.mpr rfl, route_nil.mpr hr, e2.symm⟩
    | cons y pre => injection e with _ e; simp [stepsDown] at e
  | cons i r ih =>
    cases pre with
    | nil =>
      injection e with e1 e2; subst e1
      exact ⟨[], i :: r, rfl, route_nil.mpr rfl, hr, e2.symm⟩
    | cons y pre =>
      injection e with _ e
      obtain ⟨m, h1, h2⟩ := route_cons.mp hr
      rw [stepsDown, h1] at e
      obtain ⟨p, q, e1, e2, e3, e4⟩ := ih (a := (m, i)) h2 e
      exact ⟨i :: p, q, by rw [e1]; rfl, route_cons.mpr ⟨m, h1, e2⟩, e3, e4⟩

theorem full_passes {root v t : Nat} {p q : List Nat} (hp : Route G root p v) (_hq : Route G v q t) :
    ∃ pre x, full G root (p ++ q) = pre ++ x :: stepsDown G v q ∧ x.1 = v := by
  rw [full_append hp]
  rcases List.eq_nil_or_concat p with rfl | ⟨p', i, rfl⟩
  · rw [route_nil] at hp; subst hp; exact ⟨[], (root, 0), rfl, rfl⟩
  · rw [List.concat_eq_append] at *
    obtain ⟨m, h1, h2⟩ := route_append.mp hp
    obtain ⟨m', h3, h4⟩ := route_cons.mp h2
    rw [route_nil] at h4; subst h4
    refine ⟨full G root p', (m', i), ?_, rfl⟩
    rw [full_append h1, stepsDown, h3]
    simp [stepsDown]

/-! ### `findPathsFromNode` -/

/-- number of the argument by which the first node of a path is reached -/
def headIdx (p : DPath) : Option Nat := p.head?.map Prod.snd

structure FromOk (node : Nat) (paths : List DPath) (s : List Nat × List DPath) : Prop where
  seen : s.2.map headIdx = s.1.reverse.map some
  nodup : s.1.Nodup
  sound : ∀ q ∈ s.2, ∃ p ∈ paths, ∃ pre x, p = pre ++ x :: q ∧ x.1 = node

theorem fromPath_ok {node : Nat} {paths : List DPath} {whole : DPath} (hw : whole ∈ paths) :
    ∀ (p : DPath) (s : List Nat × List DPath), (∃ pre, whole = pre ++ p) → FromOk node paths s →
      FromOk node paths (fromPath node p s) ∧
      (∀ i ∈ s.1, i ∈ (fromPath node p s).1) ∧
      (∀ pre x b rest, p = pre ++ x :: b :: rest → x.1 = node → b.2 ∈ (fromPath node p s).1) := by
  intro p
  induction p with
  | nil =>
    intro s _ h
    refine ⟨h, fun i hi => hi, ?_⟩
    intro pre x b rest e; cases pre <;> simp at e
  | cons a p ih =>
    intro s hpre h
    cases p with
    | nil =>
      refine ⟨h, fun i hi => hi, ?_⟩
      intro pre x b rest e
      cases pre with
      | nil => simp at e
      | cons y pre => cases pre <;> simp at e
    | cons b rest =>
      obtain ⟨pre, hpre⟩ := hpre
      have hpre' : ∃ pre, whole = pre ++ b :: rest := ⟨pre ++ [a], by rw [hpre]; simp⟩
      rw [fromPath]
      have hs' : FromOk node paths (if a.1 = node ∧ b.2 ∉ s.1 then (b.2 :: s.1, s.2 ++ [b :: rest]) else s) := by
        split
        · rename_i hc
          refine ⟨?_, List.nodup_cons.mpr ⟨hc.2, h.nodup⟩, ?_⟩
          · simp [h.seen, headIdx]
          · intro q hq
            simp only [List.mem_append, List.mem_singleton] at hq
            rcases hq with hq | rfl
            · exact h.sound q hq
            · exact ⟨whole, hw, pre, a, hpre, hc.1⟩
        · exact h
      obtain ⟨g1, g2, g3⟩ := ih _ hpre' hs'
      have hsub : ∀ i ∈ s.1, i ∈ (if a.1 = node ∧ b.2 ∉ s.1 then (b.2 :: s.1, s.2 ++ [b :: rest]) else s).1 := by
        intro i hi; split
        · exact List.mem_cons_of_mem _ hi
        · exact hi
      refine ⟨g1, fun i hi => g2 i (hsub i hi), ?_⟩
      intro pre' x b' rest' e hx
      cases pre' with
      | nil =>
        injection e with e1 e2
        injection e2 with e2 e3
        subst e1 e2
        apply g2
        by_cases hm : b.2 ∈ s.1
        · exact hsub _ hm
        · rw [if_pos ⟨hx, hm⟩]; exact List.mem_cons_self
      | cons y pre' =>
        injection e with _ e
        exact g3 pre' x b' rest' e hx

theorem fromNode_ok (node : Nat) (paths : List DPath) :
    ((findPathsFromNode paths node).map headIdx).Nodup ∧
    (∀ q ∈ findPathsFromNode paths node, ∃ p ∈ paths, ∃ pre x, p = pre ++ x :: q ∧ x.1 = node) ∧
    (∀ p ∈ paths, ∀ pre x b rest, p = pre ++ x :: b :: rest → x.1 = node →
      some b.2 ∈ (findPathsFromNode paths node).map headIdx) ∧
    (∀ q ∈ findPathsFromNode paths node, q ≠ []) := by
  have key : ∀ (l : List DPath) (s : List Nat × List DPath), (∀ p ∈ l, p ∈ paths) → FromOk node paths s →
      FromOk node paths (l.foldl (fun s p => fromPath node p s) s) ∧
      (∀ i ∈ s.1, i ∈ (l.foldl (fun s p => fromPath node p s) s).1) ∧
      (∀ p ∈ l, ∀ pre x b rest, p = pre ++ x :: b :: rest → x.1 = node →
        b.2 ∈ (l.foldl (fun s p => fromPath node p s) s).1) := by
    intro l
    induction l with
    | nil => intro s _ h; exact ⟨h, fun i hi => hi, fun p hp => by cases hp⟩
    | cons p l ih =>
      intro s hl h
      obtain ⟨g1, g2, g3⟩ := fromPath_ok (hl p List.mem_cons_self) p s ⟨[], rfl⟩ h
      obtain ⟨f1, f2, f3⟩ := ih _ (fun q hq => hl q (List.mem_cons_of_mem _ hq)) g1
      refine ⟨f1, fun i hi => f2 i (g2 i hi), ?_⟩
      intro q hq pre x b rest e hx
      rcases List.mem_cons.mp hq with rfl | hq
      · exact f2 _ (g3 pre x b rest e hx)
      · exact f3 q hq pre x b rest e hx
  obtain ⟨g1, _, g3⟩ := key paths ([], []) (fun p h => h)
    ⟨rfl, List.nodup_nil, fun q hq => by cases hq⟩
  unfold findPathsFromNode
  refine ⟨?_, g1.sound, ?_, ?_⟩
  · rw [g1.seen]
    exact (List.nodup_reverse.mpr g1.nodup).map (fun a b h => by injection h)
  · intro p hp pre x b rest e hx
    rw [g1.seen]
    exact List.mem_map.mpr ⟨b.2, List.mem_reverse.mpr (g3 p hp pre x b rest e hx), rfl⟩
  · intro q hq e
    have : headIdx q ∈ (paths.foldl (fun s p => fromPath node p s) ([], [])).2.map headIdx :=
      List.mem_map.mpr ⟨q, hq, rfl⟩
    rw [g1.seen, e] at this
    simp [headIdx] at this

end Verif.Paths
