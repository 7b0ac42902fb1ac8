import Verif.Loops.LemmasHessAll
import Mathlib.Algebra.Ring.Int.Defs

/-
Properties C58 and C59: Hessians of models with loops.
-/
namespace Verif.Loops

open Verif.Index Verif.Ranges

variable {α : Type} [CommRing α]

/-! ### C58: contributions with positions and numbers of additions -/

/-- the contributions one after the other -/
def hessContrs (isZ : (Nat → α) → Bool) : List (List HEl × (Nat → α)) → Body α → Except Err (Body α)
  | [], b => .ok b
  | (pos, val) :: l, b => match hessContr isZ pos val b with
    | .error x => .error x
    | .ok b => hessContrs isZ l b

theorem hessContrs_meets {isZ : (Nat → α) → Bool} (hz : ∀ f, isZ f = true → ∀ it, f it = 0) {n : Nat} (hn : n - 1 ≤ sizeMax) :
    ∀ (l : List (List HEl × (Nat → α))), (∀ p ∈ l, p.1.length = n) → (∀ p ∈ l, ∀ h ∈ p.1, 0 < h.cnt → h.loc.isSome = true) → (∀ p ∈ l, ∃ h ∈ p.1, 0 < h.cnt) →
    ∀ {b : Body α} {cs : List (Contr α)}, Meets n true b cs → ∃ b' cs', hessContrs isZ l b = .ok b' ∧ Meets n true b' (cs ++ cs') ∧
      ∀ e it, csum cs' e it = lsum l fun p => posVal p.1 p.2 e it
  | [], _, _, _, b, cs, hb => ⟨b, [], rfl, by simpa using hb, fun e it => by simp [csum]⟩
  | (pos, val) :: l, h1, h2, h3, b, cs, hb => by
    have hlen : pos.length = n := h1 _ List.mem_cons_self
    subst hlen
    obtain ⟨b1, cs1, a1, a2, a3⟩ := hessContr_ok hz hn (fun h hh hp hn => by simpa [hn] using h2 _ List.mem_cons_self h hh hp) (h3 _ List.mem_cons_self) val hb
    obtain ⟨b2, cs2, c1, c2, c3⟩ := hessContrs_meets hz hn l (fun p h => h1 p (List.mem_cons_of_mem _ h)) (fun p h => h2 p (List.mem_cons_of_mem _ h))
      (fun p h => h3 p (List.mem_cons_of_mem _ h)) a2
    rw [hessContrs, a1]
    refine ⟨b2, cs1 ++ cs2, c1, by rwa [← List.append_assoc], fun e it => ?_⟩
    rw [csum_append, a3, c3, lsum_cons]

/-- Whatever contributions are added to a loop, each given by a value and, for every iteration, a location and how often the value is added
there: code is generated, the loop does not get stuck, and every element of the result gets the sum of all contributions, each as
often as given. -/
theorem contributions_right {isZ : (Nat → α) → Bool} (hz : ∀ f, isZ f = true → ∀ it, f it = 0) {n : Nat} (hn : n < 2 ^ 64)
    (l : List (List HEl × (Nat → α))) (h1 : ∀ p ∈ l, p.1.length = n) (h2 : ∀ p ∈ l, ∀ h ∈ p.1, 0 < h.cnt → h.loc.isSome = true)
    (h3 : ∀ p ∈ l, ∃ h ∈ p.1, 0 < h.cnt) (out : Nat → α) :
    ∃ b o, hessContrs isZ l ⟨[], []⟩ = .ok b ∧ runLoop b n out = some o ∧
      ∀ e, o e = out e + ∑ it ∈ Finset.range n, (l.map fun p => match p.1[it]? with
        | some h => if h.loc = some e then (h.cnt : α) * p.2 it else 0
        | none => 0).sum := by
  have hmax : n - 1 ≤ sizeMax := by unfold sizeMax; omega
  obtain ⟨b, cs, a1, a2, a3⟩ := hessContrs_meets hz hmax l h1 h2 h3 (meets_empty n true)
  obtain ⟨o, k1, k2⟩ := meets_run a2 out
  refine ⟨b, o, a1, k1, fun e => ?_⟩
  rw [k2]
  congr 1
  refine Finset.sum_congr rfl fun it _ => ?_
  rw [List.nil_append, a3]
  rfl

/-- added twice in iteration 0, once in iterations 1 and 3, not in iteration 2; and a second value added in the same iterations,
which shares the if-else -/
example : ∃ b o, hessContrs (fun _ => false) [([⟨some 4, 2⟩, ⟨some 5, 1⟩, ⟨none, 0⟩, ⟨some 7, 1⟩], fun it => (10 + it : Int)), ([⟨some 5, 2⟩, ⟨some 5, 1⟩, ⟨none, 0⟩, ⟨some 5, 1⟩], fun it => (100 * it + 1 : Int))] ⟨[], []⟩ = .ok b ∧
    runLoop b 4 (fun _ => 0) = some o ∧ o 4 = 20 ∧ o 5 = 415 ∧ o 7 = 13 ∧ o 6 = 0 := by
  obtain ⟨b, o, h1, h2, h3⟩ := contributions_right (isZ := fun _ => false) (by simp) (n := 4) (by decide)
    [([⟨some 4, 2⟩, ⟨some 5, 1⟩, ⟨none, 0⟩, ⟨some 7, 1⟩], fun it => (10 + it : Int)), ([⟨some 5, 2⟩, ⟨some 5, 1⟩, ⟨none, 0⟩, ⟨some 5, 1⟩], fun it => (100 * it + 1 : Int))]
    (by simp) (by simp) (by simp) fun _ => 0
  exact ⟨b, o, h1, h2, by rw [h3]; decide, by rw [h3]; decide, by rw [h3]; decide, by rw [h3]; decide⟩

/-! ### C59: the sparse Hessian -/

/-- The statement of C59: if the patterns are symmetric and cover the derivatives, code is generated, it does not get stuck, and every
requested element holds the second derivative of the weighted sum of all equations. -/
def HessianRight (M : Model) (P : Hes) (isZ : (Nat → α) → Bool) (W : Int → α) (H : Nat → Nat → Nat → Nat → Nat → α) (D : Nat → Nat → Nat → Nat → α)
    (G : Nat → Nat → α) (G2 : Nat → Nat → Nat → α) (req : List (Nat × Nat)) : Prop :=
  ∃ out, sparseHessian M P isZ W H D G G2 req = .ok out ∧
    (∀ (e j1 j2 : Nat), req[e]? = some (j1, j2) → out e = M.hess (fun o => W o) H D G G2 j1 j2) ∧ ∀ e, req.length ≤ e → out e = 0

/-- This holds for requests without repetitions if the number of equations outside of the loops and temporaries is not larger than the
number of all equations, and rows of temporaries which contain a non-indexed variable contain its number (`Findable`). Both are needed, see
below. -/
theorem hessian_right_partial {M : Model} (hM : M.Ok) (hu : M.AllUsed) {P : Hes} {H : Nat → Nat → Nat → Nat → Nat → α} {D : Nat → Nat → Nat → Nat → α}
    {G : Nat → Nat → α} {G2 : Nat → Nat → Nat → α} (hc1 : M.Covers D G) (hc2 : M.Covers2 P H G2)
    {isZ : (Nat → α) → Bool} (hz : ∀ f, isZ f = true → ∀ it, f it = 0) (W : Int → α) {req : List (Nat × Nat)} (hnd : req.Nodup)
    (hE : ∀ p ∈ req, M.Findable P p.1 p.2) (hA : ∀ fr, M.free = some fr → fr.jac.length ≤ P.m) :
    HessianRight M P isZ W H D G G2 req := by
  have hr := lowerReq_ok hnd
  obtain ⟨o, h1, h2, h3⟩ := hessian_ok hM hu hc1 hc2 hz W hr (fun r hr => by
    obtain ⟨j1, j2, e⟩ := r
    exact hE _ (List.mem_of_getElem? (mem_lowerReq.mp hr).1)) hA
  have hf : firstRep [] req = none := (firstRep_iff req []).mpr ⟨hnd, by simp⟩
  refine ⟨copyDup req o, ?_, fun e j1 j2 he => ?_, fun e he => ?_⟩
  · rw [sparseHessian, hf]
    simp only
    rw [h1]
  · rw [copyDup, he]
    simp only
    by_cases hc : copied req (j1, j2) = true
    · rw [if_pos hc]
      obtain ⟨hm, hcs⟩ := copied_source hc
      simp only at hm hcs
      have hidx : req[req.idxOf (j2, j1)]? = some (j2, j1) := by
        rw [List.getElem?_eq_getElem (List.idxOf_lt_length_of_mem hm)]
        simp
      rw [hess_symm hM hu hc1 hc2]
      exact h2 (j2, j1, req.idxOf (j2, j1)) (mem_lowerReq.mpr ⟨hidx, hcs⟩)
    · rw [if_neg hc]
      exact h2 (j1, j2, e) (mem_lowerReq.mpr ⟨he, by simpa using hc⟩)
  · have : req[e]? = none := List.getElem?_eq_none he
    rw [copyDup, this]
    refine h3 e fun r hr hre => ?_
    obtain ⟨j1, j2, e'⟩ := r
    simp only at hre
    subst hre
    rw [(mem_lowerReq.mp hr).1] at this
    simp at this

/-- requests with a repeated element are refused with an exception -/
theorem hessian_repeated {M : Model} {P : Hes} {H : Nat → Nat → Nat → Nat → Nat → α} {D : Nat → Nat → Nat → Nat → α}
    {G : Nat → Nat → α} {G2 : Nat → Nat → Nat → α} {isZ : (Nat → α) → Bool} (W : Int → α) {req : List (Nat × Nat)} (hnd : ¬ req.Nodup) :
    ∃ p ∈ req, sparseHessian M P isZ W H D G G2 req = .error (.repeated p.1 p.2) := by
  have key : ∀ (req seen : List (Nat × Nat)) (p : Nat × Nat), firstRep seen req = some p → p ∈ req := by
    intro req
    induction req with
    | nil => intro seen p h; simp [firstRep] at h
    | cons x req ih =>
      intro seen p h
      rw [firstRep] at h
      split at h
      · obtain rfl := Option.some.inj h
        exact List.mem_cons_self
      · exact List.mem_cons_of_mem _ (ih _ _ h)
  cases hf : firstRep [] req with
  | none => exact absurd ((firstRep_iff req []).mp hf).1 hnd
  | some p => exact ⟨p, key _ _ _ hf, by rw [sparseHessian, hf]⟩

/-! ### examples -/

/-- two tape equations, the second is missing in iteration 1; an indexed variable, the non-indexed variable 1, the temporary 0 -/
def hexLoop : Loop := ⟨2, [[some 0, some 1], [some 2, none]], [[some 0, some 1]], [1], [0]⟩

def hexRows : List (List Nat) := [[0, 1, 2], [0, 1, 2]]

/-- equation 3 is outside of the loop, the temporary depends on the variables 1 and 3 -/
def hexModel : Model := ⟨[(hexLoop, hexRows)], some ⟨[3], [[0, 3], [1, 3]]⟩⟩

def hexHes : Hes := ⟨4, fun _ _ t => if t < 3 then [0, 1, 2] else [], fun j => if j ∈ [0, 3] then [0, 3] else [], fun j => if j ∈ [1, 3] then [1, 3] else []⟩

def hexD (_ i t it : Nat) : Int := if t < 3 then 100 * i + 10 * t + it + 1 else 0

def hexH (_ i t1 t2 it : Nat) : Int := if t1 < 3 ∧ t2 < 3 then (t1 + 1) * (t2 + 1) + i * (t1 + t2) + it else 0

def hexG (r j : Nat) : Int := if j ∈ ([[0, 3], [1, 3]][r]?).getD [] then 7 * r + j + 1 else 0

def hexG2 (r j1 j2 : Nat) : Int := if j1 ∈ ([[0, 3], [1, 3]][r]?).getD [] ∧ j2 ∈ ([[0, 3], [1, 3]][r]?).getD [] then 5 * r + j1 + j2 + 1 else 0

theorem hexModel_one {q : Nat} {l : Loop} {jac : List (List Nat)} (h : hexModel.loops[q]? = some (l, jac)) : q = 0 ∧ l = hexLoop ∧ jac = hexRows := by
  have hq : q < 1 := (List.getElem?_eq_some_iff.mp h).1
  obtain rfl : q = 0 := by omega
  simp only [hexModel, List.getElem?_cons_zero, Option.some.injEq, Prod.mk.injEq] at h
  exact ⟨rfl, h.1.symm, h.2.symm⟩

theorem hexModel_ok : hexModel.Ok where
  rows q l jac h := by obtain ⟨_, rfl, rfl⟩ := hexModel_one h; decide
  deps q l jac h := by obtain ⟨_, rfl, rfl⟩ := hexModel_one h; decide
  cols q l jac h := by obtain ⟨_, rfl, rfl⟩ := hexModel_one h; decide
  non q l jac h := by obtain ⟨_, rfl, rfl⟩ := hexModel_one h; decide
  tmp q l jac h := by obtain ⟨_, rfl, rfl⟩ := hexModel_one h; decide
  iters q l jac h := by obtain ⟨_, rfl, rfl⟩ := hexModel_one h; decide
  temps q l jac h := by
    obtain ⟨_, rfl, rfl⟩ := hexModel_one h
    intro k hk
    obtain rfl : k = 0 := by simpa [hexLoop] using hk
    exact ⟨_, rfl, by decide⟩
  once q q' l l' jac jac' t t' it it' i h h' := by
    obtain ⟨rfl, rfl, rfl⟩ := hexModel_one h
    obtain ⟨rfl, rfl, rfl⟩ := hexModel_one h'
    intro h1 h2
    have b1 := eq_bounds (by decide) h1
    have b2 := eq_bounds (by decide) h2
    have key : ∀ c ∈ [(0, 0), (0, 1), (1, 0), (1, 1)], ∀ c' ∈ [(0, 0), (0, 1), (1, 0), (1, 1)],
        (hexLoop.eq c.1 c.2).isSome = true → hexLoop.eq c.1 c.2 = hexLoop.eq c'.1 c'.2 → c = c' := by decide
    have cover : ∀ t < 2, ∀ it < 2, (t, it) ∈ [(0, 0), (0, 1), (1, 0), (1, 1)] := by decide
    have := key (t, it) (cover t b1.1 it b1.2) (t', it') (cover t' b2.1 it' b2.2) (by simp only; rw [h1]; rfl) (by simp only; rw [h1, h2])
    exact ⟨rfl, (Prod.mk.inj this).1, (Prod.mk.inj this).2⟩
  apart q l jac t it i fr h h1 h2 := by
    obtain ⟨rfl, rfl, rfl⟩ := hexModel_one h
    obtain rfl := Option.some.inj h2
    have b1 := eq_bounds (by decide) h1
    have key : ∀ t < 2, ∀ it < 2, hexLoop.eq t it ≠ some 3 := by decide
    intro hm
    obtain rfl : i = 3 := by simpa using hm
    exact key t b1.1 it b1.2 h1
  eqs fr h := by
    obtain rfl := Option.some.inj h
    decide

theorem hexModel_used : hexModel.AllUsed := by
  intro q l jac h i hi
  obtain ⟨rfl, rfl, rfl⟩ := hexModel_one h
  have : i = 0 ∨ i = 1 := by
    have : i < 2 := hi
    omega
  rcases this with rfl | rfl
  · exact ⟨0, 0, rfl⟩
  · exact ⟨0, 2, rfl⟩

theorem hexModel_covers : hexModel.Covers hexD hexG where
  loops q l jac h t row hrow t' ht' it := by
    obtain ⟨rfl, rfl, rfl⟩ := hexModel_one h
    have hr : row = [0, 1, 2] := by
      have : row ∈ hexRows := List.mem_of_getElem? hrow
      simpa [hexRows] using this
    subst hr
    unfold hexD
    rw [if_neg]
    intro hlt
    apply ht'
    have : t' = 0 ∨ t' = 1 ∨ t' = 2 := by omega
    simpa using this
  free fr h r sp hsp j hj := by
    obtain rfl := Option.some.inj h
    unfold hexG
    simp only at hsp
    rw [hsp, Option.getD_some, if_neg hj]

theorem mem3 {t : Nat} : t ∈ [0, 1, 2] ↔ t < 3 := by
  constructor
  · intro h
    simp at h
    omega
  · intro h
    have : t = 0 ∨ t = 1 ∨ t = 2 := by omega
    simpa using this

theorem hexModel_covers2 : hexModel.Covers2 hexHes hexH hexG2 where
  rowSym q I t1 t2 h := by
    simp only [hexHes] at h ⊢
    split at h
    · rename_i h1
      rw [if_pos (mem3.mp h), mem3]
      exact h1
    · simp at h
  symH q i t1 t2 it := by
    unfold hexH
    by_cases h : t1 < 3 ∧ t2 < 3
    · rw [if_pos h, if_pos h.symm]
      ring
    · rw [if_neg h, if_neg fun h' => h h'.symm]
  symG r j1 j2 := by
    unfold hexG2
    by_cases h : j1 ∈ ([[0, 3], [1, 3]][r]?).getD [] ∧ j2 ∈ ([[0, 3], [1, 3]][r]?).getD []
    · rw [if_pos h, if_pos h.symm]
      ring
    · rw [if_neg h, if_neg fun h' => h h'.symm]
  loops q I i _ t1 t2 h it := by
    unfold hexH
    rw [if_neg]
    rintro ⟨h1, h2⟩
    apply h
    simp only [hexHes, h1, if_true]
    exact mem3.mpr h2
  eqs r hr j1 j2 h := by
    have hr : r < 1 := hr
    obtain rfl : r = 0 := by omega
    unfold hexG2
    rw [if_neg]
    rintro ⟨h1, h2⟩
    apply h
    have h1 : j1 ∈ [0, 3] := h1
    simp only [hexHes]
    rw [if_pos h1]
    exact h2
  tmp k j1 j2 h := by
    unfold hexG2
    rw [if_neg]
    rintro ⟨h1, h2⟩
    apply h
    have hk : hexModel.nFree + k = 1 + k := rfl
    rw [hk] at h1 h2
    cases k with
    | zero =>
      have h1 : j1 ∈ [1, 3] := h1
      simp only [hexHes]
      rw [if_pos h1]
      exact h2
    | succ k =>
      have : ([[0, 3], [1, 3]] : List (List Nat))[1 + (k + 1)]? = none := List.getElem?_eq_none (by simp; omega)
      rw [this] at h1
      simp at h1
  jac fr h r sp hsp j1 hj j2 := by
    obtain rfl := Option.some.inj h
    unfold hexG2
    simp only at hsp
    rw [hsp, Option.getD_some, if_neg fun h => hj h.1]

/-- the variable 1 is the tape variable 1, so that it is found -/
theorem hexModel_findable (j1 j2 : Nat) : hexModel.Findable hexHes j1 j2 := by
  intro q l jac I p s k fr sp hl hp hs hf hsp hj hrow
  obtain ⟨rfl, rfl, rfl⟩ := hexModel_one hl
  obtain rfl : j2 = 1 := by
    have : j2 ∈ [1] := List.mem_of_getElem? hp
    simpa using this
  have : s < 1 := (List.getElem?_eq_some_iff.mp hs).1
  obtain rfl : s = 0 := by omega
  exact mem3.mpr (by decide)

def hexReq : List (Nat × Nat) := [(0, 0), (0, 1), (1, 0), (1, 1), (1, 3), (3, 1), (3, 3), (0, 3), (2, 2)]

/-- second derivatives which mix all kinds of variables -/
example : ∃ out, sparseHessian hexModel hexHes (fun _ => false) (fun o => 2 * o + 1) hexH hexD hexG hexG2 hexReq = .ok out ∧
    out 0 = 13 ∧ out 1 = out 2 ∧ out 3 = hexModel.hess (fun o => (2 * o + 1 : Int)) hexH hexD hexG hexG2 1 1 ∧ out 3 ≠ 0 ∧ out 4 = out 5 ∧ out 8 = 0 ∧ out 9 = 0 := by
  obtain ⟨out, h1, h2, h3⟩ := hessian_right_partial hexModel_ok hexModel_used hexModel_covers hexModel_covers2 (isZ := fun _ => false) (by simp)
    (fun o => 2 * o + 1) (req := hexReq) (by decide) (fun p _ => hexModel_findable p.1 p.2) (fun fr h => by obtain rfl := Option.some.inj h; decide)
  refine ⟨out, h1, ?_, ?_, h2 3 1 1 rfl, ?_, ?_, ?_, h3 9 (by decide)⟩
  · rw [h2 0 0 0 rfl]; decide +kernel
  · rw [h2 1 0 1 rfl, h2 2 1 0 rfl]; decide +kernel
  · rw [h2 3 1 1 rfl]; decide +kernel
  · rw [h2 4 1 3 rfl, h2 5 3 1 rfl]; decide +kernel
  · rw [h2 8 2 2 rfl]; decide +kernel

/-! ### what goes wrong -/

/-- `y_it = x_it + x_2 z(x_3)` with two iterations: a non-indexed variable times a temporary -/
def badLoop : Loop := ⟨2, [[some 0, some 1]], [[some 0, some 1]], [2], [0]⟩

def badModel : Model := ⟨[(badLoop, [[0, 1, 2]])], some ⟨[], [[3]]⟩⟩

/-- only the second derivative with respect to the tape variables 1 and 2 is not zero -/
def badHes : Hes := ⟨2, fun _ _ t => if t = 1 then [2] else if t = 2 then [1] else [], fun _ => [], fun _ => []⟩

def badH (_ _ t1 t2 _ : Nat) : Int := if (t1 = 1 ∧ t2 = 2) ∨ (t1 = 2 ∧ t2 = 1) then 1 else 0

/-- the derivatives of the tape: 1, the temporary (here 7), the variable 2 (here 11) -/
def badD (_ _ t _ : Nat) : Int := if t = 0 then 1 else if t = 1 then 7 else if t = 2 then 11 else 0

/-- the derivative of the temporary is 5 -/
def badG (r j : Nat) : Int := if r = 0 ∧ j = 3 then 5 else 0

theorem badModel_one {q : Nat} {l : Loop} {jac : List (List Nat)} (h : badModel.loops[q]? = some (l, jac)) : q = 0 ∧ l = badLoop ∧ jac = [[0, 1, 2]] := by
  have hq : q < 1 := (List.getElem?_eq_some_iff.mp h).1
  obtain rfl : q = 0 := by omega
  simp only [badModel, List.getElem?_cons_zero, Option.some.injEq, Prod.mk.injEq] at h
  exact ⟨rfl, h.1.symm, h.2.symm⟩

theorem badModel_ok : badModel.Ok where
  rows q l jac h := by obtain ⟨_, rfl, rfl⟩ := badModel_one h; decide
  deps q l jac h := by obtain ⟨_, rfl, rfl⟩ := badModel_one h; decide
  cols q l jac h := by obtain ⟨_, rfl, rfl⟩ := badModel_one h; decide
  non q l jac h := by obtain ⟨_, rfl, rfl⟩ := badModel_one h; decide
  tmp q l jac h := by obtain ⟨_, rfl, rfl⟩ := badModel_one h; decide
  iters q l jac h := by obtain ⟨_, rfl, rfl⟩ := badModel_one h; decide
  temps q l jac h := by
    obtain ⟨_, rfl, rfl⟩ := badModel_one h
    intro k hk
    obtain rfl : k = 0 := by simpa [badLoop] using hk
    exact ⟨_, rfl, by decide⟩
  once q q' l l' jac jac' t t' it it' i h h' := by
    obtain ⟨rfl, rfl, rfl⟩ := badModel_one h
    obtain ⟨rfl, rfl, rfl⟩ := badModel_one h'
    intro h1 h2
    have b1 := eq_bounds (by decide) h1
    have b2 := eq_bounds (by decide) h2
    have key : ∀ c ∈ [(0, 0), (0, 1)], ∀ c' ∈ [(0, 0), (0, 1)],
        (badLoop.eq c.1 c.2).isSome = true → badLoop.eq c.1 c.2 = badLoop.eq c'.1 c'.2 → c = c' := by decide
    have cover : ∀ t < 1, ∀ it < 2, (t, it) ∈ [(0, 0), (0, 1)] := by decide
    have := key (t, it) (cover t b1.1 it b1.2) (t', it') (cover t' b2.1 it' b2.2) (by simp only; rw [h1]; rfl) (by simp only; rw [h1, h2])
    exact ⟨rfl, (Prod.mk.inj this).1, (Prod.mk.inj this).2⟩
  apart q l jac t it i fr h h1 h2 := by
    obtain rfl := Option.some.inj h2
    simp
  eqs fr h := by
    obtain rfl := Option.some.inj h
    decide

theorem badModel_used : badModel.AllUsed := by
  intro q l jac h i hi
  obtain ⟨rfl, rfl, rfl⟩ := badModel_one h
  have : i < 1 := hi
  obtain rfl : i = 0 := by omega
  exact ⟨0, 0, rfl⟩

theorem badModel_covers : badModel.Covers badD badG where
  loops q l jac h t row hrow t' ht' it := by
    obtain ⟨rfl, rfl, rfl⟩ := badModel_one h
    have hr : row = [0, 1, 2] := by
      have : row ∈ [[0, 1, 2]] := List.mem_of_getElem? hrow
      simpa using this
    subst hr
    have h3 : ¬ t' < 3 := fun h => ht' (mem3.mpr h)
    unfold badD
    rw [if_neg (by omega), if_neg (by omega), if_neg (by omega)]
  free fr h r sp hsp j hj := by
    obtain rfl := Option.some.inj h
    unfold badG
    rw [if_neg]
    rintro ⟨rfl, rfl⟩
    obtain rfl := Option.some.inj hsp
    simp at hj

theorem badModel_covers2 : badModel.Covers2 badHes badH (fun _ _ _ => (0 : Int)) where
  rowSym q I t1 t2 h := by
    simp only [badHes] at h ⊢
    split at h
    · rename_i h1
      simp at h
      subst h h1
      decide
    · split at h
      · rename_i h1
        simp at h
        subst h h1
        decide
      · simp at h
  symH q i t1 t2 it := by
    unfold badH
    by_cases h : (t1 = 1 ∧ t2 = 2) ∨ (t1 = 2 ∧ t2 = 1)
    · rw [if_pos h, if_pos (by omega)]
    · rw [if_neg h, if_neg (by omega)]
  symG _ _ _ := rfl
  loops q I i _ t1 t2 h it := by
    unfold badH
    rw [if_neg]
    rintro (⟨rfl, rfl⟩ | ⟨rfl, rfl⟩) <;> exact h (by simp [badHes])
  eqs _ _ _ _ _ := rfl
  tmp _ _ _ _ := rfl
  jac _ _ _ _ _ _ _ _ := rfl

/-- The statement is false in general: the row of a temporary is searched for the number of the variable of the whole model instead of the
number of the tape variable (l.461-463). Here the tape variable of `x_2` is 1, and the contribution of both iterations to the element
(3, 2) is missing, also if the element (2, 3) was requested as well. -/
theorem hessian_temporary_counterexample : badModel.Ok ∧ badModel.AllUsed ∧ badModel.Covers badD badG ∧ badModel.Covers2 badHes badH (fun _ _ _ => (0 : Int)) ∧
    (∀ fr, badModel.free = some fr → fr.jac.length ≤ badHes.m) ∧
    (∃ out, sparseHessian badModel badHes (fun _ => false) (fun _ => (1 : Int)) badH badD badG (fun _ _ _ => 0) [(2, 3), (3, 2)] = .ok out ∧ out 0 = 0 ∧ out 1 = 0) ∧
    badModel.hess (fun _ => (1 : Int)) badH badD badG (fun _ _ _ => 0) 2 3 = 10 := by
  refine ⟨badModel_ok, badModel_used, badModel_covers, badModel_covers2, fun fr h => ?_, ⟨_, rfl, by decide +kernel, by decide +kernel⟩, by decide +kernel⟩
  obtain rfl := Option.some.inj h
  decide

/-- hence the statement is false for these requests -/
theorem hessian_right_counterexample : ¬ HessianRight badModel badHes (fun _ => false) (fun _ => (1 : Int)) badH badD badG (fun _ _ _ => 0) [(2, 3), (3, 2)] := by
  rintro ⟨out, h1, h2, _⟩
  obtain ⟨_, _, _, _, _, ⟨out', k1, k2, _⟩, k3⟩ := hessian_temporary_counterexample
  rw [k1] at h1
  obtain rfl := Except.ok.inj h1
  have := h2 0 2 3 rfl
  rw [k2] at this
  rw [k3] at this
  exact absurd this (by decide)

/-- `y_it = x_it (z_0(x_2) + z_1(x_2) + z_2(x_2))` with two iterations -/
def manyLoop : Loop := ⟨2, [[some 0, some 1]], [[some 0, some 1]], [], [0, 1, 2]⟩

def manyModel : Model := ⟨[(manyLoop, [[0, 1, 2, 3]])], some ⟨[], [[2], [2], [2]]⟩⟩

def manyHes : Hes := ⟨2, fun _ _ t => if t = 0 then [1, 2, 3] else if t < 4 then [0] else [], fun _ => [], fun j => if j = 2 then [2] else []⟩

/-- The second condition is needed, too: there are two equations but three temporaries, and the Jacobian pattern with one row for each
temporary is written out of the bounds of a vector with one row for each equation of the whole model (l.81). -/
theorem hessian_bounds_counterexample (H : Nat → Nat → Nat → Nat → Nat → Int) (D : Nat → Nat → Nat → Nat → Int) (G : Nat → Nat → Int) (G2 : Nat → Nat → Nat → Int) :
    sparseHessian manyModel manyHes (fun _ => false) (fun _ => (1 : Int)) H D G G2 [(2, 0), (2, 1), (2, 2)] = .error .undefined ∧
    ∀ j1 j2, manyModel.Findable manyHes j1 j2 := by
  refine ⟨by rfl, fun j1 j2 q l jac I p s k fr sp hl hp => ?_⟩
  have hq : q < 1 := (List.getElem?_eq_some_iff.mp hl).1
  obtain rfl : q = 0 := by omega
  simp only [manyModel, List.getElem?_cons_zero, Option.some.injEq, Prod.mk.injEq] at hl
  obtain ⟨rfl, rfl⟩ := hl
  simp [manyLoop] at hp

end Verif.Loops
