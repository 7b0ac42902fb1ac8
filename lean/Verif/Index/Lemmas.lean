import Verif.Index.Spec
import Verif.Index.Model
import Mathlib.Tactic.Ring
import Mathlib.Data.Int.Cast.Basic

namespace Verif.Index

variable {R : Type} [CommRing R] [DecidableEq R]

/-! ### sorted points -/

theorem sorted_get {β : Type} {pts : List (Nat × β)} (h : Sorted pts) {i j : Nat} {p q : Nat × β} (hij : i < j)
    (hi : pts[i]? = some p) (hj : pts[j]? = some q) : p.1 < q.1 := by
  obtain ⟨hi', rfl⟩ := List.getElem?_eq_some_iff.mp hi
  obtain ⟨hj', rfl⟩ := List.getElem?_eq_some_iff.mp hj
  exact List.pairwise_iff_getElem.mp h i j hi' hj' hij

theorem sorted_find {β : Type} {pts : List (Nat × β)} (h : Sorted pts) {p : Nat × β} (hp : p ∈ pts) :
    pts.find? (fun q => decide (q.1 = p.1)) = some p := by
  induction pts with
  | nil => simp at hp
  | cons a rest ih =>
    obtain ⟨ha, hr⟩ := List.pairwise_cons.mp h
    rcases List.mem_cons.mp hp with rfl | hm
    · simp
    · have := ha p hm
      have hne : ¬ a.1 = p.1 := by omega
      simp [hne]
      simpa using ih hr hm

theorem find_key {β : Type} {pts : List (Nat × β)} {x : Nat} {q : Nat × β}
    (h : pts.find? (fun q => decide (q.1 = x)) = some q) : q.1 = x ∧ q ∈ pts := by
  refine ⟨?_, List.mem_of_find?_eq_some h⟩
  simpa using List.find?_some h

theorem find_none {β : Type} {pts : List (Nat × β)} {x : Nat}
    (h : pts.find? (fun q => decide (q.1 = x)) = none) : ∀ q ∈ pts, q.1 ≠ x := by
  simpa using h

theorem put_mem {β : Type} {x : Nat} {p : β} {l : List (Nat × β)} {q : Nat × β} :
    q ∈ put x p l → q = (x, p) ∨ q ∈ l := by
  induction l with
  | nil => simp [put]
  | cons a rest ih =>
    obtain ⟨y, v⟩ := a
    unfold put
    split
    · simp
    · split
      · simp; intro h; rcases h with h | h
        · exact .inl h
        · exact .inr (.inr h)
      · simp; intro h; rcases h with h | h
        · exact .inr (.inl h)
        · rcases ih h with h | h
          · exact .inl h
          · exact .inr (.inr h)

theorem put_sorted {β : Type} {x : Nat} {p : β} {l : List (Nat × β)} (h : Sorted l) : Sorted (put x p l) := by
  induction l with
  | nil => simp [put, Sorted]
  | cons a rest ih =>
    obtain ⟨y, v⟩ := a
    obtain ⟨ha, hr⟩ := List.pairwise_cons.mp h
    unfold put
    split
    · rename_i hxy
      refine List.pairwise_cons.mpr ⟨?_, h⟩
      intro q hq
      rcases List.mem_cons.mp hq with rfl | hq
      · exact hxy
      · have := ha q hq; simp only at this ⊢; omega
    · split
      · rename_i hxy
        refine List.pairwise_cons.mpr ⟨?_, hr⟩
        intro q hq
        have := ha q hq; simp only at this ⊢; omega
      · refine List.pairwise_cons.mpr ⟨?_, ih hr⟩
        intro q hq
        rcases put_mem hq with rfl | hq
        · simp only; omega
        · exact ha q hq

theorem mem_put_self {β : Type} {x : Nat} {p : β} {l : List (Nat × β)} : (x, p) ∈ put x p l := by
  induction l with
  | nil => simp [put]
  | cons a rest ih =>
    obtain ⟨y, v⟩ := a
    unfold put
    split
    · simp
    · split
      · simp
      · simp [ih]

theorem mem_put_other {β : Type} {x : Nat} {p : β} {l : List (Nat × β)} {q : Nat × β} (h : q ∈ l) (hx : q.1 ≠ x) :
    q ∈ put x p l := by
  induction l with
  | nil => simp at h
  | cons a rest ih =>
    obtain ⟨y, v⟩ := a
    unfold put
    split
    · exact List.mem_cons_of_mem _ h
    · split
      · rename_i hxy
        rcases List.mem_cons.mp h with rfl | h
        · simp only at hx; omega
        · exact List.mem_cons_of_mem _ h
      · rcases List.mem_cons.mp h with rfl | h
        · simp
        · exact List.mem_cons_of_mem _ (ih h)

/-- putting a key beyond all others appends -/
theorem put_append {β : Type} {x : Nat} {p : β} {l : List (Nat × β)} (h : ∀ q ∈ l, q.1 < x) : put x p l = l ++ [(x, p)] := by
  induction l with
  | nil => simp [put]
  | cons a rest ih =>
    obtain ⟨y, v⟩ := a
    have hy := h (y, v) (by simp)
    simp only at hy
    unfold put
    rw [if_neg (by omega), if_neg (by omega), ih (fun q hq => h q (by simp [hq]))]
    rfl

/-- replacing the value of the last key -/
theorem put_last {β : Type} {x : Nat} {p p' : β} {l : List (Nat × β)} (h : ∀ q ∈ l, q.1 < x) :
    put x p (l ++ [(x, p')]) = l ++ [(x, p)] := by
  induction l with
  | nil => simp [put]
  | cons a rest ih =>
    obtain ⟨y, v⟩ := a
    have hy := h (y, v) (by simp)
    simp only at hy
    rw [List.cons_append]
    unfold put
    rw [if_neg (by omega), if_neg (by omega), ih (fun q hq => h q (by simp [hq]))]
    rfl

/-! ### looking up the section -/

theorem lookup_append_lt {l : List (Nat × Lin R)} {s : Nat} {p : Lin R} {x : Nat} (h : x < s) :
    lookup (l ++ [(s, p)]) x = lookup l x := by
  induction l with
  | nil => simp [lookup]; omega
  | cons a rest ih =>
    obtain ⟨y, v⟩ := a
    simp only [List.cons_append, lookup, ih]

theorem lookup_append_ge {l : List (Nat × Lin R)} {s : Nat} {p : Lin R} {x : Nat} (hl : ∀ q ∈ l, q.1 < s) (h : s ≤ x) :
    lookup (l ++ [(s, p)]) x = some p := by
  induction l with
  | nil => simp [lookup, h]
  | cons a rest ih =>
    obtain ⟨y, v⟩ := a
    have hy := hl (y, v) (by simp)
    simp only at hy
    simp only [List.cons_append, lookup, ih (fun q hq => hl q (by simp [hq]))]
    rw [if_pos (by omega)]

/-! ### the beginning of a section -/

theorem eval_const (xo dx : Int) (b : R) (x : Nat) : Lin.eval ⟨xo, 0, dx, b⟩ x = b := by simp [Lin.eval]

theorem tdiv_step (x0 dx : Int) (h0 : 0 ≤ x0) (hd : 0 < dx) :
    (x0 + dx - Int.tmod x0 dx).tdiv dx = (x0 - Int.tmod x0 dx).tdiv dx + 1 := by
  have hm : Int.tmod x0 dx = x0 % dx := Int.tmod_eq_emod_of_nonneg h0
  rw [hm]
  have h1 : 0 ≤ x0 - x0 % dx := by
    have := Int.emod_nonneg x0 (by omega : dx ≠ 0)
    have := Int.mul_ediv_add_emod x0 dx
    have h2 : 0 ≤ dx * (x0 / dx) := Int.mul_nonneg (by omega) (Int.ediv_nonneg h0 (by omega))
    omega
  rw [Int.tdiv_eq_ediv_of_nonneg h1, Int.tdiv_eq_ediv_of_nonneg (by omega)]
  have : x0 + dx - x0 % dx = (x0 - x0 % dx) + dx := by omega
  rw [this, Int.add_ediv_of_dvd_right ⟨1, by omega⟩, Int.ediv_self (by omega)]

/-- the points from `k` to `next` follow the pattern `p` -/
def Fits (pts : List (Nat × R)) (p : Lin R) (lo hi : Nat) : Prop :=
  ∀ j : Nat, lo ≤ j → j < hi → ∀ q, pts[j]? = some q → p.eval q.1 = q.2

theorem leave_spec (p : Lin R) (l : List (Nat × R)) (k : Nat) :
    k ≤ leave p l k ∧ leave p l k ≤ k + l.length ∧
    (∀ j : Nat, k + j < leave p l k → ∀ q, l[j]? = some q → p.eval q.1 = q.2) ∧
    (∀ q, l[leave p l k - k]? = some q → p.eval q.1 ≠ q.2) := by
  induction l generalizing k with
  | nil => simp [leave]
  | cons a rest ih =>
    obtain ⟨x, y⟩ := a
    unfold leave
    by_cases h : y ≠ p.eval x
    · rw [if_pos h]
      refine ⟨by omega, by omega, fun j hj => by omega, ?_⟩
      intro q hq
      simp at hq
      subst hq
      exact fun e => h e.symm
    · rw [if_neg h]
      obtain ⟨i1, i2, i3, i4⟩ := ih (k + 1)
      have h' : y = p.eval x := by simpa using h
      refine ⟨by omega, by simp; omega, ?_, ?_⟩
      · intro j hj q hq
        cases j with
        | zero =>
          simp at hq
          subst hq
          exact h'.symm
        | succ j =>
          simp at hq
          exact i3 j (by omega) q hq
      · intro q hq
        have : leave p rest (k + 1) - k = (leave p rest (k + 1) - (k + 1)) + 1 := by omega
        rw [this, List.getElem?_cons_succ] at hq
        exact i4 q hq

structure SecSpec (pts : List (Nat × R)) (k next : Nat) (p : Lin R) : Prop where
  lt : k < next
  le : next ≤ pts.length
  fits : Fits pts p k next
  leaves : ∀ q, pts[next]? = some q → p.eval q.1 ≠ q.2
  slope : p.dy ≠ 0 → k + 2 ≤ next ∧ ∀ q r, pts[k]? = some q → pts[k + 1]? = some r → q.2 ≠ r.2
  const : p.dy = 0 → (∀ x, p.eval x = p.b) ∧ ∀ q, pts[k]? = some q → p.b = q.2

theorem drop_get {β : Type} {pts : List β} {k : Nat} {l : List β} (h : pts.drop k = l) (j : Nat) : pts[k + j]? = l[j]? := by
  rw [← h, List.getElem?_drop]

theorem startSection_spec {pts : List (Nat × R)} (hs : Sorted pts) {k : Nat} {x0 : Nat} {y0 : R} {rest}
    (hd : pts.drop k = (x0, y0) :: rest) :
    SecSpec pts k (startSection ((x0, y0) :: rest) k).2 (startSection ((x0, y0) :: rest) k).1 := by
  have hlen : pts.length = k + 1 + rest.length := by
    have := congrArg List.length hd
    simp at this
    omega
  have hk : pts[k]? = some (x0, y0) := by have := drop_get hd 0; simpa using this
  match rest, hd, hlen with
  | [], hd, hlen =>
    simp only [startSection]
    refine ⟨by omega, by simp at hlen; omega, ?_, ?_, ?_, ?_⟩
    · intro j h1 h2 q hq
      have : j = k := by omega
      subst this
      rw [hk] at hq
      obtain rfl := Option.some.inj hq
      exact eval_const ..
    · intro q hq
      have := (List.getElem?_eq_some_iff.mp hq).1
      simp at hlen
      omega
    · simp
    · intro _
      refine ⟨fun x => eval_const .., ?_⟩
      intro q hq
      rw [hk] at hq
      obtain rfl := Option.some.inj hq
      rfl
  | (x1, y1) :: rest, hd, hlen =>
    have hk1 : pts[k + 1]? = some (x1, y1) := by have := drop_get hd 1; simpa using this
    have hx : x0 < x1 := sorted_get hs (by omega) hk hk1
    simp only [startSection]
    generalize hp : (if y1 - y0 ≠ 0 then
        (⟨Int.tmod x0 ((x1 : Int) - x0), y1 - y0, (x1 : Int) - x0, y0 - ((((x0 : Int) - Int.tmod x0 ((x1 : Int) - x0)).tdiv ((x1 : Int) - x0) : Int) : R) * (y1 - y0)⟩ : Lin R)
      else ⟨0, 0, 1, y0⟩) = p
    have e0 : p.eval x0 = y0 := by
      subst hp
      split
      · simp only [Lin.eval]; ring
      · exact eval_const ..
    have e1 : p.eval x1 = y1 := by
      subst hp
      split
      · simp only [Lin.eval]
        have := tdiv_step x0 ((x1 : Int) - x0) (by omega) (by omega)
        have e : (x0 : Int) + ((x1 : Int) - x0) = x1 := by omega
        rw [e] at this
        rw [this, Int.cast_add, Int.cast_one]
        ring
      · rename_i h
        rw [eval_const]
        exact (sub_eq_zero.mp (by simpa using h)).symm
    obtain ⟨l1, l2, l3, l4⟩ := leave_spec p ((x1, y1) :: rest) (k + 1)
    have hge : k + 2 ≤ leave p ((x1, y1) :: rest) (k + 1) := by
      have : leave p ((x1, y1) :: rest) (k + 1) = leave p rest (k + 2) := by
        conv => lhs; unfold leave
        rw [if_neg (by simp [e1])]
      rw [this]
      exact (leave_spec p rest (k + 2)).1
    refine ⟨by omega, by simp at hlen l2; omega, ?_, ?_, ?_, ?_⟩
    · intro j h1 h2 q hq
      by_cases hj : j = k
      · subst hj
        rw [hk] at hq
        obtain rfl := Option.some.inj hq
        exact e0
      · refine l3 (j - (k + 1)) (by omega) q ?_
        have := drop_get hd (j - (k + 1) + 1)
        rw [List.getElem?_cons_succ, show k + (j - (k + 1) + 1) = j by omega] at this
        rw [← this]
        exact hq
    · intro q hq
      refine l4 q ?_
      have := drop_get hd (leave p ((x1, y1) :: rest) (k + 1) - (k + 1) + 1)
      rw [List.getElem?_cons_succ, show k + (leave p ((x1, y1) :: rest) (k + 1) - (k + 1) + 1) = leave p ((x1, y1) :: rest) (k + 1) by omega] at this
      rw [← this]
      exact hq
    · intro hdy
      refine ⟨hge, ?_⟩
      intro q r hq hr
      rw [hk] at hq
      rw [hk1] at hr
      obtain rfl := Option.some.inj hq
      obtain rfl := Option.some.inj hr
      subst hp
      simp only
      intro e
      apply hdy
      rw [if_neg (by rw [e]; simp)]
    · intro hdy
      have hc : p = ⟨0, 0, 1, y0⟩ := by
        subst hp
        by_cases h : y1 - y0 ≠ 0
        · rw [if_pos h] at hdy
          exact absurd hdy h
        · rw [if_neg h]
      subst hc
      refine ⟨fun x => eval_const .., ?_⟩
      intro q hq
      rw [hk] at hq
      obtain rfl := Option.some.inj hq
      rfl

/-! ### taking elements out of the previous section -/

theorem steal_spec {pts : List (Nat × R)} (b : R) (s : Nat) (xs : Nat) (ys : R) (hs : pts[s]? = some (xs, ys)) :
    ∀ (k : Nat) (p : Lin R), s < k → k ≤ pts.length → Fits pts p s k →
      (k = s + 1 → ys ≠ b) → (s + 2 ≤ k → ∀ q, pts[s + 1]? = some q → q.2 = b → ys ≠ b) →
      s < (steal pts b s k p).1 ∧ (steal pts b s k p).1 ≤ k ∧
      (∀ j : Nat, (steal pts b s k p).1 ≤ j → j < k → ∀ q, pts[j]? = some q → q.2 = b) ∧
      Fits pts (steal pts b s k p).2 s (steal pts b s k p).1 := by
  intro k
  induction k with
  | zero => intro p h; omega
  | succ k ih =>
    intro p hsk hkn hf hB hC
    have hkl : k < pts.length := by omega
    have hpk : pts[k]? = some pts[k] := List.getElem?_eq_getElem hkl
    generalize pts[k] = pk at hpk
    obtain ⟨x, y⟩ := pk
    have hey : p.eval x = y := hf k (by omega) (by omega) _ hpk
    unfold steal
    simp only [hpk]
    by_cases h : p.eval x ≠ b
    · rw [if_pos h]
      exact ⟨hsk, by omega, fun j h1 h2 => by simp only at h1; omega, hf⟩
    · rw [if_neg h]
      have hb : p.eval x = b := by simpa using h
      have hne : k ≠ s := by
        intro e
        subst e
        rw [hs] at hpk
        obtain ⟨rfl, rfl⟩ := Prod.mk.inj (Option.some.inj hpk)
        exact hB rfl (by rw [← hey, hb])
      have key : ∀ p', Fits pts p' s k → (k = s + 1 → ys ≠ b) →
          (s + 2 ≤ k → ∀ q, pts[s + 1]? = some q → q.2 = b → ys ≠ b) →
          s < (steal pts b s k p').1 ∧ (steal pts b s k p').1 ≤ k + 1 ∧
          (∀ j : Nat, (steal pts b s k p').1 ≤ j → j < k + 1 → ∀ q, pts[j]? = some q → q.2 = b) ∧
          Fits pts (steal pts b s k p').2 s (steal pts b s k p').1 := by
        intro p' f1 f2 f3
        obtain ⟨g1, g2, g3, g4⟩ := ih p' (by omega) (by omega) f1 f2 f3
        refine ⟨g1, by omega, ?_, g4⟩
        intro j h1 h2 q hq
        by_cases hj : j = k
        · subst hj
          rw [hpk] at hq
          obtain rfl := Option.some.inj hq
          simp only
          rw [← hey, hb]
        · exact g3 j h1 (by omega) q hq
      by_cases hk1 : s + 1 = k
      · rw [if_pos hk1]
        simp only [hs]
        have hne2 : ys ≠ b := hC (by omega) (x, y) (by rw [hk1]; exact hpk) (by simp only; rw [← hey, hb])
        refine key _ ?_ (fun _ => hne2) (fun h => by omega)
        intro j h1 h2 q hq
        have : j = s := by omega
        subst this
        rw [hs] at hq
        obtain rfl := Option.some.inj hq
        simp only [Lin.eval, mul_zero, zero_add]
        exact hf j (by omega) (by omega) _ hs
      · rw [if_neg hk1]
        refine key p (fun j h1 h2 => hf j h1 (by omega)) (fun h => by omega) (fun h => hC (by omega))

/-! ### all sections -/

/-- every point before `k` is reproduced by its section -/
def Covers (pts : List (Nat × R)) (secs : List (Nat × Lin R)) (k : Nat) : Prop :=
  ∀ j : Nat, j < k → ∀ q, pts[j]? = some q → ∃ p, lookup secs q.1 = some p ∧ p.eval q.1 = q.2

structure Inv (G : Nat → Lin R → Prop) (pts : List (Nat × R)) (k : Nat) (s key : Nat) (p : Lin R) (secs : List (Nat × Lin R)) : Prop where
  spec : ∃ k0, s ≤ k0 ∧ SecSpec pts k0 k p ∧ (p.dy ≠ 0 → k0 = s)
  fits : Fits pts p s k
  hkey : ∃ y, pts[s]? = some (key, y)
  hsecs : ∃ init, secs = init ++ [(key, p)] ∧ (∀ q ∈ init, q.1 < key) ∧ Covers pts init s
  good : ∀ q ∈ secs, G q.1 q.2

/-- a property of sections which detection keeps -/
structure Kept (G : Nat → Lin R → Prop) (pts : List (Nat × R)) : Prop where
  start : ∀ k x0 y0 rest, pts.drop k = (x0, y0) :: rest → G x0 (startSection ((x0, y0) :: rest) k).1
  const : ∀ k x0 y0 rest, pts.drop k = (x0, y0) :: rest → (startSection ((x0, y0) :: rest) k).1.dy = 0 →
    ∀ x y, (x, y) ∈ pts → G x (startSection ((x0, y0) :: rest) k).1
  single : ∀ key y p, (key, y) ∈ pts → G key p → G key { p with dy := 0, b := y }

/-- the previous section is kept or becomes a constant -/
theorem steal_pat {pts : List (Nat × R)} (b : R) (s xs : Nat) (ys : R) (hs : pts[s]? = some (xs, ys)) :
    ∀ (k : Nat) (p : Lin R), p.eval xs = ys → (steal pts b s k p).2 = p ∨ (steal pts b s k p).2 = { p with dy := 0, b := ys } := by
  intro k
  induction k with
  | zero => intro p _; left; rfl
  | succ k ih =>
    intro p hp
    unfold steal
    split
    · left; rfl
    · split
      · left; rfl
      · simp only [hs, hp]
        split
        · rcases ih { p with dy := 0, b := ys } (eval_const ..) with h | h
          · right; exact h
          · right; exact h
        · exact ih p hp

theorem covers_snoc {pts : List (Nat × R)} (hs : Sorted pts) {init : List (Nat × Lin R)} {s k key : Nat} {y : R} {p : Lin R}
    (hkey : pts[s]? = some (key, y)) (hl : ∀ q ∈ init, q.1 < key) (hc : Covers pts init s) (hf : Fits pts p s k) :
    Covers pts (init ++ [(key, p)]) k := by
  intro j hj q hq
  by_cases hjs : j < s
  · have : q.1 < key := sorted_get hs hjs hq hkey
    rw [lookup_append_lt this]
    exact hc j hjs q hq
  · have : key ≤ q.1 := by
      by_cases e : j = s
      · subst e; rw [hkey] at hq; obtain rfl := Option.some.inj hq; exact Nat.le_refl _
      · exact Nat.le_of_lt (sorted_get hs (by omega) hkey hq)
    rw [lookup_append_ge hl this]
    exact ⟨p, rfl, hf j (by omega) hj q hq⟩

theorem loop_spec {G : Nat → Lin R → Prop} {pts : List (Nat × R)} (hs : Sorted pts) (hG : Kept G pts) (mc : Nat) :
    ∀ (fuel k : Nat) (prev : Option (Nat × Nat × Lin R)) (secs : List (Nat × Lin R)),
      k ≤ pts.length → pts.length ≤ k + fuel →
      (prev = none → k = 0 ∧ secs = [] ∧ 0 < pts.length) → (∀ s key p, prev = some (s, key, p) → Inv G pts k s key p secs) →
      (sectionsLoop pts mc fuel k prev secs = [] ∨ 
        (sectionsLoop pts mc fuel k prev secs ≠ [] ∧ Covers pts (sectionsLoop pts mc fuel k prev secs) pts.length ∧
          ∀ q ∈ sectionsLoop pts mc fuel k prev secs, G q.1 q.2)) := by
  intro fuel
  induction fuel with
  | zero =>
    intro k prev secs hk hf h0 h1
    unfold sectionsLoop
    match prev, h0, h1 with
    | none, h0, _ => left; exact (h0 rfl).2.1
    | some (s, key, p), _, h1 =>
      right
      obtain ⟨_, hft, ⟨y, hy⟩, ⟨init, rfl, hl, hc⟩, hg⟩ := h1 s key p rfl
      refine ⟨by simp, ?_, hg⟩
      have : k = pts.length := by omega
      rw [← this]
      exact covers_snoc hs hy hl hc hft
  | succ fuel ih =>
    intro k prev secs hk hf h0 h1
    unfold sectionsLoop
    match hd : pts.drop k with
    | [] =>
      have hkn : k = pts.length := by
        have := congrArg List.length hd
        simp at this
        omega
      simp only
      match prev, h0, h1 with
      | none, h0, _ => left; exact (h0 rfl).2.1
      | some (s, key, p), _, h1 =>
        right
        obtain ⟨_, hft, ⟨y, hy⟩, ⟨init, rfl, hl, hc⟩, hg⟩ := h1 s key p rfl
        refine ⟨by simp, ?_, hg⟩
        rw [← hkn]
        exact covers_snoc hs hy hl hc hft
    | (x0, y0) :: rest =>
      simp only
      have sp := startSection_spec hs hd
      have hk0 : pts[k]? = some (x0, y0) := by have := drop_get hd 0; simpa using this
      have g0 := hG.start k x0 y0 rest hd
      have gc := hG.const k x0 y0 rest hd
      generalize hst : startSection ((x0, y0) :: rest) k = st at sp g0 gc
      obtain ⟨p, next⟩ := st
      simp only at sp g0 gc ⊢
      -- the new state
      have step : ∀ (start : Nat) (secs' : List (Nat × Lin R)) (y : R) (key : Nat), start ≤ k →
          pts[start]? = some (key, y) → (∀ q ∈ secs', q.1 < key) → Covers pts secs' start → Fits pts p start next →
          (p.dy ≠ 0 → k = start) → (∀ q ∈ secs', G q.1 q.2) → G key p →
          (if (put key p secs').length = mc ∧ next ≠ pts.length then []
            else sectionsLoop pts mc fuel next (some (start, key, p)) (put key p secs')) = [] ∨
          ((if (put key p secs').length = mc ∧ next ≠ pts.length then []
            else sectionsLoop pts mc fuel next (some (start, key, p)) (put key p secs')) ≠ [] ∧
           Covers pts (if (put key p secs').length = mc ∧ next ≠ pts.length then []
            else sectionsLoop pts mc fuel next (some (start, key, p)) (put key p secs')) pts.length ∧
           ∀ q ∈ (if (put key p secs').length = mc ∧ next ≠ pts.length then []
            else sectionsLoop pts mc fuel next (some (start, key, p)) (put key p secs')), G q.1 q.2) := by
        intro start secs' y key hst hkey hl hc hft hdy hg hgp
        split
        · left; rfl
        · refine ih next _ _ sp.le (by have := sp.lt; omega) (by simp) ?_
          intro s key' p' e
          obtain ⟨rfl, rfl, rfl⟩ : start = s ∧ key = key' ∧ p = p' := by simpa using e
          refine ⟨⟨k, hst, sp, hdy⟩, hft, ⟨y, hkey⟩, ⟨secs', put_append hl, hl, hc⟩, ?_⟩
          intro q hq
          rcases put_mem hq with rfl | hq
          · exact hgp
          · exact hg q hq
      match prev, h0, h1 with
      | none, h0, _ =>
        obtain ⟨rfl, rfl, _⟩ := h0 rfl
        simp only [hk0]
        exact step 0 [] y0 x0 (by omega) hk0 (by simp) (fun j hj => by omega) sp.fits (fun _ => rfl)
          (by simp) g0
      | some (s, key, pp), _, h1 =>
        obtain ⟨⟨k0, hk00, sp0, hk0s⟩, hft, ⟨ys, hys⟩, ⟨init, rfl, hl, hc⟩, hg⟩ := h1 s key pp rfl
        have hsk : s < k := by have := sp0.lt; omega
        by_cases hdy : p.dy = 0
        · simp only [if_pos hdy]
          have hb : p.b = y0 := (sp.const hdy).2 _ hk0
          -- value of the previous pattern at its first points
          have st := steal_spec (pts := pts) p.b s key ys hys k pp hsk (by omega) hft
            (by
              intro e
              have hpd : pp.dy = 0 := by
                rcases Classical.em (pp.dy = 0) with h | h
                · exact h
                · have h3 := (sp0.slope h).1
                  have h4 := hk0s h
                  omega
              have hne := sp0.leaves _ hk0
              have hes := hft s (by omega) hsk _ hys
              simp only at hne hes
              rw [(sp0.const hpd).1] at hne hes
              rw [hb, ← hes]
              exact hne)
            (by
              intro hge q hq hqb
              rcases Classical.em (pp.dy = 0) with hpd | hpd
              · have hne := sp0.leaves _ hk0
                have hes := hft s (by omega) hsk _ hys
                simp only at hne hes
                rw [(sp0.const hpd).1] at hne hes
                rw [hb, ← hes]
                exact hne
              · have h4 := hk0s hpd
                subst h4
                have := (sp0.slope hpd).2 _ _ hys hq
                simp only at this
                rw [← hqb]
                exact this)
          have hpat := steal_pat (pts := pts) p.b s key ys hys k pp (hft s (by omega) hsk _ hys)
          generalize hstl : steal pts p.b s k pp = r at st hpat
          obtain ⟨k', pp'⟩ := r
          obtain ⟨g1, g2, g3, g4⟩ := st
          simp only at g1 g2 g3 g4 hpat ⊢
          rw [put_last hl]
          have hk'l : k' < pts.length := by have := sp.lt; have := sp.le; omega
          have hk' : pts[k']? = some pts[k'] := List.getElem?_eq_getElem hk'l
          generalize hqq : pts[k'] = qq at hk'
          obtain ⟨key', y'⟩ := qq
          simp only [hk']
          have hkk : key < key' := sorted_get hs g1 hys hk'
          refine step k' _ y' key' g2 hk' ?_ (covers_snoc hs hys hl hc g4) ?_ (fun h => absurd hdy h) ?_ (gc hdy key' y' (List.mem_of_getElem? hk'))
          · intro q hq
            rcases List.mem_append.mp hq with h | h
            · have := hl q h; omega
            · simp at h; subst h; exact hkk
          · intro j hj1 hj2 q hq
            by_cases hjk : j < k
            · rw [(sp.const hdy).1]
              exact (g3 j hj1 hjk q hq).symm
            · exact sp.fits j (by omega) hj2 q hq
          · have hgk : G key pp := hg (key, pp) (by simp)
            intro q hq
            rcases List.mem_append.mp hq with h | h
            · exact hg q (List.mem_append_left _ h)
            · simp at h
              subst h
              rcases hpat with rfl | rfl
              · exact hgk
              · exact hG.single key ys pp (List.mem_of_getElem? hys) hgk
        · simp only [if_neg hdy, hk0]
          have hkk : key < x0 := sorted_get hs hsk hys hk0
          refine step k _ y0 x0 (by omega) hk0 ?_ (covers_snoc hs hys hl hc hft) sp.fits (fun _ => rfl) hg g0
          intro q hq
          rcases List.mem_append.mp hq with h | h
          · have := hl q h; omega
          · simp at h; subst h; exact hkk

theorem sections_kept {G : Nat → Lin R → Prop} {pts : List (Nat × R)} (hs : Sorted pts) (hG : Kept G pts) (mc : Nat) :
    detectLinearSections pts mc = [] ∨
    (detectLinearSections pts mc ≠ [] ∧ Covers pts (detectLinearSections pts mc) pts.length ∧
      ∀ q ∈ detectLinearSections pts mc, G q.1 q.2) := by
  unfold detectLinearSections
  rcases Nat.eq_zero_or_pos pts.length with h | h
  · left; rw [h]; rfl
  · exact loop_spec hs hG mc pts.length 0 none [] (by omega) (by omega) (fun _ => ⟨rfl, rfl, h⟩) (by simp)

theorem sections_covers {pts : List (Nat × R)} (hs : Sorted pts) (mc : Nat) :
    detectLinearSections pts mc = [] ∨ (detectLinearSections pts mc ≠ [] ∧ Covers pts (detectLinearSections pts mc) pts.length) := by
  have hT : Kept (fun _ _ => True) pts := ⟨fun _ _ _ _ _ => trivial, fun _ _ _ _ _ _ _ _ _ => trivial, fun _ _ _ _ _ => trivial⟩
  rcases sections_kept hs hT mc with h | ⟨h1, h2, _⟩
  · exact .inl h
  · exact .inr ⟨h1, h2⟩

/-! ### the number of sections -/

theorem put_length_le {β : Type} (x : Nat) (p : β) (l : List (Nat × β)) : (put x p l).length ≤ l.length + 1 := by
  induction l with
  | nil => simp [put]
  | cons a rest ih =>
    obtain ⟨y, v⟩ := a
    unfold put
    split
    · simp
    · split
      · simp
      · simp; omega

theorem put_length_mem {β : Type} {x : Nat} (p : β) {l : List (Nat × β)} (hs : Sorted l) (h : ∃ v, (x, v) ∈ l) :
    (put x p l).length = l.length := by
  induction l with
  | nil => obtain ⟨v, hv⟩ := h; simp at hv
  | cons a rest ih =>
    obtain ⟨y, w⟩ := a
    obtain ⟨v, hv⟩ := h
    obtain ⟨ha, hr⟩ := List.pairwise_cons.mp hs
    unfold put
    rcases List.mem_cons.mp hv with e | hm
    · obtain ⟨rfl, _⟩ := Prod.mk.inj e
      rw [if_neg (by omega), if_pos rfl]
      rfl
    · have := ha _ hm
      simp only at this
      rw [if_neg (by omega), if_neg (by omega)]
      simp [ih hr ⟨v, hm⟩]

theorem loop_length {pts : List (Nat × R)} {mc : Nat} (hmc : 1 ≤ mc) :
    ∀ (fuel k : Nat) (prev : Option (Nat × Nat × Lin R)) (secs : List (Nat × Lin R)), Sorted secs →
      (∀ s key p, prev = some (s, key, p) → ∃ v, (key, v) ∈ secs) → (secs.length < mc ∨ (secs.length ≤ mc ∧ pts.length ≤ k)) →
      (sectionsLoop pts mc fuel k prev secs).length ≤ mc := by
  intro fuel
  induction fuel with
  | zero => intro k prev secs _ _ h; unfold sectionsLoop; omega
  | succ fuel ih =>
    intro k prev secs hs hp h
    unfold sectionsLoop
    split
    · omega
    · rename_i x0 y0 rest hd
      have hk : k < pts.length := by
        have := congrArg List.length hd
        simp at this
        omega
      have hlt : secs.length < mc := by omega
      have key : ∀ (start : Nat) (secs' : List (Nat × Lin R)) (kk : Nat) (p : Lin R) (next : Nat), Sorted secs' → secs'.length < mc →
          (if (put kk p secs').length = mc ∧ next ≠ pts.length then []
            else sectionsLoop pts mc fuel next (some (start, kk, p)) (put kk p secs')).length ≤ mc := by
        intro start secs' kk p next h1 h2
        have hle := put_length_le kk p secs'
        split
        · simp
        · rename_i hc
          refine ih next _ _ (put_sorted h1) ?_ ?_
          · intro s key p' e
            obtain ⟨_, rfl, _⟩ : start = s ∧ kk = key ∧ p = p' := by simpa using e
            exact ⟨_, mem_put_self⟩
          · by_cases hm : (put kk p secs').length = mc
            · right
              refine ⟨by omega, ?_⟩
              have : next = pts.length := by
                rcases Classical.em (next = pts.length) with h | h
                · exact h
                · exact absurd ⟨hm, h⟩ hc
              omega
            · left; omega
      simp only
      match prev, hp with
      | none, _ => exact key _ _ _ _ _ hs hlt
      | some (s, kk, pp), hp =>
        have hm := hp s kk pp rfl
        simp only
        by_cases hdy : (startSection ((x0, y0) :: rest) k).1.dy = 0
        · rw [if_pos hdy]
          refine key _ _ _ _ _ (put_sorted hs) ?_
          rw [put_length_mem _ hs hm]
          exact hlt
        · rw [if_neg hdy]
          exact key _ _ _ _ _ hs hlt

theorem sections_length (pts : List (Nat × R)) {mc : Nat} (hmc : 1 ≤ mc) : (detectLinearSections pts mc).length ≤ mc := by
  unfold detectLinearSections
  exact loop_length hmc _ _ _ _ List.Pairwise.nil (by simp) (.inl (by simp only [List.length_nil]; omega))

/-- each point is reproduced by the section it belongs to -/
theorem covers_mem {pts : List (Nat × R)} {secs : List (Nat × Lin R)} (h : Covers pts secs pts.length) {q : Nat × R} (hq : q ∈ pts) :
    ∃ p, lookup secs q.1 = some p ∧ p.eval q.1 = q.2 := by
  obtain ⟨j, hj⟩ := List.getElem?_of_mem hq
  exact h j (List.getElem?_eq_some_iff.mp hj).1 q hj

theorem choose_reproduces {pts : List (Nat × R)} (hs : Sorted pts) {secs : List (Nat × Lin R)}
    (h : secs = [] ∨ (secs ≠ [] ∧ Covers pts secs pts.length)) : Reproduces (choose secs pts).eval pts := by
  intro q hq
  rcases h with rfl | ⟨hne, hc⟩
  · simp only [choose, Pat.eval, sorted_find hs hq, Option.map_some]
  · obtain ⟨p, hp, he⟩ := covers_mem hc hq
    match secs, hne, hp with
    | [(s, p')], _, hp =>
      simp only [lookup] at hp
      split at hp
      · obtain rfl := Option.some.inj hp
        simp only [choose, Pat.eval, he]
      · simp at hp
    | a :: b :: rest, _, hp =>
      simp only [choose, Pat.eval, hp, Option.map_some, he]

/-! ### the version for vectors -/

theorem enum_get (ys : List R) (k : Nat) : (enum ys)[k]? = ys[k]?.map fun y => (k, y) := by
  unfold enum
  by_cases h : k < ys.length
  · simp [h]
  · have h1 : ys[k]? = none := List.getElem?_eq_none (by omega)
    rw [h1, List.getElem?_eq_none]
    · rfl
    · simp; omega

theorem enum_length (ys : List R) : (enum ys).length = ys.length := by simp [enum]

theorem enum_sorted (ys : List R) : Sorted (enum ys) := by
  refine List.pairwise_iff_getElem.mpr ?_
  intro i j hi hj hij
  simp [enum]
  exact hij

theorem leaveV_eq (ys : List R) (dy b : R) (p : Lin R) (hp : ∀ x : Nat, p.eval x = dy * x + b) :
    ∀ (fuel x : Nat), ys.length ≤ x + fuel → leaveV ys dy b fuel x = leave p ((enum ys).drop x) x := by
  intro fuel
  induction fuel with
  | zero =>
    intro x h
    rw [List.drop_eq_nil_of_le (by rw [enum_length]; omega)]
    rfl
  | succ fuel ih =>
    intro x h
    unfold leaveV
    match hx : ys[x]? with
    | none =>
      have : ys.length ≤ x := List.getElem?_eq_none_iff.mp hx
      rw [List.drop_eq_nil_of_le (by rw [enum_length]; omega)]
      rfl
    | some y =>
      have hlt := (List.getElem?_eq_some_iff.mp hx).1
      have hd : (enum ys).drop x = (x, y) :: (enum ys).drop (x + 1) := by
        rw [List.drop_eq_getElem_cons (by rw [enum_length]; exact hlt)]
        congr 1
        have := enum_get ys x
        rw [hx, List.getElem?_eq_getElem (by rw [enum_length]; exact hlt)] at this
        exact Option.some.inj this
      rw [hd]
      simp only [leave, hp]
      rw [ih (x + 1) (by omega)]

theorem enum_drop {ys : List R} {x : Nat} {y : R} (hx : ys[x]? = some y) :
    (enum ys).drop x = (x, y) :: (enum ys).drop (x + 1) := by
  have hlt := (List.getElem?_eq_some_iff.mp hx).1
  rw [List.drop_eq_getElem_cons (by rw [enum_length]; exact hlt)]
  congr 1
  have := enum_get ys x
  rw [hx, List.getElem?_eq_getElem (by rw [enum_length]; exact hlt)] at this
  exact Option.some.inj this

theorem startSectionV_eq (ys : List R) (x : Nat) (h : x < ys.length) :
    startSectionV ys x = startSection ((enum ys).drop x) x := by
  have hx : ys[x]? = some ys[x] := List.getElem?_eq_getElem h
  generalize ys[x] = y0 at hx
  rw [enum_drop hx]
  unfold startSectionV
  match hx1 : ys[x + 1]? with
  | none =>
    have : ys.length ≤ x + 1 := List.getElem?_eq_none_iff.mp hx1
    rw [List.drop_eq_nil_of_le (by rw [enum_length]; omega)]
    simp only [hx, startSection]
  | some y1 =>
    rw [enum_drop hx1]
    simp only [hx, startSection]
    have hp : (if y1 - y0 ≠ 0 then
        (⟨Int.tmod (x : Int) (((x + 1 : Nat) : Int) - x), y1 - y0, ((x + 1 : Nat) : Int) - x,
          y0 - ((((x : Int) - Int.tmod x (((x + 1 : Nat) : Int) - x)).tdiv (((x + 1 : Nat) : Int) - x) : Int) : R) * (y1 - y0)⟩ : Lin R)
        else ⟨0, 0, 1, y0⟩) = ⟨0, y1 - y0, 1, y0 - (y1 - y0) * x⟩ := by
      have e1 : ((x + 1 : Nat) : Int) - x = 1 := by omega
      rw [e1, Int.tmod_one, Int.tdiv_one, Int.sub_zero, Int.cast_natCast, mul_comm (x : R)]
      split
      · rfl
      · rename_i h
        have e2 : y1 - y0 = 0 := by simpa using h
        rw [e2, zero_mul, sub_zero]
    rw [hp]
    congr 1
    have hev : ∀ z : Nat, Lin.eval ⟨0, y1 - y0, 1, y0 - (y1 - y0) * x⟩ z = (y1 - y0) * z + (y0 - (y1 - y0) * x) := by
      intro z
      simp only [Lin.eval, Int.sub_zero, Int.tdiv_one, Int.cast_natCast]
      rw [mul_comm]
    rw [leaveV_eq ys _ _ _ hev _ _ (by omega)]
    conv => rhs; unfold leave
    rw [if_neg]
    rw [hev]
    simp only [Classical.not_not]
    rw [Nat.cast_add, Nat.cast_one]
    ring

theorem stealV_eq (ys : List R) (b : R) (s : Nat) (hs : s < ys.length) : ∀ (k : Nat) (p : Lin R), k ≤ ys.length →
    stealV b s k p = steal (enum ys) b s k p := by
  intro k
  induction k with
  | zero => intro p _; rfl
  | succ k ih =>
    intro p hk
    have h1 : (enum ys)[k]? = some (k, ys[k]) := by rw [enum_get, List.getElem?_eq_getElem (by omega)]; rfl
    have h2 : (enum ys)[s]? = some (s, ys[s]) := by rw [enum_get, List.getElem?_eq_getElem hs]; rfl
    unfold stealV steal
    simp only [h1, h2]
    by_cases h : p.eval k = b
    · rw [if_pos h, if_neg (c := p.eval k ≠ b) (by simp [h]), ih _ (by omega)]
    · rw [if_neg h, if_pos h]

theorem steal_le (pts : List (Nat × R)) (b : R) (s : Nat) : ∀ (k : Nat) (p : Lin R), (steal pts b s k p).1 ≤ k := by
  intro k
  induction k with
  | zero => intro p; exact Nat.le_refl _
  | succ k ih =>
    intro p
    unfold steal
    split
    · exact Nat.le_refl _
    · split
      · exact Nat.le_refl _
      · exact Nat.le_trans (ih _) (by omega)

theorem loopV_eq (ys : List R) (mc : Nat) : ∀ (fuel k : Nat) (prev : Option (Nat × Lin R)) (secs : List (Nat × Lin R)),
    k ≤ ys.length → (∀ s p, prev = some (s, p) → s < ys.length) →
    sectionsLoopV ys mc fuel k prev secs =
      sectionsLoop (enum ys) mc fuel k (prev.map fun q => (q.1, q.1, q.2)) secs := by
  intro fuel
  induction fuel with
  | zero => intros; rfl
  | succ fuel ih =>
    intro k prev secs hk hp
    unfold sectionsLoopV sectionsLoop
    by_cases he : k = ys.length
    · rw [if_pos he, List.drop_eq_nil_of_le (by rw [enum_length]; omega)]
    · rw [if_neg he]
      have hx : ys[k]? = some ys[k] := List.getElem?_eq_getElem (by omega)
      have hd := enum_drop hx
      have hst := startSectionV_eq ys k (by omega)
      have sp := startSection_spec (enum_sorted ys) hd
      rw [← hd, ← hst] at sp
      rw [hd]
      rw [hd] at hst
      simp only [hst]
      rw [hst] at sp
      generalize startSection ((k, ys[k]) :: (enum ys).drop (k + 1)) k = st at sp
      obtain ⟨p, next⟩ := st
      simp only at sp ⊢
      have hkey : ∀ j, j < ys.length → ∃ y, (enum ys)[j]? = some (j, y) := by
        intro j hj
        exact ⟨ys[j], by rw [enum_get, List.getElem?_eq_getElem hj]; rfl⟩
      obtain ⟨yk, hkk⟩ := hkey k (by omega)
      have hn := sp.le
      rw [enum_length] at hn
      match prev, hp with
      | none, _ =>
        simp only [Option.map_none, hkk, enum_length]
        split
        · rfl
        · exact ih next (some (k, p)) _ hn (by simp; omega)
      | some (s, pp), hp =>
        have hs := hp s pp rfl
        simp only [Option.map_some]
        by_cases hdy : p.dy = 0
        · simp only [if_pos hdy, stealV_eq ys p.b s hs k pp hk]
          have hle := steal_le (enum ys) p.b s k pp
          generalize steal (enum ys) p.b s k pp = r at hle
          obtain ⟨k', pp'⟩ := r
          simp only at hle ⊢
          obtain ⟨yk', hkk'⟩ := hkey k' (by omega)
          simp only [hkk', enum_length]
          split
          · rfl
          · exact ih next (some (k', p)) _ hn (by simp; omega)
        · simp only [if_neg hdy, hkk, enum_length]
          split
          · rfl
          · exact ih next (some (k, p)) _ hn (by simp; omega)

/-- the version for vectors is the version for maps on the numbered elements -/
theorem detectLinearSectionsV_eq (ys : List R) (mc : Nat) :
    detectLinearSectionsV ys mc = detectLinearSections (enum ys) mc := by
  unfold detectLinearSectionsV detectLinearSections
  rw [enum_length]
  exact loopV_eq ys mc _ 0 none [] (by omega) (by simp)

end Verif.Index
