import Verif.Dae.LemmasReorder
import Mathlib.Tactic.SplitIfs

namespace Verif.Dae.Reorder
open Verif.Orders

/-! ### kept elements -/

/-- how many of `k, …, k + j - 1` are kept -/
def cnt (g : Nat → Bool) (k j : Nat) : Nat := (List.range' k j).countP g

theorem cnt_succ (g : Nat → Bool) (k j : Nat) : cnt g k (j + 1) = (if g k then 1 else 0) + cnt g (k + 1) j := by
  rw [cnt, List.range'_succ, List.countP_cons, Nat.add_comm]; rfl

theorem cnt_snoc (g : Nat → Bool) (k j : Nat) : cnt g k (j + 1) = cnt g k j + if g (k + j) then 1 else 0 := by
  rw [cnt, List.range'_concat, List.countP_append]; simp [cnt]

theorem cnt_mono (g : Nat → Bool) (k : Nat) {i j : Nat} (h : i ≤ j) : cnt g k i ≤ cnt g k j := by
  induction j with
  | zero => rw [Nat.le_zero.1 h]
  | succ j ih =>
    rcases Nat.lt_or_ge i (j + 1) with hlt | hge
    · rw [cnt_snoc]
      exact Nat.le_trans (ih (by omega)) (Nat.le_add_right _ _)
    · rw [show i = j + 1 by omega]

theorem cnt_lt (g : Nat → Bool) (k : Nat) {i j : Nat} (h : i < j) (hg : g (k + i) = true) : cnt g k i < cnt g k j := by
  have := cnt_mono g k (show i + 1 ≤ j from h)
  rw [cnt_snoc, hg] at this
  simp only [if_true] at this
  omega

theorem cnt_inj (g : Nat → Bool) (k : Nat) {i j : Nat} (hi : g (k + i) = true) (hj : g (k + j) = true) (h : cnt g k i = cnt g k j) : i = j := by
  rcases Nat.lt_trichotomy i j with hlt | heq | hgt
  · have := cnt_lt g k hlt hi; omega
  · exact heq
  · have := cnt_lt g k hgt hj; omega

def keepAt {α : Type} (g : Nat → Bool) (f : α → α) : Nat → List α → List α
  | _, [] => []
  | k, x :: l => if g k then f x :: keepAt g f (k + 1) l else keepAt g f (k + 1) l

theorem keepAt_append {α : Type} (g : Nat → Bool) (f : α → α) : ∀ (k : Nat) (a b : List α),
    keepAt g f k (a ++ b) = keepAt g f k a ++ keepAt g f (k + a.length) b
  | k, [], b => by simp [keepAt]
  | k, x :: a, b => by
    simp only [List.cons_append, keepAt, keepAt_append g f (k + 1) a b, List.length_cons]
    rw [show k + 1 + a.length = k + (a.length + 1) by omega]
    split <;> simp

theorem keepAt_fwd {α : Type} {g : Nat → Bool} {f : α → α} : ∀ {k : Nat} {l : List α} {j : Nat} {x : α}, l[j]? = some x → g (k + j) = true →
    (keepAt g f k l)[cnt g k j]? = some (f x)
  | k, [], j, x, h, _ => by simp at h
  | k, y :: l, 0, x, h, hg => by
    simp only [List.getElem?_cons_zero, Option.some.injEq] at h
    subst h
    simp only [Nat.add_zero] at hg
    simp [keepAt, hg, cnt]
  | k, y :: l, j + 1, x, h, hg => by
    simp only [List.getElem?_cons_succ] at h
    have := keepAt_fwd (f := f) (k := k + 1) h (by rw [show k + 1 + j = k + (j + 1) by omega]; exact hg)
    rw [cnt_succ, keepAt]
    split
    · rw [Nat.add_comm 1, List.getElem?_cons_succ]; exact this
    · rw [Nat.zero_add]; exact this

theorem keepAt_bwd {α : Type} {g : Nat → Bool} {f : α → α} : ∀ {k : Nat} {l : List α} {r : Nat} {y : α}, (keepAt g f k l)[r]? = some y →
    ∃ j x, l[j]? = some x ∧ g (k + j) = true ∧ cnt g k j = r ∧ y = f x
  | k, [], r, y, h => by simp [keepAt] at h
  | k, x :: l, r, y, h => by
    rw [keepAt] at h
    split at h
    case isTrue hg =>
      cases r with
      | zero =>
        simp only [List.getElem?_cons_zero, Option.some.injEq] at h
        exact ⟨0, x, rfl, hg, by simp [cnt], h.symm⟩
      | succ r =>
        simp only [List.getElem?_cons_succ] at h
        obtain ⟨j, x', h1, h2, h3, h4⟩ := keepAt_bwd h
        exact ⟨j + 1, x', by simpa using h1, by rw [show k + (j + 1) = k + 1 + j by omega]; exact h2, by
          rw [cnt_succ, hg, h3]; simp; omega, h4⟩
    case isFalse hg =>
      obtain ⟨j, x', h1, h2, h3, h4⟩ := keepAt_bwd h
      exact ⟨j + 1, x', by simpa using h1, by rw [show k + (j + 1) = k + 1 + j by omega]; exact h2, by
        rw [cnt_succ, if_neg hg, h3]; simp, h4⟩

/-- the new position of what is kept -/
def keptPos (g : Nat → Bool) (q : Nat) : Option Nat := if g q then some (cnt g 0 q) else none

theorem keptPos_inj (g : Nat → Bool) {p q r : Nat} (hp : keptPos g p = some r) (hq : keptPos g q = some r) : p = q := by
  unfold keptPos at hp hq
  split at hp
  case isFalse => cases hp
  case isTrue h1 =>
    split at hq
    case isFalse => cases hq
    case isTrue h2 =>
      have e1 := Option.some.inj hp
      have e2 := Option.some.inj hq
      exact cnt_inj g 0 (by simpa using h1) (by simpa using h2) (e1.trans e2.symm)

theorem keepAt_moved {α : Type} (g : Nat → Bool) (f : α → α) (l : List α) : Moved (keptPos g) (fun x x' => x' = f x) l (keepAt g f 0 l) := by
  refine ⟨fun p x p' hp hm => ?_, fun p' x' hp' => ?_, fun p q r => keptPos_inj g⟩
  · unfold keptPos at hm
    split at hm
    case isTrue hg =>
      cases hm
      exact ⟨f x, keepAt_fwd hp (by simpa using hg), rfl⟩
    case isFalse => cases hm
  · obtain ⟨j, x, h1, h2, h3, h4⟩ := keepAt_bwd hp'
    refine ⟨j, x, h1, ?_, h4⟩
    simp only [Nat.zero_add] at h2
    simp only [keptPos, h2, if_true, h3]

/-! ### removing -/

/-- indexes after some of the removed ones have been looked at -/
def state (rem : Nat → Bool) (i q : Nat) : Int := if rem q then -1 else (q : Int) - (cnt rem 0 (min i q) : Int)

theorem cnt_le (g : Nat → Bool) (k j : Nat) : cnt g k j ≤ j := by
  have := List.countP_le_length (p := g) (l := List.range' k j)
  simpa [cnt] using this

theorem shorten_state (rem : Nat → Bool) : ∀ k i, shorten (List.range' i k) (state rem i) = state rem (i + k)
  | 0, i => rfl
  | k + 1, i => by
    rw [List.range'_succ, shorten]
    have hstep : (if state rem i i < 0 then decAfter i (state rem i) else state rem i) = state rem (i + 1) := by
      have hi : state rem i i < 0 ↔ rem i = true := by
        unfold state
        have := cnt_le rem 0 (min i i)
        split
        case isTrue h => exact ⟨fun _ => h, fun _ => by omega⟩
        case isFalse h => exact ⟨fun h' => by omega, fun h' => absurd h' h⟩
      by_cases hr : rem i = true
      · rw [if_pos (hi.2 hr)]
        funext q
        unfold decAfter
        have hc := cnt_le rem 0 (min i q)
        by_cases hq : rem q = true
        · simp [state, hq]
        · have hs : state rem i q = (q : Int) - (cnt rem 0 (min i q) : Int) := by simp [state, hq]
          have hs' : state rem (i + 1) q = (q : Int) - (cnt rem 0 (min (i + 1) q) : Int) := by simp [state, hq]
          rw [hs, hs']
          by_cases hlt : i < q
          · rw [if_pos ⟨hlt, by omega⟩, Nat.min_eq_left (by omega), Nat.min_eq_left (by omega), cnt_snoc]
            simp only [Nat.zero_add, hr, if_true]
            omega
          · rw [if_neg (fun h => hlt h.1), Nat.min_eq_right (by omega), Nat.min_eq_right (by omega)]
      · rw [if_neg (fun h => hr (hi.1 h))]
        funext q
        unfold state
        split
        · rfl
        · by_cases hlt : i < q
          · rw [Nat.min_eq_left (by omega), Nat.min_eq_left (by omega), cnt_snoc]
            simp [hr]
          · rw [Nat.min_eq_right (by omega), Nat.min_eq_right (by omega)]
    rw [hstep, shorten_state rem k (i + 1), show i + 1 + k = i + (k + 1) by omega]

theorem cnt_not (g : Nat → Bool) (k : Nat) : ∀ j, cnt g k j + cnt (fun q => !g q) k j = j
  | 0 => rfl
  | j + 1 => by
    rw [cnt_snoc, cnt_snoc]
    have := cnt_not g k j
    rcases g (k + j) with _ | _ <;> simp <;> omega

/-- kept ones get the number of kept ones before them -/
theorem short_eq (n : Nat) (rem : Nat → Bool) {q : Nat} (hq : q < n) : toPos (short n rem q) = keptPos (fun q => !rem q) q := by
  have h0 : (fun i => if rem i then (-1 : Int) else i) = state rem 0 := by
    funext i; simp [state, cnt]
  rw [short, h0, List.range_eq_range', shorten_state]
  unfold state keptPos toPos
  rw [Nat.zero_add, Nat.min_eq_right (Nat.le_of_lt hq)]
  rcases hr : rem q with _ | _
  · have := cnt_not rem 0 q
    simp only [hr, Bool.false_eq_true, if_false, Bool.not_false, if_true]
    rw [if_pos (by omega)]
    congr 1
    omega
  · simp [hr]

theorem short_neg (n : Nat) (rem : Nat → Bool) {q : Nat} (hq : q < n) : short n rem q < 0 ↔ rem q = true := by
  have := short_eq n rem hq
  unfold toPos keptPos at this
  rcases hr : rem q with _ | _
  · simp only [hr, Bool.not_false, if_true] at this
    split at this
    · simp only [Bool.false_eq_true, iff_false]; omega
    · cases this
  · simp only [hr, Bool.not_true, Bool.false_eq_true, if_false] at this
    split at this
    · cases this
    · simp only [iff_true]; omega

/-- positions after the removal of those from `p` on -/
def from_ (rem : Nat → Bool) (p q : Nat) : Option Nat :=
  if q < p then some q else if rem q then none else some (p + (cnt (fun q => !rem q) 0 q - cnt (fun q => !rem q) 0 p))

theorem from_lower {rem : Nat → Bool} {p : Nat} (h : rem p = true) (q : Nat) : from_ rem p q = lower p (from_ rem (p + 1) q) := by
  unfold from_
  have hc : cnt (fun q => !rem q) 0 (p + 1) = cnt (fun q => !rem q) 0 p := by rw [cnt_snoc]; simp [h]
  rcases Nat.lt_trichotomy q p with hlt | heq | hgt
  · rw [if_pos hlt, if_pos (show q < p + 1 by omega), lower, if_neg (show ¬ p < q by omega), if_neg (show ¬ q = p by omega)]
  · subst heq
    rw [if_neg (Nat.lt_irrefl _), if_pos h, if_pos (Nat.lt_succ_self q), lower, if_neg (Nat.lt_irrefl q), if_pos rfl]
  · rw [if_neg (show ¬ q < p by omega), if_neg (show ¬ q < p + 1 by omega)]
    split
    · rfl
    · rw [lower, if_pos (by omega), hc]
      congr 1; omega

theorem from_same {rem : Nat → Bool} {p : Nat} (h : rem p = false) (q : Nat) : from_ rem p q = from_ rem (p + 1) q := by
  unfold from_
  have hc : cnt (fun q => !rem q) 0 (p + 1) = cnt (fun q => !rem q) 0 p + 1 := by rw [cnt_snoc]; simp [h]
  rcases Nat.lt_trichotomy q p with hlt | heq | hgt
  · rw [if_pos hlt, if_pos (show q < p + 1 by omega)]
  · subst heq
    rw [if_neg (Nat.lt_irrefl _), if_pos (Nat.lt_succ_self q)]
    simp [h]
  · rw [if_neg (show ¬ q < p by omega), if_neg (show ¬ q < p + 1 by omega)]
    split
    · rfl
    · have := cnt_mono (fun q => !rem q) 0 (show p + 1 ≤ q from hgt)
      congr 1; omega

theorem lower_some {p q r : Nat} (h : lower p (some q) = some r) : q ≠ p ∧ (if q < p then r = q else r + 1 = q) := by
  simp only [lower] at h
  split_ifs at h
  · cases h; exact ⟨by omega, by rw [if_neg (by omega)]; omega⟩
  · cases h; exact ⟨by omega, by rw [if_pos (by omega)]⟩

theorem erase_lower {α : Type} {l : List α} {p q r : Nat} (h : lower p (some q) = some r) : (l.eraseIdx p)[r]? = l[q]? := by
  obtain ⟨h1, h2⟩ := lower_some h
  rw [List.getElem?_eraseIdx]
  split at h2
  · rw [if_pos (by omega), h2]
  · rw [if_neg (by omega), h2]

theorem lower_onto (p r : Nat) : ∃ q, lower p (some q) = some r := by
  by_cases h : r < p
  · exact ⟨r, by rw [lower, if_neg (by omega), if_neg (by omega)]⟩
  · exact ⟨r + 1, by rw [lower, if_pos (by omega)]; rfl⟩

theorem lower_inj {p q q' r : Nat} (h : lower p (some q) = some r) (h' : lower p (some q') = some r) : q = q' := by
  obtain ⟨h1, h2⟩ := lower_some h
  obtain ⟨h3, h4⟩ := lower_some h'
  split at h2 <;> split at h4 <;> omega

theorem lower_bind {p : Nat} {o : Option Nat} {r : Nat} (h : lower p o = some r) : ∃ q, o = some q ∧ lower p (some q) = some r := by
  cases o with
  | none => cases h
  | some q => exact ⟨q, rfl, h⟩

theorem bind_lower {rem : Nat → Bool} {p : Nat} (h : rem p = true) (o : Option Nat) :
    o.bind (from_ rem p) = lower p (o.bind (from_ rem (p + 1))) := by
  cases o with
  | none => rfl
  | some q => exact from_lower h q

theorem dropVars_moved {n : Nat} {rem : Nat → Bool} {vs : List VInfo} : ∀ (p : Nat) (l : List VInfo),
    Moved (from_ rem p) (VMoved (from_ rem p)) vs l →
    ∃ l', dropVars false n rem p l = some l' ∧ Moved (from_ rem 0) (VMoved (from_ rem 0)) vs l'
  | 0, l, h => ⟨l, rfl, h⟩
  | p + 1, l, h => by
    rw [dropVars]
    by_cases hr : rem p = true
    · rw [if_pos hr]
      simp only [Bool.false_and, Bool.false_eq_true, if_false]
      refine dropVars_moved p _ ⟨fun q v r hq hm => ?_, fun r v' hv' => ?_, fun q q' r h1 h2 => ?_⟩
      · rw [from_lower hr] at hm
        obtain ⟨q', hm', hl⟩ := lower_bind hm
        obtain ⟨x, hx, hR⟩ := h.fwd q v q' hq hm'
        refine ⟨_, ?_, rfl⟩
        rw [List.getElem?_map, erase_lower hl, hx, hR]
        simp only [Option.map_some, bind_lower hr]
      · rw [List.getElem?_map] at hv'
        obtain ⟨x, hx, rfl⟩ := Option.map_eq_some_iff.1 hv'
        obtain ⟨q', hl⟩ := lower_onto p r
        rw [erase_lower hl] at hx
        obtain ⟨q, v, hq, hm, hR⟩ := h.bwd q' x hx
        refine ⟨q, v, hq, by rw [from_lower hr, hm]; exact hl, ?_⟩
        rw [hR]
        simp only [VMoved, bind_lower hr]
      · rw [from_lower hr] at h1 h2
        obtain ⟨a, ha, hla⟩ := lower_bind h1
        obtain ⟨b, hb, hlb⟩ := lower_bind h2
        have := lower_inj hla hlb
        subst this
        exact h.inj q q' a ha hb
    · rw [if_neg hr]
      have hr : rem p = false := by simpa using hr
      have hfun : from_ rem p = from_ rem (p + 1) := funext (from_same hr)
      exact dropVars_moved p l (hfun ▸ h)

theorem from_zero (rem : Nat → Bool) : from_ rem 0 = keptPos fun q => !rem q := by
  funext q
  unfold from_ keptPos
  rw [if_neg (Nat.not_lt_zero _)]
  rcases hr : rem q with _ | _ <;> simp [cnt, hr]

theorem from_start {vs : List VInfo} (ha : ∀ v ∈ vs, ∀ q, v.anti = some q → q < vs.length) (hd : ∀ v ∈ vs, ∀ q, v.der = some q → q < vs.length)
    (rem : Nat → Bool) : Moved (from_ rem vs.length) (VMoved (from_ rem vs.length)) vs vs := by
  have hsame : ∀ q, q < vs.length → from_ rem vs.length q = some q := fun q hq => by unfold from_; rw [if_pos hq]
  have hbind : ∀ o : Option Nat, (∀ q, o = some q → q < vs.length) → o.bind (from_ rem vs.length) = o := fun o ho => by
    cases o with
    | none => rfl
    | some q => exact hsame q (ho q rfl)
  have hR : ∀ v ∈ vs, VMoved (from_ rem vs.length) v v := fun v hv => by
    simp only [VMoved, hbind _ (ha v hv), hbind _ (hd v hv)]
  refine ⟨fun p x p' hp hm => ?_, fun p' x' hp' => ?_, fun p q r h1 h2 => ?_⟩
  · rw [hsame p (List.getElem?_eq_some_iff.1 hp).1] at hm
    cases hm
    exact ⟨x, hp, hR x (List.mem_of_getElem? hp)⟩
  · exact ⟨p', x', hp', hsame p' (List.getElem?_eq_some_iff.1 hp').1, hR x' (List.mem_of_getElem? hp')⟩
  · have key : ∀ p r, from_ rem vs.length p = some r → (p < vs.length ∧ r = p) ∨ (vs.length ≤ p ∧ rem p = false ∧
        r + cnt (fun q => !rem q) 0 vs.length = vs.length + cnt (fun q => !rem q) 0 p) := fun p r h => by
      unfold from_ at h
      split_ifs at h with h1 h2
      · cases h; exact .inl ⟨h1, rfl⟩
      · cases h
        have := cnt_mono (fun q => !rem q) 0 (show vs.length ≤ p by omega)
        exact .inr ⟨by omega, by simpa using h2, by omega⟩
    have hge : ∀ p, vs.length ≤ p → cnt (fun q => !rem q) 0 vs.length ≤ cnt (fun q => !rem q) 0 p := fun p hp => cnt_mono _ 0 hp
    rcases key p r h1 with ⟨a1, a2⟩ | ⟨a1, a2, a3⟩ <;> rcases key q r h2 with ⟨b1, b2⟩ | ⟨b1, b2, b3⟩
    · omega
    · have := hge q b1; omega
    · have := hge p a1; omega
    · exact cnt_inj (fun q => !rem q) 0 (by simp [a2]) (by simp [b2]) (by omega)

theorem dropVars_congr {strict : Bool} {n : Nat} {rem rem' : Nat → Bool} : ∀ (p : Nat) (l : List VInfo), (∀ q, q < p → rem q = rem' q) →
    dropVars strict n rem p l = dropVars strict n rem' p l
  | 0, _, _ => rfl
  | p + 1, l, h => by
    rw [dropVars, dropVars, h p (Nat.lt_succ_self p)]
    split
    · simp only
      split
      · rfl
      · exact dropVars_congr p _ fun q hq => h q (by omega)
    · exact dropVars_congr p _ fun q hq => h q (by omega)

theorem dropVars_strict {n : Nat} {rem : Nat → Bool} : ∀ (p : Nat) (l : List VInfo), l.length = n → p ≤ n → (∃ q, q < p ∧ rem q = true) →
    dropVars true n rem p l = none
  | 0, _, _, _, ⟨_, h, _⟩ => absurd h (Nat.not_lt_zero _)
  | p + 1, l, hl, hp, ⟨q, hq, hr⟩ => by
    rw [dropVars]
    by_cases hrp : rem p = true
    · rw [if_pos hrp]
      simp only
      rw [if_pos]
      rw [List.length_eraseIdx, if_pos (by omega)]
      simp only [Bool.true_and, decide_eq_true_eq]
      omega
    · rw [if_neg hrp]
      refine dropVars_strict p l hl (by omega) ⟨q, ?_, hr⟩
      rcases Nat.lt_or_ge q p with h | h
      · exact h
      · exact absurd (by rw [show p = q by omega]; exact hr) hrp

theorem dropEqs_keep (mv me : Nat → Int) : ∀ (n : Nat) (tail pre : List EInfo), pre.length = n →
    dropEqs mv me n (pre ++ tail) = keepAt (fun i => !decide (me i < 0)) (shortEq mv me) 0 pre ++ tail
  | 0, tail, pre, h => by
    rw [List.eq_nil_of_length_eq_zero h]; simp [dropEqs, keepAt]
  | n + 1, tail, pre, h => by
    obtain ⟨pre', x, rfl⟩ : ∃ pre' x, pre = pre' ++ [x] := by
      have hne : pre ≠ [] := by intro he; rw [he] at h; cases h
      exact ⟨pre.dropLast, pre.getLast hne, (List.dropLast_append_getLast hne).symm⟩
    have ih := dropEqs_keep mv me n
    simp only [List.length_append, List.length_singleton, Nat.add_right_cancel_iff] at h
    subst h
    rw [keepAt_append, dropEqs]
    simp only [Nat.zero_add, keepAt]
    by_cases hm : me pre'.length < 0
    · rw [if_pos hm]
      have : (pre' ++ [x] ++ tail).eraseIdx pre'.length = pre' ++ tail := by
        rw [List.append_assoc, List.eraseIdx_append_of_length_le (Nat.le_refl _)]
        simp
      rw [this, ih tail pre' rfl]
      simp [hm]
    · rw [if_neg hm]
      have : (pre' ++ [x] ++ tail).modify pre'.length (shortEq mv me) = pre' ++ (shortEq mv me x :: tail) := by
        rw [List.append_assoc]
        generalize shortEq mv me = f
        clear ih hm
        induction pre' with
        | nil => rfl
        | cons a l ih => simpa [List.modify_succ_cons] using ih
      rw [this, ih (shortEq mv me x :: tail) pre' rfl]
      simp [hm]

theorem keepAt_congr {α : Type} {g g' : Nat → Bool} {f f' : α → α} : ∀ {k : Nat} {l : List α}, (∀ j, j < l.length → g (k + j) = g' (k + j)) →
    (∀ x ∈ l, f x = f' x) → keepAt g f k l = keepAt g' f' k l
  | _, [], _, _ => rfl
  | k, x :: l, hg, hf => by
    have h1 := hg 0 (by simp)
    simp only [Nat.add_zero] at h1
    have h2 := keepAt_congr (g := g) (g' := g') (f := f) (f' := f') (k := k + 1) (l := l)
      (fun j hj => by rw [show k + 1 + j = k + (j + 1) by omega]; exact hg (j + 1) (by simp; omega))
      (fun y hy => hf y (List.mem_cons_of_mem x hy))
    simp only [keepAt, h1, hf x List.mem_cons_self, h2]

def shortEq' (m m' : Nat → Option Nat) (i : EInfo) : EInfo := { i with assigned := i.assigned.bind m, anti := i.anti.bind m' }

/-- what the removal gives, if what is beyond the end of a vector is ignored -/
theorem remove_moved {vs : List VInfo} {es : List EInfo} (hok : Ok vs es) (remV remE : Nat → Bool) :
    ∃ vs' es', remove false remV remE vs es = some (vs', es') ∧
      Moved (keptPos fun q => !remV q) (VMoved (keptPos fun q => !remV q)) vs vs' ∧
      Moved (keptPos fun q => !remE q) (fun i i' => i' = shortEq' (keptPos fun q => !remV q) (keptPos fun q => !remE q) i) es es' := by
  obtain ⟨vs', h1, h2⟩ := dropVars_moved (n := vs.length) vs.length vs (from_start hok.anti_lt hok.der_lt remV)
  rw [from_zero] at h2
  have hd : dropVars false vs.length (fun p => decide (short vs.length remV p < 0)) vs.length vs = some vs' := by
    rw [← h1]
    refine dropVars_congr _ _ fun q hq => ?_
    have := short_neg vs.length remV hq
    rcases hr : remV q with _ | _ <;> simp_all
  have he : dropEqs (short vs.length remV) (short es.length remE) es.length es =
      keepAt (fun q => !remE q) (shortEq' (keptPos fun q => !remV q) (keptPos fun q => !remE q)) 0 es := by
    have := dropEqs_keep (short vs.length remV) (short es.length remE) es.length [] es rfl
    rw [List.append_nil, List.append_nil] at this
    rw [this]
    refine keepAt_congr (fun j hj => ?_) fun i hi => ?_
    · simp only [Nat.zero_add]
      have := short_neg es.length remE hj
      rcases hr : remE j with _ | _ <;> simp_all
    · unfold shortEq shortEq'
      have hb : ∀ (n : Nat) (rem : Nat → Bool) (o : Option Nat), (∀ q, o = some q → q < n) →
          (o.bind fun q => toPos (short n rem q)) = o.bind (keptPos fun q => !rem q) := fun n rem o ho => by
        cases o with
        | none => rfl
        | some q => exact short_eq n rem (ho q rfl)
      rw [hb _ _ _ (hok.assigned_lt i hi), hb _ _ _ (hok.eq_lt i hi)]
  refine ⟨vs', _, ?_, h2, keepAt_moved _ _ es⟩
  simp only [remove, hd, he, Option.map_some]

end Verif.Dae.Reorder
