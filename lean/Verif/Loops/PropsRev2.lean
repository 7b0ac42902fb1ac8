import Verif.Loops.LemmasRev2Sum
import Verif.Loops.LemmasFor1Col
import Mathlib.Tactic.FinCases
import Mathlib.Tactic.IntervalCases

/-
C81: products of directions with the Hessian of a model with loops (sparse reverse mode of order two). The functions are those of
model_c_source_gen_loops_rev2.hpp, their caller is in functor_generic_model.hpp.
-/
namespace Verif.Loops.Rev2

open Verif.Index Verif.Ranges

variable {α : Type} [CommRing α]

/-- Nothing is left without the component of the direction: it is one, or each group of equations with a second derivative at a constant location is in all iterations. -/
def Factors (loops : List (Info α)) (tx1 : α) : Prop :=
  tx1 = 1 ∨ ∀ I ∈ loops, ∀ g ∈ I.groups, (∀ it < I.iters, it ∈ g.its) ∨ ∀ p ∈ I.const, ∀ it, g.cval p.1 it = 0

theorem row_core {isZ : (Nat → α) → Bool} (hz : ∀ f, isZ f = true → ∀ it, f it = 0) {n : Nat} {loops : List (Info α)} (hI : ∀ I ∈ loops, I.Ok n) {tx1 : α}
    (hf : Factors loops tx1) {j : Nat} (hj : j < n) (free : Option (Nat → α)) (size : Nat) (out : Nat → α) :
    ∃ o, row isZ n loops free size tx1 j out = .ok o ∧ (∀ e < size, o e = (if free = none then out e else 0) + hess loops free j e * tx1) ∧
      ((∀ I ∈ loops, I.Within j size) → ∀ e, size ≤ e → o e = out e) := by
  obtain ⟨o, h1, h2⟩ := runLoops_ok hz tx1 hj loops hI (match free with
    | none => out
    | some f => fun e => if e < size then f e * tx1 else out e)
  have hs : ∀ e, (lsum loops fun I => lsum (List.range I.iters) (added I tx1 j e)) =
      (loops.map fun I => ((List.range I.iters).map fun it => I.atIt j e it).sum).sum * tx1 := by
    intro e
    change _ = lsum loops _ * tx1
    rw [← lsum_mul_right]
    refine lsum_congr fun I hI => ?_
    change _ = lsum (List.range I.iters) _ * tx1
    rw [← lsum_mul_right]
    exact lsum_congr fun it _ => added_right tx1 j e it (hf.imp_right fun h => h I hI)
  refine ⟨o, h1, fun e he => ?_, fun hw e he => ?_⟩
  · rw [h2, hs, hess.eq_def, add_mul, ← add_assoc]
    congr 1
    cases free with
    | none => simp
    | some f => simp [he]
  · rw [h2, hs]
    have : (loops.map fun I => ((List.range I.iters).map fun it => I.atIt j e it).sum).sum = 0 := by
      refine lsum_zero fun I hI => lsum_zero fun it _ => ?_
      obtain ⟨w1, w2⟩ := hw I hI
      unfold Info.atIt
      have a1 : ∀ p ∈ I.const, ¬ (p.1.1 = j ∧ p.2 = e) := by
        rintro p hp ⟨h, h'⟩
        have := w2 p hp h; omega
      have a2 : ∀ g ∈ I.groups, ∀ k, ∀ p ∈ g.pos k, (match p.2[it]? with
          | some x => x.adds j e (g.val k p.1 it)
          | none => 0) = 0 := by
        intro g hg k p hp
        cases hx : p.2[it]? with
        | none => rfl
        | some x =>
          simp only [El.adds]
          split
          · rename_i h
            by_cases hc : 0 < x.cnt
            · have := w1 g hg k p hp x (List.mem_of_getElem? hx) hc h.1; omega
            · rw [show x.cnt = 0 by omega]; simp
          · rfl
      rw [show (I.const.map fun p => if p.1.1 = j ∧ p.2 = e then (I.groups.map fun g => if it ∈ g.its then g.cval p.1 it else 0).sum + I.tmp p.1 it else 0).sum = 0 from
        lsum_zero fun p hp => if_neg (a1 p hp), add_zero]
      exact lsum_zero fun g hg => lsum_zero fun k _ => lsum_zero fun p hp => a2 g hg k p hp
    rw [this, zero_mul, add_zero]
    cases free with
    | none => rfl
    | some f => simp only; rw [if_neg (by omega)]

/-- `sparse_reverse_two` with an array of zeros: location `e` of row `j` is the second derivative times the component of the direction. The groups of rows and iterations
count each contribution once and the source generation does not fail. Missing: groups of equations which are not in all iterations, with a second derivative
for two variables which do not depend on the iteration, unless the component is one (`missing_factor_counterexample`). -/
theorem row_right_partial {isZ : (Nat → α) → Bool} (hz : ∀ f, isZ f = true → ∀ it, f it = 0) {n : Nat} {loops : List (Info α)} (hI : ∀ I ∈ loops, I.Ok n) {tx1 : α}
    (hf : Factors loops tx1) {j : Nat} (hj : j < n) (free : Option (Nat → α)) (size : Nat) (out : Nat → α) (h0 : ∀ e < size, out e = 0) :
    ∃ o, row isZ n loops free size tx1 j out = .ok o ∧ (∀ e < size, o e = hess loops free j e * tx1) ∧
      ((∀ I ∈ loops, I.Within j size) → ∀ e, size ≤ e → o e = out e) := by
  obtain ⟨o, h1, h2, h3⟩ := row_core hz hI hf hj free size out
  refine ⟨o, h1, fun e he => ?_, h3⟩
  rw [h2 e he, h0 e he, ite_self, zero_add]

/-- Rows with equations outside of the loops: the content of the array does not matter. -/
theorem row_sets_partial {isZ : (Nat → α) → Bool} (hz : ∀ f, isZ f = true → ∀ it, f it = 0) {n : Nat} {loops : List (Info α)} (hI : ∀ I ∈ loops, I.Ok n) {tx1 : α}
    (hf : Factors loops tx1) {j : Nat} (hj : j < n) (f : Nat → α) (size : Nat) (out : Nat → α) :
    ∃ o, row isZ n loops (some f) size tx1 j out = .ok o ∧ ∀ e < size, o e = hess loops (some f) j e * tx1 := by
  obtain ⟨o, h1, h2, _⟩ := row_core hz hI hf hj (some f) size out
  refine ⟨o, h1, fun e he => ?_⟩
  rw [h2 e he]
  simp

/-- Other rows: the product is added to what the array contains. -/
theorem row_adds_partial {isZ : (Nat → α) → Bool} (hz : ∀ f, isZ f = true → ∀ it, f it = 0) {n : Nat} {loops : List (Info α)} (hI : ∀ I ∈ loops, I.Ok n) {tx1 : α}
    (hf : Factors loops tx1) {j : Nat} (hj : j < n) (size : Nat) (out : Nat → α) :
    ∃ o, row isZ n loops none size tx1 j out = .ok o ∧ ∀ e < size, o e = out e + hess loops none j e * tx1 := by
  obtain ⟨o, h1, h2, _⟩ := row_core hz hI hf hj none size out
  refine ⟨o, h1, fun e he => ?_⟩
  rw [h2 e he]
  simp

theorem spread_sum {vars : List Nat} (hnd : vars.Nodup) (o px : Nat → α) (v : Nat) :
    For1.spread o vars.zipIdx px v = px v + ((List.range vars.length).map fun e => if vars[e]? = some v then o e else 0).sum := by
  obtain ⟨h1, h2⟩ := For1.spread_rows hnd o px
  by_cases hv : v ∈ vars
  · obtain ⟨e, he⟩ := List.getElem?_of_mem hv
    have hel := (List.getElem?_eq_some_iff.mp he).1
    rw [h1 v e he]
    congr 1
    symm
    refine (lsum_single List.nodup_range (List.mem_range.mpr hel) fun e' he' hne => if_neg fun h => hne ?_).trans (if_pos he)
    exact (List.getElem?_inj (List.mem_range.mp he') hnd).mp (h.trans he.symm)
  · rw [h2 v hv]
    rw [show ((List.range vars.length).map fun e => if vars[e]? = some v then o e else 0).sum = 0 from
      lsum_zero fun e _ => if_neg fun h => hv (List.mem_of_getElem? h), add_zero]

/-- `ReverseTwo` with the elements of a direction: right if its rows have equations outside of the loops. Missing: other rows (`stale_counterexample`), and what is
missing in `row_right_partial`. -/
theorem product_right_partial {isZ : (Nat → α) → Bool} (hz : ∀ f, isZ f = true → ∀ it, f it = 0) {n : Nat} {loops : List (Info α)} (hI : ∀ I ∈ loops, I.Ok n)
    {free : Nat → Option (Nat → α)} {vars : Nat → List Nat} (hv : ∀ j, (vars j).Nodup) :
    ∀ dir : List (Nat × α), (∀ d ∈ dir, d.1 < n ∧ free d.1 ≠ none ∧ Factors loops d.2) → ∀ old px : Nat → α,
    ∃ o, reverseTwo isZ n loops free vars dir old px = .ok o ∧ ∀ v, o v = px v + product loops free vars dir v
  | [], _, _, px => ⟨px, rfl, fun v => by simp [product]⟩
  | (j, d) :: ds, hd, old, px => by
    obtain ⟨hj, hfr, hfa⟩ := hd _ List.mem_cons_self
    obtain ⟨o1, h1, h2, _⟩ := row_core hz hI hfa hj (free j) (vars j).length old
    obtain ⟨o, g1, g2⟩ := product_right_partial hz hI hv ds (fun d hd' => hd d (List.mem_cons_of_mem _ hd')) o1 (For1.spread o1 (vars j).zipIdx px)
    refine ⟨o, ?_, fun v => ?_⟩
    · rw [reverseTwo]
      simp only at h1
      rw [h1]
      exact g1
    · rw [g2, spread_sum (hv j), add_assoc]
      congr 1
      rw [product, product, List.map_cons, List.sum_cons]
      congr 1
      refine congrArg List.sum (List.map_congr_left fun e he => ?_)
      rw [h2 e (List.mem_range.mp he), if_neg hfr, zero_add]

/-! ### examples -/

/-- Three iterations. The first group of equations is in all of them. Variable 0 does not depend on the iteration and meets variable 1 in the first iteration and
variable 2 in the others, with second derivative 1; its second derivative with itself is 6 at each iteration. The second group is in iteration 1 only and adds 10 twice
to the location of variables 0 and 2. -/
def exInfo : Info Int where
  iters := 3
  groups := [
    { its := [0, 1, 2]
      pos := fun k => if k = .nonIndexed then [((0, 1), [⟨0, 1, 1⟩, ⟨0, 2, 1⟩, ⟨0, 2, 1⟩])] else if k = .indexedNon then [((1, 0), [⟨1, 0, 1⟩, ⟨2, 0, 1⟩, ⟨2, 0, 1⟩])] else []
      val := fun _ _ _ => 1
      cval := fun _ _ => 6 },
    { its := [1]
      pos := fun k => if k = .nonIndexed then [((0, 1), [⟨0, 0, 0⟩, ⟨0, 2, 2⟩, ⟨0, 0, 0⟩])] else []
      val := fun _ _ it => if it = 1 then 10 else 0
      cval := fun _ _ => 0 }]
  const := [((0, 0), 0)]
  tmp := fun _ _ => 0

theorem exInfo_ok : exInfo.Ok 3 where
  pos := by decide
  size := by decide
  keys := by
    intro g hg k
    fin_cases hg <;> cases k <;> decide
  len := by
    intro g hg k
    fin_cases hg <;> cases k <;> decide
  row := by
    intro g hg k
    fin_cases hg <;> cases k <;> decide
  same := by
    intro g hg g' hg' k K es es' h h' it x x' hx hx' hc hc'
    have h1 : ∀ g ∈ exInfo.groups, ∀ (K : Nat × Nat) (es : List El), (K, es) ∈ g.pos k → ∀ (it : Nat) (x : El), es[it]? = some x → 0 < x.cnt →
        x.row = (if k = .nonIndexed then 0 else if it = 0 then 1 else 2) := by
      intro g hg K es h it x hx hc
      have hit : it < 3 := by
        have := (List.getElem?_eq_some_iff.mp hx).1
        have : es.length = 3 := by
          fin_cases hg <;> cases k <;> simp at h <;> simp [h.2]
        omega
      fin_cases hg <;> cases k <;> simp at h <;> obtain ⟨_, rfl⟩ := h <;> interval_cases it <;> simp at hx <;> subst hx <;> simp at hc ⊢
    rw [h1 g hg K es h it x hx hc, h1 g' hg' K es' h' it x' hx' hc']
  consts := by decide
  crow := by decide
  its := by decide

/-- a loop in which the group of equations is in the first of two iterations only, with a second derivative for variable 0 twice -/
def exPart : Info Int := ⟨2, [⟨[0], fun _ => [], fun _ _ _ => 0, fun _ _ => 1⟩], [((0, 0), 0)], fun _ _ => 0⟩

theorem exPart_ok : exPart.Ok 1 where
  pos := by decide
  size := by decide
  keys := by
    intro g hg k
    fin_cases hg
    simp
  len := by
    intro g hg k
    fin_cases hg
    simp
  row := by
    intro g hg k
    fin_cases hg
    simp
  same := by
    intro g hg g' hg' k K es es' h
    fin_cases hg
    simp at h
  consts := by decide
  crow := by decide
  its := by decide

def never (_ : Nat → Int) : Bool := false

theorem never_zero : ∀ f, never f = true → ∀ it, f it = 0 := fun _ h => absurd h nofun

theorem exFactors (d : Int) : Factors [exInfo] d := Or.inr (by
  intro I hI g hg
  obtain rfl := List.mem_singleton.mp hI
  fin_cases hg
  · exact Or.inl (by decide)
  · exact Or.inr fun _ _ _ => rfl)

/-- row 0 with component 2: three times six for the constant location, one, and two plus twice ten -/
example : ∃ o, row never 3 [exInfo] none 3 2 0 (fun _ => 0) = .ok o ∧ o 0 = 36 ∧ o 1 = 2 ∧ o 2 = 44 ∧ o 3 = 0 := by
  obtain ⟨o, h1, h2, h3⟩ := row_right_partial never_zero (loops := [exInfo]) (by simpa using exInfo_ok) (exFactors 2) (j := 0) (by decide) none 3 (fun _ => 0) fun _ _ => rfl
  refine ⟨o, h1, ?_, ?_, ?_, ?_⟩
  · rw [h2 0 (by decide)]; decide +kernel
  · rw [h2 1 (by decide)]; decide +kernel
  · rw [h2 2 (by decide)]; decide +kernel
  · refine h3 ?_ 3 (by decide)
    intro I hI
    obtain rfl := List.mem_singleton.mp hI
    refine ⟨?_, by decide⟩
    intro g hg k
    fin_cases hg <;> cases k <;> decide

/-- what is in the array does not matter if the row has equations outside of the loops -/
example (out : Nat → Int) : ∃ o, row never 3 [exInfo] (some fun e => e) 1 2 2 out = .ok o ∧ o 0 = 4 := by
  obtain ⟨o, h1, h2⟩ := row_sets_partial never_zero (loops := [exInfo]) (by simpa using exInfo_ok) (exFactors 2) (j := 2) (by decide) (fun e => (e : Int)) 1 out
  refine ⟨o, h1, ?_⟩
  rw [h2 0 (by decide)]; decide +kernel

example (out : Nat → Int) : ∃ o, row never 3 [exInfo] none 1 2 2 out = .ok o ∧ o 0 = out 0 + 4 := by
  obtain ⟨o, h1, h2⟩ := row_adds_partial never_zero (loops := [exInfo]) (by simpa using exInfo_ok) (exFactors 2) (j := 2) (by decide) 1 out
  refine ⟨o, h1, ?_⟩
  rw [h2 0 (by decide)]
  congr 1

def exVars (j : Nat) : List Nat := if j = 0 then [0, 1, 2] else [0]

example (old : Nat → Int) : ∃ o, reverseTwo never 3 [exInfo] (fun _ => some fun _ => 1) exVars [(0, 2), (2, 3)] old (fun _ => 0) = .ok o ∧ o 0 = 47 ∧ o 2 = 46 := by
  obtain ⟨o, h1, h2⟩ := product_right_partial never_zero (loops := [exInfo]) (by simpa using exInfo_ok) (free := fun _ => some fun _ => 1) (vars := exVars)
    (by intro j; unfold exVars; split <;> decide) [(0, 2), (2, 3)]
    (by intro d hd; exact ⟨by fin_cases hd <;> decide, nofun, exFactors d.2⟩) old fun _ => 0
  refine ⟨o, h1, ?_, ?_⟩
  · rw [h2]; decide +kernel
  · rw [h2]; decide +kernel

/-- A group of equations which is not in all iterations: its second derivative is added without the component of the direction, 1 in place of 2. -/
theorem missing_factor_counterexample : exPart.Ok 1 ∧ exPart.Within 0 1 ∧ ∃ o, row never 1 [exPart] none 1 2 0 (fun _ => 0) = .ok o ∧ hess [exPart] none 0 0 * 2 = 2 ∧
    o 0 = 1 := by
  refine ⟨exPart_ok, ⟨?_, by decide⟩, ?_⟩
  · intro g hg k
    fin_cases hg
    simp
  · obtain ⟨o, h1, h2⟩ := runLoops_ok never_zero (n := 1) 2 (j := 0) (by decide) [exPart] (by simpa using exPart_ok) fun _ => 0
    refine ⟨o, h1, by decide +kernel, ?_⟩
    rw [h2]
    decide +kernel

/-- with component one the result is right -/
example : ∃ o, row never 1 [exPart] none 1 1 0 (fun _ => 0) = .ok o ∧ o 0 = 1 := by
  obtain ⟨o, h1, h2, _⟩ := row_right_partial never_zero (loops := [exPart]) (by simpa using exPart_ok) (Or.inl rfl) (j := 0) (by decide) none 1 (fun _ => 0) fun _ _ => rfl
  refine ⟨o, h1, ?_⟩
  rw [h2 0 (by decide)]
  decide +kernel

/-- The first call of `ReverseTwo`, on an array of zeros, with two rows all of whose equations are in the loop: what row 0 left in the array is counted again. -/
theorem stale_counterexample : ∃ o, reverseTwo never 3 [exInfo] (fun _ => none) exVars [(0, 2), (2, 3)] (fun _ => 0) (fun _ => 0) = .ok o ∧
    product [exInfo] (fun _ => none) exVars [(0, 2), (2, 3)] 0 = 42 ∧ o 0 = 78 := by
  obtain ⟨o1, a1, a2⟩ := row_adds_partial never_zero (loops := [exInfo]) (by simpa using exInfo_ok) (exFactors 2) (j := 0) (by decide) 3 fun _ => 0
  obtain ⟨o2, b1, b2⟩ := row_adds_partial never_zero (loops := [exInfo]) (by simpa using exInfo_ok) (exFactors 3) (j := 2) (by decide) 1 o1
  refine ⟨For1.spread o2 [0].zipIdx (For1.spread o1 [0, 1, 2].zipIdx fun _ => 0), ?_, by decide +kernel, ?_⟩
  · rw [reverseTwo, show row never 3 [exInfo] none (exVars 0).length 2 0 (fun _ => 0) = .ok o1 from a1]
    simp only
    rw [reverseTwo, show row never 3 [exInfo] none (exVars 2).length 3 2 o1 = .ok o2 from b1]
    rfl
  · rw [(For1.spread_rows (by decide) o2 _).1 0 0 rfl, (For1.spread_rows (by decide) o1 _).1 0 0 rfl, b2 0 (by decide), a2 0 (by decide)]
    decide +kernel

end Verif.Loops.Rev2
