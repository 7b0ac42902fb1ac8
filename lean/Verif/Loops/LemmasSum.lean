import Verif.Loops.LemmasJac
import Verif.Loops.ModelHess
import Verif.Loops.SpecHess
import Mathlib.Algebra.BigOperators.Ring.Finset
import Mathlib.Tactic.LinearCombination

/-
Sums over lists, lists without repetition, and groups of equations.
-/
namespace Verif.Loops

open Verif.Index Verif.Ranges

variable {α : Type} [CommRing α]

/-! ### sums over lists -/

def lsum {β : Type} (l : List β) (f : β → α) : α := (l.map f).sum

@[simp] theorem lsum_nil {β : Type} (f : β → α) : lsum [] f = 0 := rfl

@[simp] theorem lsum_cons {β : Type} (x : β) (l : List β) (f : β → α) : lsum (x :: l) f = f x + lsum l f := by simp [lsum]

theorem lsum_append {β : Type} (l l' : List β) (f : β → α) : lsum (l ++ l') f = lsum l f + lsum l' f := by simp [lsum]

theorem lsum_flatMap {β γ : Type} (g : β → List γ) (f : γ → α) : ∀ l : List β, lsum (l.flatMap g) f = lsum l fun x => lsum (g x) f
  | [] => rfl
  | x :: l => by rw [List.flatMap_cons, lsum_append, lsum_cons, lsum_flatMap g f l]

theorem lsum_congr {β : Type} {l : List β} {f g : β → α} (h : ∀ x ∈ l, f x = g x) : lsum l f = lsum l g := by
  unfold lsum
  rw [List.map_congr_left h]

theorem lsum_zero {β : Type} {l : List β} {f : β → α} (h : ∀ x ∈ l, f x = 0) : lsum l f = 0 := list_sum_zero f h

theorem lsum_filter {β : Type} (p : β → Bool) (f : β → α) : ∀ l : List β, lsum (l.filter p) f = lsum l fun x => if p x = true then f x else 0
  | [] => rfl
  | x :: l => by
    rw [List.filter_cons]
    cases h : p x with
    | true => simp only [if_true, lsum_cons, h]; rw [lsum_filter p f l]
    | false => simp only [Bool.false_eq_true, if_false, lsum_cons, h, zero_add]; rw [lsum_filter p f l]

theorem lsum_filterMap {β γ : Type} (p : β → Option γ) (f : γ → α) : ∀ l : List β,
    lsum (l.filterMap p) f = lsum l fun x => match p x with | some y => f y | none => 0
  | [] => rfl
  | x :: l => by
    cases h : p x with
    | none => rw [List.filterMap_cons_none h, lsum_cons, lsum_filterMap p f l]; simp [h]
    | some y => rw [List.filterMap_cons_some h, lsum_cons, lsum_cons, lsum_filterMap p f l]; simp [h]

theorem lsum_range (n : Nat) (f : Nat → α) : lsum (List.range n) f = ∑ x ∈ Finset.range n, f x := by
  induction n with
  | zero => rfl
  | succ n ih => rw [List.range_succ, lsum_append, ih, Finset.sum_range_succ]; simp

theorem lsum_add {β : Type} (l : List β) (f g : β → α) : lsum l (fun x => f x + g x) = lsum l f + lsum l g := by
  induction l with
  | nil => simp
  | cons x l ih => simp only [lsum_cons, ih]; ring

theorem lsum_mul_right {β : Type} (l : List β) (f : β → α) (c : α) : lsum l (fun x => f x * c) = lsum l f * c := by
  induction l with
  | nil => simp
  | cons x l ih => simp only [lsum_cons, ih]; ring

theorem lsum_mul_left {β : Type} (l : List β) (f : β → α) (c : α) : lsum l (fun x => c * f x) = c * lsum l f := by
  induction l with
  | nil => simp
  | cons x l ih => simp only [lsum_cons, ih]; ring

theorem lsum_comm {β γ : Type} (l : List β) (l' : List γ) (f : β → γ → α) : lsum l (fun x => lsum l' (f x)) = lsum l' fun y => lsum l fun x => f x y := by
  induction l with
  | nil => simp only [lsum_nil]; rw [lsum_zero]; intros; rfl
  | cons x l ih => simp only [lsum_cons]; rw [ih, lsum_add]

/-- only one element counts -/
theorem lsum_single {β : Type} [DecidableEq β] {l : List β} (hnd : l.Nodup) {f : β → α} {x : β} (hx : x ∈ l)
    (h : ∀ y ∈ l, y ≠ x → f y = 0) : lsum l f = f x := list_sum_single hnd f hx h

/-- the term of `x`, if it is there -/
theorem lsum_if_eq {β : Type} [DecidableEq β] {l : List β} (hnd : l.Nodup) (f : β → α) (x : β) :
    (lsum l fun y => if y = x then f y else 0) = if x ∈ l then f x else 0 := by
  by_cases hx : x ∈ l
  · rw [if_pos hx, lsum_single hnd hx]
    · rw [if_pos rfl]
    · intro y _ hne; rw [if_neg hne]
  · rw [if_neg hx]
    refine lsum_zero fun y hy => if_neg (fun h : y = x => hx (h ▸ hy))

theorem lsum_ite {β : Type} (l : List β) (p : Prop) [Decidable p] (f : β → α) : (lsum l fun x => if p then f x else 0) = if p then lsum l f else 0 := by
  by_cases h : p
  · simp [h]
  · simp only [h, if_false]; exact lsum_zero fun _ _ => rfl

/-! ### lists without repetition -/

theorem mem_insL {β : Type} [DecidableEq β] {s : List β} {x y : β} : y ∈ insL s x ↔ y ∈ s ∨ y = x := by
  unfold insL
  split
  · constructor
    · exact Or.inl
    · rintro (h | rfl)
      · exact h
      · assumption
  · simp

theorem insL_nodup {β : Type} [DecidableEq β] {s : List β} {x : β} (h : s.Nodup) : (insL s x).Nodup := by
  unfold insL
  split
  · exact h
  · rename_i hx
    rw [List.nodup_append]
    exact ⟨h, by simp, fun a ha b hb hab => hx (by simp only [List.mem_singleton] at hb; rw [← hb, ← hab]; exact ha)⟩

theorem foldl_insL {β : Type} [DecidableEq β] : ∀ (l s : List β), s.Nodup → (l.foldl insL s).Nodup ∧ ∀ y, y ∈ l.foldl insL s ↔ y ∈ s ∨ y ∈ l
  | [], s, h => ⟨h, fun y => by simp⟩
  | x :: l, s, h => by
    obtain ⟨h1, h2⟩ := foldl_insL l (insL s x) (insL_nodup h)
    refine ⟨h1, fun y => ?_⟩
    rw [List.foldl_cons, h2, mem_insL, List.mem_cons, or_assoc]

theorem nub_nodup {β : Type} [DecidableEq β] (l : List β) : (nub l).Nodup := (foldl_insL l [] (by simp)).1

theorem mem_nub {β : Type} [DecidableEq β] {l : List β} {y : β} : y ∈ nub l ↔ y ∈ l := by
  rw [nub, (foldl_insL l [] (by simp)).2]; simp

/-! ### groups -/

theorem mem_itersOf {l : Loop} {i it : Nat} : it ∈ itersOf l i ↔ it < l.iters ∧ (l.eq i it).isSome = true := by
  simp [itersOf]

theorem group_mem {l : Loop} {gr : Group} (h : gr ∈ groups l) :
    ∃ i < l.dep.length, gr.its = itersOf l i ∧ gr.tapeI = (List.range l.dep.length).filter fun i => itersOf l i = gr.its := by
  obtain ⟨its, h1, rfl⟩ := List.mem_map.mp h
  obtain ⟨i, h2, rfl⟩ := List.mem_map.mp (mem_nub.mp h1)
  exact ⟨i, List.mem_range.mp h2, rfl, rfl⟩

theorem group_its_nodup {l : Loop} {gr : Group} (h : gr ∈ groups l) : gr.its.Nodup := by
  obtain ⟨i, _, h, _⟩ := group_mem h
  rw [h]
  exact List.nodup_range.filter _

theorem group_its_lt {l : Loop} {gr : Group} (h : gr ∈ groups l) : ∀ it ∈ gr.its, it < l.iters := by
  obtain ⟨i, _, h, _⟩ := group_mem h
  rw [h]
  exact fun it hit => (mem_itersOf.mp hit).1

theorem group_tapeI {l : Loop} {gr : Group} (h : gr ∈ groups l) {i : Nat} (hi : i ∈ gr.tapeI) : i < l.dep.length ∧ itersOf l i = gr.its := by
  obtain ⟨_, _, _, h2⟩ := group_mem h
  rw [h2] at hi
  simpa using hi

/-- all equations present at an iteration, group by group -/
theorem groups_sum (l : Loop) {it : Nat} (hit : it < l.iters) (F : Nat → α) :
    (lsum (groups l) fun gr => if it ∈ gr.its then lsum gr.tapeI F else 0) =
      ∑ i ∈ Finset.range l.dep.length, if (l.eq i it).isSome = true then F i else 0 := by
  have h1 : (lsum (groups l) fun gr => if it ∈ gr.its then lsum gr.tapeI F else 0) =
      lsum (nub ((List.range l.dep.length).map (itersOf l))) fun its => lsum (List.range l.dep.length) fun i =>
        if itersOf l i = its then (if (l.eq i it).isSome = true then F i else 0) else 0 := by
    unfold groups lsum
    rw [List.map_map]
    congr 1
    refine List.map_congr_left fun its _ => ?_
    simp only [Function.comp]
    change (if it ∈ its then lsum _ F else 0) = lsum _ _
    rw [lsum_filter, ← lsum_ite]
    refine lsum_congr fun i _ => ?_
    by_cases h : itersOf l i = its
    · have : it ∈ its ↔ (l.eq i it).isSome = true := by rw [← h, mem_itersOf]; simp [hit]
      simp only [h, decide_true, if_true, this]
    · simp only [h, decide_false, Bool.false_eq_true, if_false]
      split <;> rfl
  rw [h1, lsum_comm, ← lsum_range]
  refine lsum_congr fun i hi => ?_
  have := lsum_if_eq (nub_nodup ((List.range l.dep.length).map (itersOf l))) (fun _ => if (l.eq i it).isSome = true then F i else 0) (itersOf l i)
  rw [if_pos (mem_nub.mpr (List.mem_map_of_mem hi))] at this
  refine Eq.trans ?_ this
  refine lsum_congr fun its _ => ?_
  by_cases h : itersOf l i = its
  · subst h; simp
  · have h' : ¬ its = itersOf l i := fun h' => h h'.symm
    simp [h, h']

/-- the weights read in the loop are those of the equations -/
theorem weight_eq (l : Loop) (W : Int → α) {i it o : Nat} (h : l.eq i it = some o) (hit : it < l.iters) : weight l W i it = W o := by
  unfold weight
  rw [locPat_eval (e := o)]
  · unfold Sorted
    rw [List.pairwise_filterMap]
    refine List.pairwise_lt_range.imp ?_
    intro a b hab p hp q hq
    obtain ⟨x, _, rfl⟩ := Option.map_eq_some_iff.mp hp
    obtain ⟨y, _, rfl⟩ := Option.map_eq_some_iff.mp hq
    exact hab
  · rw [List.mem_filterMap]
    exact ⟨it, List.mem_range.mpr hit, by rw [h]; rfl⟩

end Verif.Loops
