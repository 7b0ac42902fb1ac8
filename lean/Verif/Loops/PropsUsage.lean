import Verif.Loops.LemmasUsageSum

/-
C82: the sparse Jacobian and Hessian of a model with loops, put together from the functions of the forward and reverse modes.
-/
namespace Verif.Loops.Usage

open Verif.Index (detectV)
open Verif.Deriv (Info infos maxCompressed groups info loc)

/-- If each element is requested once and the temporary array has room for the groups, the function returns each requested element at the location
of the user: the sum of what the functions compute for it, whatever result, temporary array and index variable contained before. -/
theorem matrix_right_partial {α : Type} [AddCommMonoid α] (req : List (Nat × Nat)) (hn : req.Nodup) (fs : List (Free α)) (cs : List (Call α))
    (hf : ∀ f ∈ fs, f.Ok req) (hd : (fs.map (·.key)).Nodup) (hc : ∀ c ∈ cs, c.Ok req) (hr : ∀ c ∈ cs, c.Room req) (it0 : Nat) (res comp : Nat → α) :
    ∃ out, sparseMatrix req fs cs it0 res comp = some out ∧
      ∀ x k e i : Nat, req[x]? = some (k, i) → (elems req k)[e]? = some i → out x = entry fs cs k e := by
  obtain ⟨out, h1, h2⟩ := sparseMatrix_ok hn hf hd (fun c h => ⟨hc c h, hr c h⟩) it0 res comp
  refine ⟨out, h1, fun x k e i hx he => ?_⟩
  rw [← h2 k e (List.getElem?_eq_some_iff.1 he).1, Verif.Deriv.nodup_get hn hx (pos_get he)]

/-- every element of the request has a position in its row, so that the theorem is about all of the result -/
theorem element_position (req : List (Nat × Nat)) (x k i : Nat) (h : req[x]? = some (k, i)) : ∃ e : Nat, (elems req k)[e]? = some i :=
  List.mem_iff_getElem?.1 (Verif.Deriv.mem_grp.2 (List.mem_of_getElem? h))

/-! ### an example -/

/-- elements of the rows 0, 1 and 2; rows 0 and 1 are not consecutive -/
def exReq : List (Nat × Nat) := [(0, 0), (1, 0), (0, 1), (1, 1), (1, 2), (2, 5), (2, 7)]
def exFree : List (Free Nat) := [⟨0, 2, [1], fun _ => 10⟩, ⟨2, 2, [0], fun _ => 20⟩]
/-- the first group has one element in row 0 and two in row 1, the second is for row 2 alone -/
def exCalls : List (Call Nat) := [⟨[(0, [1]), (1, [0, 2])], fun k e => 100 * k + e⟩, ⟨[(2, [0, 1])], fun _ e => 1000 + e⟩]

theorem exReq_zero : ¬ Consecutive exReq 0 := by
  rintro ⟨s, hs⟩
  have h0 := hs 0 0 (by decide)
  have h1 := hs 1 1 (by decide)
  have hlt := (List.getElem?_eq_some_iff.1 h1).1
  have : s = 0 ∨ s = 1 ∨ s = 2 ∨ s = 3 ∨ s = 4 ∨ s = 5 ∨ s = 6 := by
    have : exReq.length = 7 := rfl
    omega
  rcases this with rfl | rfl | rfl | rfl | rfl | rfl | rfl <;> first | (exact absurd h0 (by decide)) | (exact absurd h1 (by decide))

theorem exReq_one : ¬ Consecutive exReq 1 := by
  rintro ⟨s, hs⟩
  have h0 := hs 0 0 (by decide)
  have h1 := hs 1 1 (by decide)
  have hlt := (List.getElem?_eq_some_iff.1 h1).1
  have : s = 0 ∨ s = 1 ∨ s = 2 ∨ s = 3 ∨ s = 4 ∨ s = 5 ∨ s = 6 := by
    have : exReq.length = 7 := rfl
    omega
  rcases this with rfl | rfl | rfl | rfl | rfl | rfl | rfl <;> first | (exact absurd h0 (by decide)) | (exact absurd h1 (by decide))

theorem exReq_two : Consecutive exReq 2 := by
  refine ⟨5, fun e i h => ?_⟩
  have hlt : e < 2 := (List.getElem?_eq_some_iff.1 h).1
  have : e = 0 ∨ e = 1 := by omega
  rcases this with rfl | rfl
  · have hi : i = 5 := by simpa [elems, exReq] using h.symm
    rw [hi]
    rfl
  · have hi : i = 7 := by simpa [elems, exReq] using h.symm
    rw [hi]
    rfl

theorem exCalls_ok : ∀ c ∈ exCalls, c.Ok exReq := by
  intro c hc
  have : c = ⟨[(0, [1]), (1, [0, 2])], fun k e => 100 * k + e⟩ ∨ c = ⟨[(2, [0, 1])], fun _ e => 1000 + e⟩ := by simpa [exCalls] using hc
  rcases this with rfl | rfl
  · exact ⟨by simp, by simp, by simp, by simp, by decide⟩
  · exact ⟨by simp, by simp, by simp, by simp, by decide⟩

theorem exCalls_room : ∀ c ∈ exCalls, c.Room exReq := by
  intro c hc
  have : c = ⟨[(0, [1]), (1, [0, 2])], fun k e => 100 * k + e⟩ ∨ c = ⟨[(2, [0, 1])], fun _ e => 1000 + e⟩ := by simpa [exCalls] using hc
  rcases this with rfl | rfl
  · refine Or.inr fun p hp e he => ⟨1, exReq_one, ?_⟩
    have : ∀ p ∈ [(0, [1]), (1, [0, 2])], ∀ e ∈ p.2, e < (elems exReq 1).length := by decide
    exact this p hp e he
  · refine Or.inl fun p hp => ?_
    rw [List.mem_singleton.1 hp]
    exact exReq_two

/-- the hypotheses hold for the example, with the result of each location -/
example (it0 : Nat) (res comp : Nat → Nat) : ∃ out, sparseMatrix exReq exFree exCalls it0 res comp = some out ∧
    (List.range 7).map out = [0, 100, 11, 0, 102, 1020, 1001] := by
  obtain ⟨out, h1, h2⟩ := matrix_right_partial exReq (by decide) exFree exCalls
    (by
      intro f hf
      have : f = ⟨0, 2, [1], fun _ => 10⟩ ∨ f = ⟨2, 2, [0], fun _ => 20⟩ := by simpa [exFree] using hf
      rcases this with rfl | rfl
      · exact ⟨by decide, by decide, by simp, by simp⟩
      · exact ⟨by decide, by decide, by simp, by simp⟩)
    (by decide) exCalls_ok exCalls_room it0 res comp
  refine ⟨out, h1, ?_⟩
  simp only [List.range, List.range.loop, List.map_cons, List.map_nil]
  rw [h2 0 0 0 0 rfl rfl, h2 1 1 0 0 rfl rfl, h2 2 0 1 1 rfl rfl, h2 3 1 1 1 rfl rfl, h2 4 1 2 2 rfl rfl, h2 5 2 0 5 rfl rfl, h2 6 2 1 7 rfl rfl]
  rfl

/-! ### without the restrictions -/

/-- row 0 is consecutive and has three elements, row 1 is not and has two -/
def overReq : List (Nat × Nat) := [(0, 0), (0, 1), (0, 2), (1, 0), (2, 0), (1, 1)]
def overCall : Call Nat := ⟨[(0, [0, 1, 2]), (1, [0, 1])], fun _ _ => 1⟩

/-- A group for rows 0 and 1 is given the temporary array, as row 1 is not consecutive. Its length is that of row 1, the function of the group stores the
third element of row 0 beyond its end. -/
theorem overflow_counterexample (it0 : Nat) (res comp : Nat → Nat) :
    overReq.Nodup ∧ overCall.Ok overReq ∧ sparseMatrix overReq [] [overCall] it0 res comp = none := by
  have hok : overCall.Ok overReq := ⟨by simp [overCall], by simp [overCall], by simp [overCall], by simp [overCall], by decide⟩
  refine ⟨by decide, hok, ?_⟩
  have hg := analyse_ok hok
  rw [if_neg (by decide +kernel)] at hg
  have hm : maxCompressed ((groups overReq).map (info overReq)) = 2 := by decide +kernel
  have hk : index (detectV ((overCall.keys.map (·.1)).map fun (y : Nat) => (y : Int))) 0 = some 0 := index_detectV rfl
  rw [sparseMatrix, Verif.Deriv.infos_ok]
  simp only [List.map_cons, List.map_nil, hg, Option.map_some, allSome, Option.bind_some, runFree, hm]
  have hc : [overCall.keys.length].foldl Verif.Ranges.setInsert [] = [2] := rfl
  rw [hc, runBlocks, if_pos (by decide)]
  have hf : ∀ g : Group, g.count = 2 → [(overCall, g)].filter (fun p => p.2.count == 2) = [(overCall, g)] := by
    intro g h
    simp [h]
  rw [hf _ rfl]
  have hrg : ∀ st : State Nat, runGroup overReq.length 2 0 overCall
      ⟨overCall.keys.length, detectV ((overCall.keys.map (·.1)).map fun (y : Nat) => (y : Int)), none, (counts overCall.keys).map (elG overReq overCall.keys)⟩
      false st = none := by
    intro st
    simp only [runGroup]
    rw [if_pos (show overCall.keys.length > 1 by decide), hk]
    rfl
  rw [show List.range 2 = [0, 1] from rfl, runIters, runBody]
  have := hrg ⟨fun e => if e < overReq.length then 0 else res e, comp, none⟩
  simp only [List.map_cons, List.map_nil] at this ⊢
  rw [this]
  rfl

/-- An element requested twice: both positions of the row have the location of the first request, which is added to twice while the other one stays zero. -/
theorem repeated_counterexample :
    (⟨0, 2, [0, 1], fun _ => 7⟩ : Free Nat).Ok [(0, 3), (0, 3)] ∧
    (sparseMatrix [(0, 3), (0, 3)] [(⟨0, 2, [0, 1], fun _ => 7⟩ : Free Nat)] [] 0 (fun _ => 0) (fun _ => 0)).map (fun o => [o 0, o 1]) = some [14, 0] := by
  refine ⟨⟨by decide, by decide, by simp, by simp⟩, ?_⟩
  decide +kernel

end Verif.Loops.Usage
