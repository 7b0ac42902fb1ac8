import Verif.Loops.LemmasZero
import Verif.Loops.PropsJac

/-
Property C57, zero order: the generated function of a model with loops stores the values of all equations.
-/
namespace Verif.Loops

variable {α : Type} [CommRing α]

/-- For a model with `m` equations whose tables fit together and whose tape equations are used by at least one iteration:
code is generated, it does not get stuck, every equation gets its value, and nothing else is stored. -/
theorem forward0_right {M : Model} (hM : M.Ok) {m : Nat}
    (hm : ∀ (q : Nat) (l : Loop) (jac : List (List Nat)), M.loops[q]? = some (l, jac) → ∀ t it i, l.eq t it = some i → i < m)
    (hu : ∀ (q : Nat) (l : Loop) (jac : List (List Nat)), M.loops[q]? = some (l, jac) → ∀ t < l.dep.length, ∃ it i, l.eq t it = some i)
    (Y : Nat → Nat → Nat → α) (F : Nat → α) :
    ∃ out, forward0 M m Y F = .ok out ∧ (∀ i v, M.Value Y F i v → out i = v) ∧ ∀ i, ¬ M.Computes i → out i = 0 := by
  unfold forward0
  generalize hout : free0 M F = out0
  obtain ⟨o, h1, h2, h3⟩ := run0_ok hM hm hu Y (List.range M.loops.length) List.nodup_range (fun q hq => List.mem_range.mp hq) out0
  have hps : ∀ fr, M.free = some fr → out0 = ((List.range fr.eqs.length).filterMap fun r => (fr.eqs[r]?).map fun i => (i, F r)).foldl
      (fun out p => upd out p.1 p.2) fun _ => 0 := by
    intro fr hfr
    rw [← hout, free0, hfr]
    simp only
    rw [List.foldl_filterMap]
    congr 1
    funext o r
    cases fr.eqs[r]? <;> rfl
  refine ⟨o, h1, ?_, ?_⟩
  · intro i v hv
    cases hv with
    | @loop q t it l jac hl hi => exact h3 q (List.mem_range.mpr (List.getElem?_eq_some_iff.mp hl).1) l jac hl t it i hi
    | @free r fr hfr hi =>
      rw [h2 i fun q _ l jac hl t it he => hM.apart q l jac t it i fr hl he hfr (List.mem_of_getElem? hi), hps fr hfr]
      refine foldl_upd i (F r) _ _ ?_ (Or.inl ⟨(i, F r), ?_, rfl⟩)
      · intro p hp he
        simp only [List.mem_filterMap, Option.map_eq_some_iff] at hp
        obtain ⟨r', _, i', h4, rfl⟩ := hp
        simp only at he
        subst he
        have e1 := lastIdx_eq (hM.eqs fr hfr) h4
        have e2 := lastIdx_eq (hM.eqs fr hfr) hi
        rw [e1] at e2
        rw [Option.some.inj e2]
      · simp only [List.mem_filterMap, Option.map_eq_some_iff]
        exact ⟨r, List.mem_range.mpr (List.getElem?_eq_some_iff.mp hi).1, i, hi, rfl⟩
  · intro i hi
    rw [h2 i fun q _ l jac hl t it he => hi (Or.inl ⟨q, t, it, l, jac, hl, he⟩)]
    cases hfr : M.free with
    | none =>
      rw [← hout, free0, hfr]
    | some fr =>
      rw [hps fr hfr]
      refine foldl_upd i 0 _ _ ?_ (Or.inr rfl)
      intro p hp he
      exfalso
      simp only [List.mem_filterMap, Option.map_eq_some_iff] at hp
      obtain ⟨r', _, i', h4, rfl⟩ := hp
      simp only at he
      subst he
      exact hi (Or.inr ⟨fr, hfr, List.mem_of_getElem? h4⟩)

/-- equation 1 is computed at iteration 1, equation 4 by the second tape equation, which iteration 1 does not have -/
example : ∃ out, forward0 exModel 6 (fun _ t it => (10 * t + it + 1 : Int)) (fun _ => 77) = .ok out ∧ out 1 = 2 ∧ out 4 = 13 ∧ out 5 = 77 := by
  obtain ⟨out, h1, h2, _⟩ := forward0_right exModel_ok (m := 6)
    (by
      intro q l jac h t it i hi
      obtain ⟨rfl, rfl, rfl⟩ := exModel_one h
      have b := eq_bounds (by decide) hi
      have key : ∀ t < 2, ∀ it < 3, ∀ i ∈ exLoop.eq t it, i < 6 := by decide
      exact key t b.1 it b.2 i hi)
    (by
      intro q l jac h t ht
      obtain ⟨rfl, rfl, rfl⟩ := exModel_one h
      have key : ∀ t < 2, (exLoop.eq t 0).isSome = true := by decide
      obtain ⟨i, hi⟩ := Option.isSome_iff_exists.mp (key t ht)
      exact ⟨0, i, hi⟩)
    (fun _ t it => (10 * t + it + 1 : Int)) (fun _ => 77)
  have hl : exModel.loops[0]? = some (exLoop, exRows) := rfl
  exact ⟨out, h1, h2 1 _ (.loop hl (tapeI := 0) (it := 1) rfl), h2 4 _ (.loop hl (tapeI := 1) (it := 2) rfl), h2 5 _ (.free (r := 0) rfl rfl)⟩

end Verif.Loops
