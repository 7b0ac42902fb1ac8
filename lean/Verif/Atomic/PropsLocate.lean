import Verif.Atomic.LemmasLocate

/-
The search for atomic functions is right (C67).
-/
namespace Verif.Atomic.Locate

/-- for all operation graphs the search ends, and it reports exactly the atomic functions evaluated for the dependents, with exactly the
independent variables on which an evaluation depends and exactly the sizes with which they are evaluated -/
theorem atomics_located {nd : Nat → LNode} {deps : List (Option Nat)} (hg : Graph nd) : ∃ N, ∀ fuel, N ≤ fuel → ∃ st, locate nd fuel deps = .ok st ∧
    (∀ id, st.used id = true ↔ ∃ n, Needed nd deps n ∧ (nd n).op = .call id) ∧
    (∀ id i, st.outer id i = true ↔ ∃ n, Needed nd deps n ∧ (nd n).op = .call id ∧ Depends nd n i) ∧
    (∀ id p, st.sizes id p = true ↔ ∃ n, Needed nd deps n ∧ (nd n).op = .call id ∧ Sizes nd n p) := by
  obtain ⟨R, hR⟩ := hg.acyclic
  have hb : ∃ r, ∀ n, some n ∈ deps → R n < r := by
    clear hg
    induction deps with
    | nil => exact ⟨0, by simp⟩
    | cons a as ih =>
      obtain ⟨r, h⟩ := ih
      cases a with
      | none =>
        refine ⟨r, ?_⟩
        intro n hn
        exact h n (by simpa using hn)
      | some m =>
        refine ⟨r + R m + 1, ?_⟩
        intro n hn
        rcases List.mem_cons.1 hn with hm | hm
        · cases hm; omega
        · have := h n hm; omega
  obtain ⟨r, hr⟩ := hb
  refine ⟨r + 1, fun fuel hf => ?_⟩
  have hI : Inv nd deps LSt.init :=
    ⟨fun _ h => absurd rfl h, fun _ _ h => by simp [LSt.init] at h, fun _ h => absurd rfl h, fun _ h => absurd rfl h,
      fun _ => by simp [LSt.init], fun _ _ => by simp [LSt.init, NSet.empty], fun _ _ => by simp [LSt.init]⟩
  obtain ⟨s, st, h1, h2, h3, h4, h5⟩ := collect_ok (nd := nd) (deps := deps) (R := R) (r := r) (go := find nd fuel) deps .empty .init
    (fun a ha st' hI' ho' => find_ok hg hR fuel r a st' (by omega) (fun n hn => by
      subst hn
      have := hr n ha
      exact ⟨by omega, this, .dep ha⟩) hI' ho') hI (fun x hx => by simp [LSt.init] at hx)
  have hall : ∀ n, Needed nd deps n → (nd n).op = .inv ∨ st.indeps n ≠ none := by
    intro n hn
    induction hn with
    | dep h => exact h5 _ h
    | @arg u n _ h ih =>
      rcases ih with ih | ih
      · rw [hg.inv u ih] at h; cases h
      · exact h2.closed u ih n h
  have hcall : ∀ n id, Needed nd deps n → (nd n).op = .call id → st.indeps n ≠ none := by
    intro n id hn ho
    exact (hall n hn).resolve_left (by rw [ho]; intro h; cases h)
  refine ⟨st, by unfold locate; rw [h1], ?_, ?_, ?_⟩
  · intro id
    rw [h2.used]
    exact ⟨fun ⟨n, a, b⟩ => ⟨n, h2.needed n a, b⟩, fun ⟨n, a, b⟩ => ⟨n, hcall n id a b, b⟩⟩
  · intro id i
    rw [h2.outer]
    exact ⟨fun ⟨n, a, b⟩ => ⟨n, h2.needed n a, b⟩, fun ⟨n, a, b⟩ => ⟨n, hcall n id a b.1, b⟩⟩
  · intro id p
    rw [h2.sizes]
    exact ⟨fun ⟨n, a, b⟩ => ⟨n, h2.needed n a, b⟩, fun ⟨n, a, b⟩ => ⟨n, hcall n id a b.1, b⟩⟩

/-- y = f(x0, x1 x0) with the atomic function 5, then z = 5(y1) and an unused evaluation of 7 -/
def sampleNodes : List LNode :=
  [ ⟨.inv, []⟩, ⟨.inv, []⟩, ⟨.inv, []⟩
  , ⟨.other, [some 1, some 0]⟩
  , ⟨.array, [some 0, some 3]⟩
  , ⟨.array, [none, none, none]⟩
  , ⟨.call 5, [some 4, some 5]⟩
  , ⟨.other, [some 5, some 6]⟩
  , ⟨.array, [some 7]⟩
  , ⟨.array, [none]⟩
  , ⟨.call 5, [some 8, some 9]⟩
  , ⟨.other, [some 9, some 10]⟩
  , ⟨.array, [some 2]⟩
  , ⟨.call 7, [some 12, some 9]⟩ ]

def sample (n : Nat) : LNode := sampleNodes.getD n ⟨.other, []⟩

theorem sample_graph : Graph sample := by
  have small : ∀ n, n < 14 ∨ sample n = ⟨.other, []⟩ := by
    intro n
    by_cases h : n < 14
    · exact .inl h
    · refine .inr ?_
      unfold sample
      rw [List.getD_eq_getElem?_getD, List.getElem?_eq_none (by show 14 ≤ n; omega)]
      rfl
  have h1 : ∀ u < 14, ∀ a ∈ (sample u).args, ∀ n, a = some n → n < u := by
    have : ∀ u < 14, ∀ a ∈ (sample u).args, a.all (fun n => decide (n < u)) = true := by decide
    intro u hu a ha n hn
    have := this u hu a ha
    subst hn
    simpa using this
  refine ⟨⟨id, fun u n h => ?_⟩, fun n h => ?_, fun n id h => ?_⟩
  · rcases small u with hu | hu
    · exact h1 u hu _ h n rfl
    · rw [hu] at h; cases h
  · rcases small n with hu | hu
    · have : ∀ n < 14, (sample n).op = .inv → (sample n).args = [] := by decide
      exact this n hu h
    · rw [hu] at h; cases h
  · rcases small n with hu | hu
    · have : ∀ n < 14, (match (sample n).op with | .call _ => true | _ => false) = true → ∃ tx < 14, ∃ ty < 14, (sample n).args = [some tx, some ty] := by decide
      obtain ⟨tx, _, ty, _, e⟩ := this n hu (by rw [h])
      exact ⟨tx, ty, [], e⟩
    · rw [hu] at h; cases h

/-- the result for the sample: the second evaluation of 5 depends on the same variables through the first, 7 is not needed -/
example : (match locate sample 20 [some 11, none, some 2] with
    | .error _ => false
    | .ok st => st.used 5 && !st.used 7 && st.outer 5 0 && st.outer 5 1 && !st.outer 5 2 &&
        st.sizes 5 (2, 3) && st.sizes 5 (1, 1) && !st.sizes 5 (2, 1)) = true := by decide

/-- with the other dependent 7 is found too -/
example : (match locate sample 20 [some 13] with
    | .error _ => false
    | .ok st => !st.used 5 && st.used 7 && st.outer 7 2 && !st.outer 7 0) = true := by decide

end Verif.Atomic.Locate
