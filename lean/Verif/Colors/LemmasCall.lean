import Verif.Colors.LemmasRun

/- Helper lemmas: a call with an empty work object and with the one which it returns. -/
namespace Verif.Colors

/-- the work object after a call -/
def fresh (sort : List Nat → List Nat) (m n : Nat) (jr jc hr hc : List Nat) (color : List Nat) : Work :=
  ⟨freshJac sort m n jr jc, freshHes sort n hr hc, color⟩

theorem prepareJac_fresh {sort : List Nat → List Nat} {m n : Nat} {jr jc : List Nat} :
    prepareJac sort m n jr jc (freshJac sort m n jr jc) = freshJac sort m n jr jc := by
  unfold prepareJac
  rw [if_neg (by simp [freshJac])]
  rfl

theorem prepareHes_fresh {sort : List Nat → List Nat} {n : Nat} {hr hc : List Nat} :
    prepareHes sort n hr hc (freshHes sort n hr hc) = freshHes sort n hr hc := by
  unfold prepareHes
  rw [if_neg (by simp [freshHes])]
  rfl

/-- the part of a call after the coloring -/
def afterColors {R : Type} [Zero R] [One R] (n : Nat) (fwd : List R → List R) (revs : List (List R → List R))
    (jacRow : List Nat) (jac : List R) (hesRow : List Nat) (hes : List (List R)) (w : Work) : Option (Work × List R × List (List R) × Nat) :=
  if jac.length < jacRow.length ∨ hes.any (fun h => h.length < hesRow.length) then none
  else
    match (List.range (numColors w.color)).foldlM (fun s c => sweep fwd revs n w c s)
      (List.replicate jacRow.length 0 ++ jac.drop jacRow.length, hes.map (fun h => List.replicate hesRow.length 0 ++ h.drop hesRow.length), 0) with
    | none => none
    | some (jac, hes, k) => some (w, jac, hes, k)

theorem call_eq {R : Type} [Zero R] [One R] {sort : List Nat → List Nat} {m n : Nat} {fwd : List R → List R} {revs : List (List R → List R)}
    {jacP : List (List Nat)} {jr jc : List Nat} {jac : List R} {hesP : List (List Nat)} {hr hc : List Nat} {hes : List (List R)} {w w' : Work}
    (h : colors m n jacP hesP { w with jac := prepareJac sort m n jr jc w.jac, hes := prepareHes sort n hr hc w.hes } = some w') :
    sparseForJacHessian sort m n fwd revs jacP jr jc jac hesP hr hc hes w = afterColors n fwd revs jr jac hr hes w' := by
  unfold sparseForJacHessian
  simp only [h]
  rfl

section
variable {R : Type} [CommSemiring R] {sort : List Nat → List Nat} (hsort : SortsPositions sort) {m n : Nat} {jacP : List (List Nat)} {jr jc : List Nat}
  (hj : ValidRequest m n jacP jr jc) {hesP : List (List Nat)} {hr hc : List Nat} (hh : ValidRequest n n hesP hr hc)
include hsort hj hh

omit [CommSemiring R] in
/-- the first call and all later ones use the same work object -/
theorem calls_eq : ∃ color, Proper n color jacP jr jc hesP hr hc ∧
    (∀ [Zero R] [One R], ∀ (fwd : List R → List R) revs jac hes,
      sparseForJacHessian sort m n fwd revs jacP jr jc jac hesP hr hc hes Work.empty = afterColors n fwd revs jr jac hr hes (fresh sort m n jr jc hr hc color)) ∧
    (∀ [Zero R] [One R], ∀ (fwd : List R → List R) revs jac hes,
      sparseForJacHessian sort m n fwd revs jacP jr jc jac hesP hr hc hes (fresh sort m n jr jc hr hc color) =
        afterColors n fwd revs jr jac hr hes (fresh sort m n jr jc hr hc color)) := by
  obtain ⟨color, h1, h2⟩ := colors_fresh hsort hj hh
  refine ⟨color, h2, fun fwd revs jac hes => call_eq h1, fun fwd revs jac hes => call_eq ?_⟩
  simp only [fresh, prepareJac_fresh, prepareHes_fresh]
  by_cases hc : color = []
  · rw [hc, h1, hc]
  · unfold colors
    rw [if_neg hc]

omit hsort hj hh in
theorem parts_zero {color : List Nat} : ∀ {Hs : List (Nat → Nat → R)} {hes0 : List (List R)}, hes0.length = Hs.length →
    (∀ h ∈ hes0, hr.length ≤ h.length) → Parts color hr hc 0 Hs hes0 (hes0.map fun h => List.replicate hr.length 0 ++ h.drop hr.length)
  | [], [], _, _ => .nil
  | H :: Hs, h :: hs, hl, hle => by
    have h1 := hle h (by simp)
    refine .cons h1 ⟨?_, ?_, fun k j o _ hlt => absurd hlt (by omega)⟩ (parts_zero (Hs := Hs) (by simpa using hl) fun h hh => hle h (List.mem_cons_of_mem _ hh))
    · simp
      omega
    · intro k hk
      rw [List.getElem?_append_right (by simpa using hk)]
      simp
      congr 1
      omega

theorem call_ok {J : Nat → Nat → R} (hcov : Covers m n jacP J) {fwd : List R → List R} (hf : ForwardOne m n J fwd)
    {Hs : List (Nat → Nat → R)} (hcovs : ∀ H ∈ Hs, Covers n n hesP H) {revs : List (List R → List R)} (hrev : List.Forall₂ (ReverseTwo n) Hs revs)
    {jac0 : List R} {hes0 : List (List R)} (hjl : jr.length ≤ jac0.length) (hhl : hes0.length = Hs.length) (hhle : ∀ h ∈ hes0, hr.length ≤ h.length)
    {color : List Nat} (hp : Proper n color jacP jr jc hesP hr hc) :
    ∃ jac hes s N, afterColors n fwd revs jr jac0 hr hes0 (fresh sort m n jr jc hr hc color) = some (fresh sort m n jr jc hr hc color, jac, hes, s) ∧
      Part color (fun k j o => Requested jr jc k o j) (fun j i => J i j) jr.length jac0 N jac ∧ Parts color hr hc N Hs hes0 hes ∧
      (∀ j < n, color.getD j 0 < N) ∧ s ≤ 2 * n := by
  have h1 : Part color (fun k j o => Requested jr jc k o j) (fun j i => J i j) jr.length jac0 0
      (List.replicate jr.length 0 ++ jac0.drop jr.length) := by
    refine ⟨?_, ?_, fun k j o _ hlt => absurd hlt (by omega)⟩
    · simp
      omega
    · intro k hk
      rw [List.getElem?_append_right (by simpa using hk)]
      simp
      congr 1
      omega
  obtain ⟨jac, hes, s, e1, e2, e3, e4, e5⟩ := run_ok hsort hj hh hp hcov hf hcovs hrev hjl h1 (parts_zero hhl hhle) (numColors color)
  have hget : ∀ j < n, color.getD j 0 ∈ color := by
    intro j hjn
    exact getD_mem (by rw [hp.length]; exact hjn)
  refine ⟨jac, hes, s, numColors color, ?_, e2, e3, fun j hjn => numColors_gt (hget j hjn), ?_⟩
  · unfold afterColors
    rw [if_neg]
    · simp only [fresh, e1]
    · rintro (h | h)
      · omega
      · obtain ⟨x, hx, hlt⟩ := List.any_eq_true.1 h
        have := hhle x hx
        simp at hlt
        omega
  · rcases Nat.eq_zero_or_pos n with h0 | h0
    · rw [e5 h0]
      omega
    · have : numColors color ≤ n := by
        refine numColors_le ?_ h0
        intro c hc
        obtain ⟨j, hjl, rfl⟩ := List.getElem_of_mem hc
        have := hp.le j (by rw [← hp.length]; exact hjl)
        simp [List.getD_eq_getElem?_getD, hjl] at this
        have := hp.length
        omega
      omega

omit hsort hj in
theorem Parts.stored {color : List Nat} {N : Nat} (hN : ∀ j < n, color.getD j 0 < N) {Hs : List (Nat → Nat → R)} {hes0 hes : List (List R)}
    (h : Parts color hr hc N Hs hes0 hes) : List.Forall₂ (Stored hr hc) Hs hes := by
  induction h with
  | nil => exact .nil
  | cons h1 h2 _ ih => exact .cons (fun k i j hq => h2.value k i j hq (hN i (hh.rows _ (List.mem_of_getElem? hq.1)))) ih

omit hsort hj hh in
theorem Parts.rest {color : List Nat} {N : Nat} {Hs : List (Nat → Nat → R)} {hes0 hes : List (List R)}
    (h : Parts color hr hc N Hs hes0 hes) :
    List.Forall₂ (fun h0 h => h.length = h0.length ∧ ∀ k, hr.length ≤ k → h[k]? = h0[k]?) hes0 hes := by
  induction h with
  | nil => exact .nil
  | cons h1 h2 _ ih => exact .cons ⟨h2.length, h2.rest⟩ ih

end
end Verif.Colors
