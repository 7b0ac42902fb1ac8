import Verif.Colors.LemmasCall

/- Theorems about `sparseForJacHessian`. -/
namespace Verif.Colors

section
variable {R : Type} [CommSemiring R] {sort : List Nat → List Nat} (hsort : SortsPositions sort) {m n : Nat}
  {jacP : List (List Nat)} {jr jc : List Nat} (hj : ValidRequest m n jacP jr jc)
  {hesP : List (List Nat)} {hr hc : List Nat} (hh : ValidRequest n n hesP hr hc)
include hsort hj hh

/-- all requested elements of the Jacobian and of every Hessian are right, and no array is accessed outside of its bounds -/
theorem elements_right {J : Nat → Nat → R} (hcov : Covers m n jacP J) {fwd : List R → List R} (hf : ForwardOne m n J fwd)
    {Hs : List (Nat → Nat → R)} (hcovs : ∀ H ∈ Hs, Covers n n hesP H) {revs : List (List R → List R)} (hrev : List.Forall₂ (ReverseTwo n) Hs revs)
    {jac0 : List R} {hes0 : List (List R)} (hjl : jr.length ≤ jac0.length) (hhl : hes0.length = Hs.length) (hhle : ∀ h ∈ hes0, hr.length ≤ h.length) :
    ∃ w jac hes s, sparseForJacHessian sort m n fwd revs jacP jr jc jac0 hesP hr hc hes0 Work.empty = some (w, jac, hes, s) ∧
      Stored jr jc J jac ∧ List.Forall₂ (Stored hr hc) Hs hes := by
  obtain ⟨color, hp, h1, _⟩ := calls_eq (R := R) hsort hj hh
  obtain ⟨jac, hes, s, N, e1, e2, e3, e4, _⟩ := call_ok hsort hj hh hcov hf hcovs hrev hjl hhl hhle hp
  exact ⟨_, jac, hes, s, (h1 _ _ _ _).trans e1, fun k i j hq => e2.value k j i hq (e4 j (hj.cols _ (List.mem_of_getElem? hq.2))), e3.stored hh e4⟩

/-- the sizes of the results do not change, nor do elements after those of the request -/
theorem rest_same {J : Nat → Nat → R} (hcov : Covers m n jacP J) {fwd : List R → List R} (hf : ForwardOne m n J fwd)
    {Hs : List (Nat → Nat → R)} (hcovs : ∀ H ∈ Hs, Covers n n hesP H) {revs : List (List R → List R)} (hrev : List.Forall₂ (ReverseTwo n) Hs revs)
    {jac0 : List R} {hes0 : List (List R)} (hjl : jr.length ≤ jac0.length) (hhl : hes0.length = Hs.length) (hhle : ∀ h ∈ hes0, hr.length ≤ h.length)
    {w : Work} {jac : List R} {hes : List (List R)} {s : Nat}
    (h : sparseForJacHessian sort m n fwd revs jacP jr jc jac0 hesP hr hc hes0 Work.empty = some (w, jac, hes, s)) :
    (jac.length = jac0.length ∧ ∀ k, jr.length ≤ k → jac[k]? = jac0[k]?) ∧
      List.Forall₂ (fun h0 h => h.length = h0.length ∧ ∀ k, hr.length ≤ k → h[k]? = h0[k]?) hes0 hes := by
  obtain ⟨color, hp, h1, _⟩ := calls_eq (R := R) hsort hj hh
  obtain ⟨jac', hes', s', N, e1, e2, e3, e4, _⟩ := call_ok hsort hj hh hcov hf hcovs hrev hjl hhl hhle hp
  rw [h1, e1] at h
  cases h
  exact ⟨⟨e2.length, e2.rest⟩, e3.rest⟩

/-- never more sweeps than a forward and a reverse one for each variable -/
theorem sweeps_le {J : Nat → Nat → R} (hcov : Covers m n jacP J) {fwd : List R → List R} (hf : ForwardOne m n J fwd)
    {Hs : List (Nat → Nat → R)} (hcovs : ∀ H ∈ Hs, Covers n n hesP H) {revs : List (List R → List R)} (hrev : List.Forall₂ (ReverseTwo n) Hs revs)
    {jac0 : List R} {hes0 : List (List R)} (hjl : jr.length ≤ jac0.length) (hhl : hes0.length = Hs.length) (hhle : ∀ h ∈ hes0, hr.length ≤ h.length)
    {w : Work} {jac : List R} {hes : List (List R)} {s : Nat}
    (h : sparseForJacHessian sort m n fwd revs jacP jr jc jac0 hesP hr hc hes0 Work.empty = some (w, jac, hes, s)) : s ≤ 2 * n := by
  obtain ⟨color, hp, h1, _⟩ := calls_eq (R := R) hsort hj hh
  obtain ⟨jac', hes', s', N, e1, e2, e3, e4, e5⟩ := call_ok hsort hj hh hcov hf hcovs hrev hjl hhl hhle hp
  rw [h1, e1] at h
  cases h
  exact e5

/-- a call with the work object of an earlier one, at any other point and with any other weights, is the same as one with an empty work object -/
theorem again_same {fwd : List R → List R} {revs : List (List R → List R)} {jac0 : List R} {hes0 : List (List R)}
    {w : Work} {jac : List R} {hes : List (List R)} {s : Nat}
    (h : sparseForJacHessian sort m n fwd revs jacP jr jc jac0 hesP hr hc hes0 Work.empty = some (w, jac, hes, s))
    (fwd' : List R → List R) (revs' : List (List R → List R)) (jac' : List R) (hes' : List (List R)) :
    sparseForJacHessian sort m n fwd' revs' jacP jr jc jac' hesP hr hc hes' w =
      sparseForJacHessian sort m n fwd' revs' jacP jr jc jac' hesP hr hc hes' Work.empty := by
  obtain ⟨color, hp, h1, h2⟩ := calls_eq (R := R) hsort hj hh
  have hw : w = fresh sort m n jr jc hr hc color := by
    rw [h1] at h
    unfold afterColors at h
    split at h
    · cases h
    · split at h
      · cases h
      · cases h
        rfl
  rw [hw, h1, h2]

end

section Cases

/-- positions in the order of their values, by insertion -/
def insertIdx (l : List Nat) (a : Nat) : List Nat → List Nat
  | [] => [a]
  | b :: t => if l.getD a 0 ≤ l.getD b 0 then a :: b :: t else b :: insertIdx l a t

def sortIdx (l : List Nat) : List Nat := (List.range l.length).foldr (insertIdx l) []

theorem insertIdx_perm (l : List Nat) (a : Nat) : ∀ t, (insertIdx l a t).Perm (a :: t)
  | [] => .refl _
  | b :: t => by
    unfold insertIdx
    split
    · exact .refl _
    · exact ((insertIdx_perm l a t).cons b).trans (.swap _ _ _)

theorem insertIdx_sorted (l : List Nat) (a : Nat) : ∀ t, t.Pairwise (fun a b => l.getD a 0 ≤ l.getD b 0) →
    (insertIdx l a t).Pairwise fun a b => l.getD a 0 ≤ l.getD b 0
  | [], _ => by simp [insertIdx]
  | b :: t, h => by
    rw [List.pairwise_cons] at h
    unfold insertIdx
    split
    · rename_i hab
      refine List.pairwise_cons.2 ⟨?_, List.pairwise_cons.2 h⟩
      intro x hx
      rcases List.mem_cons.1 hx with rfl | hx
      · exact hab
      · exact hab.trans (h.1 x hx)
    · rename_i hab
      refine List.pairwise_cons.2 ⟨?_, insertIdx_sorted l a t h.2⟩
      intro x hx
      rcases List.mem_cons.1 ((insertIdx_perm l a t).mem_iff.1 hx) with rfl | hx
      · omega
      · exact h.1 x hx

theorem sortIdx_sorts : SortsPositions sortIdx := by
  intro l
  unfold sortIdx
  generalize List.range l.length = r
  induction r with
  | nil => exact ⟨.refl _, .nil⟩
  | cons a r ih => exact ⟨(insertIdx_perm l a _).trans (ih.1.cons a), insertIdx_sorted l a _ ih.2⟩

/-- a matrix by its rows -/
def matrix (rows : List (List Int)) (i j : Nat) : Int := (rows.getD i []).getD j 0

/-- exact forward and reverse modes -/
def forwardOf (m n : Nat) (J : Nat → Nat → Int) (u : List Int) : List Int := (List.range m).map fun i => ∑ j ∈ Finset.range n, J i j * u.getD j 0

def reverseOf (n : Nat) (H : Nat → Nat → Int) (u : List Int) : List Int :=
  (List.range (2 * n)).map fun k => if k % 2 = 1 then ∑ i ∈ Finset.range n, H i (k / 2) * u.getD i 0 else 0

theorem forwardOf_ok (m n : Nat) (J : Nat → Nat → Int) : ForwardOne m n J (forwardOf m n J) := by
  intro u _
  refine ⟨by simp [forwardOf], fun i hi => ?_⟩
  simp [forwardOf, hi]

theorem reverseOf_ok (n : Nat) (H : Nat → Nat → Int) : ReverseTwo n H (reverseOf n H) := by
  intro u _ j hj
  have h1 : j * 2 + 1 < 2 * n := by omega
  have h2 : (j * 2 + 1) / 2 = j := by omega
  simp [reverseOf, h1, h2]

instance (p : List (List Nat)) (i j : Nat) : Decidable (InPattern p i j) := decidable_of_iff (j ∈ p.getD i []) mem_getD

/-- `inside` for lists which can be looked through -/
theorem inside_of {p : List (List Nat)} {row col : List Nat} (h : ∀ e ∈ row.zip col, InPattern p e.1 e.2) :
    ∀ k i j, Requested row col k i j → InPattern p i j := by
  intro k i j hq
  refine h (i, j) (List.mem_of_getElem? (i := k) ?_)
  rw [List.getElem?_zip_eq_some]
  exact hq

/-- the Jacobian of two functions of three variables; columns 0 and 1 share a color -/
def jacSample : Nat → Nat → Int := matrix [[2, 0, 3], [0, 5, 7]]

/-- two weighted sums; rows 0 and 1 share a color -/
def hesSample1 : Nat → Nat → Int := matrix [[1, 0, 4], [0, 6, 0], [4, 0, 9]]
def hesSample2 : Nat → Nat → Int := matrix [[-1, 0, 2], [0, 8, 0], [2, 0, 0]]

def jacPattern : List (List Nat) := [[0, 2], [1, 2]]
def hesPattern : List (List Nat) := [[0, 2], [1], [0, 2]]

theorem jac_valid : ValidRequest 2 3 jacPattern [1, 0, 1] [1, 0, 2] :=
  ⟨rfl, by decide, by decide, rfl, inside_of (by decide)⟩

theorem hes_valid : ValidRequest 3 3 hesPattern [2, 1, 0] [0, 1, 2] :=
  ⟨rfl, by decide, by decide, rfl, inside_of (by decide)⟩

theorem jac_covers : Covers 2 3 jacPattern jacSample := by unfold Covers; decide

theorem hes_covers : ∀ H ∈ [hesSample1, hesSample2], Covers 3 3 hesPattern H := by
  intro H hH
  rcases List.mem_cons.1 hH with rfl | hH
  · unfold Covers
    decide
  · rcases List.mem_cons.1 hH with rfl | hH
    · unfold Covers
      decide
    · cases hH

/-- the hypotheses hold for the sample; one place more than needed is in the vectors -/
example : ∃ w jac hes s, sparseForJacHessian sortIdx 2 3 (forwardOf 2 3 jacSample) [reverseOf 3 hesSample1, reverseOf 3 hesSample2] jacPattern
      [1, 0, 1] [1, 0, 2] [0, 0, 0, 11] hesPattern [2, 1, 0] [0, 1, 2] [[0, 0, 0], [0, 0, 0, 12]] Work.empty = some (w, jac, hes, s) ∧
    Stored [1, 0, 1] [1, 0, 2] jacSample jac ∧ List.Forall₂ (Stored [2, 1, 0] [0, 1, 2]) [hesSample1, hesSample2] hes :=
  elements_right sortIdx_sorts jac_valid hes_valid jac_covers (forwardOf_ok 2 3 jacSample) hes_covers
    (.cons (reverseOf_ok 3 hesSample1) (.cons (reverseOf_ok 3 hesSample2) .nil)) (by decide) rfl (by decide)

/-- two colors are enough for the sample: four sweeps -/
example : (sparseForJacHessian sortIdx 2 3 (forwardOf 2 3 jacSample) [reverseOf 3 hesSample1, reverseOf 3 hesSample2] jacPattern
      [1, 0, 1] [1, 0, 2] [0, 0, 0, 11] hesPattern [2, 1, 0] [0, 1, 2] [[0, 0, 0], [0, 0, 0, 12]] Work.empty).map (fun r => (r.1.color, r.2)) =
    some ([0, 0, 1], [5, 2, 7, 11], [[4, 6, 4], [2, 8, 2, 12]], 4) := by decide +kernel

/-- a request for an element which is not in the pattern, with the assertions compiled out: its value is zero, another one is returned -/
theorem not_in_pattern_counterexample :
    Covers 1 2 [[0]] (matrix [[3, 0]]) ∧ Requested [0, 0] [0, 1] 1 0 1 ∧
      (sparseForJacHessian sortIdx 1 2 (forwardOf 1 2 (matrix [[3, 0]])) [] [[0]] [0, 0] [0, 1] [0, 0] [[], []] [] [] [] Work.empty).map (fun r => r.2.1) =
        some [3, 3] ∧ matrix [[3, 0]] 0 1 = 0 := by
  refine ⟨by unfold Covers; decide, ⟨rfl, rfl⟩, by decide +kernel, rfl⟩

end Cases
end Verif.Colors
