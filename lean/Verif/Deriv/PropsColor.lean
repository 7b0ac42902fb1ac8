import Verif.Deriv.LemmasColor
/-
C48: the sparsity patterns of the Hessians of the equations.
-/
namespace Verif.Deriv
open Verif.Sparsity (Pattern Entry indexes)

/-- The coloring: every row with elements has exactly one color, other rows have none; rows of one color have no considered
column in common; the map gives for a column the row of the color which has it. -/
theorem coloring_correct (columns : Option (List Nat)) {p : Pattern} (hs : Verif.Sparsity.Sorted p) :
    (∀ r, (∃ c ∈ colorByRow columns p, r ∈ c.rows) ↔ ∃ row, p[r]? = some row ∧ row ≠ []) ∧
    (colorByRow columns p).Pairwise (fun c d => ∀ r ∈ c.rows, r ∉ d.rows) ∧
    ∀ c ∈ colorByRow columns p,
      (∀ r ∈ c.rows, ∀ r' ∈ c.rows, ∀ j, (∀ cs, columns = some cs → j ∈ cs) → Entry p r j → Entry p r' j → r = r') ∧
      (∀ j, j ∈ c.forbidden ↔ (∀ cs, columns = some cs → j ∈ cs) ∧ ∃ r ∈ c.rows, Entry p r j) ∧
      (∀ j r, mapAt c.column2Row j = .ok r ↔ r ∈ c.rows ∧ (∀ cs, columns = some cs → j ∈ cs) ∧ Entry p r j) := by
  have hred : ∀ r j, j ∈ reduceRow columns (p.getD r []) ↔ (∀ cs, columns = some cs → j ∈ cs) ∧ Entry p r j := by
    intro r j
    have hE : j ∈ p.getD r [] ↔ Entry p r j := by
      rw [List.getD_eq_getElem?_getD]
      cases h : p[r]? with
      | none => simp [Entry, h]
      | some row => simp [Entry, h]
    cases columns with
    | none => simpa [reduceRow] using hE
    | some cs =>
      rw [← hE]
      simp [reduceRow, and_comm]
  obtain ⟨h1, h2, h3⟩ := colorLoop_ok (columns := columns) (redOf := fun r => reduceRow columns (p.getD r [])) p 0 [] hs
    (fun k row hk => by rw [Nat.zero_add, List.getD_eq_getElem?_getD, hk]; rfl) (fun c hc => by cases hc)
    (fun c hc => by cases hc) List.Pairwise.nil
  refine ⟨fun r => (h3 r).trans ?_, h2, fun c hc => ⟨fun r hr r' hr' j hj he he' => ?_, fun j => ?_, fun j r => ?_⟩⟩
  · simp
  · exact (h1 c hc).unique hr hr' ((hred r j).2 ⟨hj, he⟩) ((hred r' j).2 ⟨hj, he'⟩)
  · rw [(h1 c hc).forb]
    constructor
    · rintro ⟨r, hr, hj⟩
      obtain ⟨a, b⟩ := (hred r j).1 hj
      exact ⟨a, r, hr, b⟩
    · rintro ⟨a, r, hr, b⟩
      exact ⟨r, hr, (hred r j).2 ⟨a, b⟩⟩
  · rw [(h1 c hc).look, hred]

/-- `ForSparseJac` with the columns `seeds`: exactly the dependencies `Dep i j` of equation `i` on variable `j` -/
def ForwIs (forw : List Nat → Pattern) (m n : Nat) (Dep : Nat → Nat → Prop) : Prop :=
  ∀ seeds, (forw seeds).length = m ∧ Verif.Sparsity.Sorted (forw seeds) ∧
    ∀ i j, i < m → (Entry (forw seeds) i j ↔ j < n ∧ j ∈ seeds ∧ Dep i j)

/-- `RevSparseHes` for the sum of the equations `eqs`: in row `j` of `seeds` the union of rows `j` of the patterns `Hes i` of
the Hessians of the equations -/
def RevIs (rev : List Nat → List Nat → Pattern) (n : Nat) (Hes : Nat → Nat → Nat → Prop) : Prop :=
  ∀ seeds eqs, (rev seeds eqs).length = n ∧ ∀ j k, j < n → j ∈ seeds → (Entry (rev seeds eqs) j k ↔ ∃ i ∈ eqs, Hes i j k)

/-- The pattern found for each equation is its own, although the equations of one color are evaluated together. With
elements given by the user only the rows of variables which occur in them are known. -/
theorem equation_patterns {forw : List Nat → Pattern} {rev : List Nat → List Nat → Pattern} {m n : Nat}
    {Dep : Nat → Nat → Prop} {Hes : Nat → Nat → Nat → Prop} (hf : ForwIs forw m n Dep) (hr : RevIs rev n Hes)
    (hdep : ∀ i < m, ∀ j k, Hes i j k → Dep i j) (custom : Option (List (Nat × Nat))) :
    ∃ sps, equationPatterns forw rev m n custom = .ok sps ∧ sps.length = m ∧
      ∀ i p, sps[i]? = some p → p.length = n ∧ Verif.Sparsity.Sorted p ∧ ∀ j k, Entry p j k ↔
        j < n ∧ (∀ els, custom = some els → ∃ e ∈ els, j = e.1 ∨ j = e.2) ∧ Hes i j k := by
  let seeds := match custom with | none => List.range n | some els => customVars els
  have hjac : (match custom with | none => forw (List.range n) | some els => forw (customVars els)) = forw seeds := by
    cases custom <;> rfl
  have hrun : equationPatterns forw rev m n custom = eachColor rev (colorByRow (custom.map customVars) (forw seeds))
      (List.replicate m (List.replicate n [])) := by
    rw [← hjac]; rfl
  obtain ⟨hl, hsort, hent⟩ := hf seeds
  have hseed : ∀ j, j < n → (j ∈ seeds ↔ ∀ els, custom = some els → ∃ e ∈ els, j = e.1 ∨ j = e.2) := by
    intro j hj
    cases custom with
    | none => simp [seeds, hj]
    | some els => simp [seeds, mem_customVars]
  obtain ⟨c1, c2, c3⟩ := colorLoop_ok (columns := custom.map customVars)
    (redOf := fun r => reduceRow (custom.map customVars) ((forw seeds).getD r [])) (forw seeds) 0 [] hsort
    (fun k row hk => by rw [Nat.zero_add, List.getD_eq_getElem?_getD, hk]; rfl) (fun c hc => by cases hc)
    (fun c hc => by cases hc) List.Pairwise.nil
  have hred : ∀ r, r < m → ∀ j, j ∈ reduceRow (custom.map customVars) ((forw seeds).getD r []) ↔
      j < n ∧ j ∈ seeds ∧ Dep r j := by
    intro r hrm j
    have hE : j ∈ (forw seeds).getD r [] ↔ j < n ∧ j ∈ seeds ∧ Dep r j := by
      rw [← hent r j hrm, List.getD_eq_getElem?_getD, List.getElem?_eq_getElem (by rw [hl]; exact hrm)]
      simp [Entry, hl, hrm]
    cases custom with
    | none => simpa [reduceRow] using hE
    | some els =>
      simp only [Option.map_some, reduceRow, List.mem_filter, List.contains_iff_mem, hE]
      constructor
      · exact fun h => h.1
      · exact fun h => ⟨h, h.2.1⟩
  have hrows : ∀ r, (∃ c ∈ colorByRow (custom.map customVars) (forw seeds), r ∈ c.rows) → r < m := by
    intro r h
    rcases (c3 r).1 h with ⟨c, hc, _⟩ | ⟨k, row, rfl, hk, _⟩
    · cases hc
    · have := (List.getElem?_eq_some_iff.1 hk).1
      omega
  obtain ⟨sps, h1, h2⟩ := eachColor_ok (rev := rev) (fun s e => (hr s e).1) (colorByRow (custom.map customVars) (forw seeds))
    (List.replicate m (List.replicate n [])) _ (pats_empty m n) fun c hc =>
      ⟨c1 c hc, fun r hrc => hrows r ⟨c, hc, hrc⟩, fun j hj => by
        obtain ⟨r, hrc, hjr⟩ := ((c1 c hc).forb j).1 hj
        exact ((hred r (hrows r ⟨c, hc, hrc⟩) j).1 hjr).1⟩
  refine ⟨sps, ?_, h2.len, fun i p hp => ⟨h2.rows p (List.mem_of_getElem? hp), h2.sorted p (List.mem_of_getElem? hp),
    fun j k => ?_⟩⟩
  · exact hrun.trans h1
  · have him : i < m := by rw [← h2.len]; exact (List.getElem?_eq_some_iff.1 hp).1
    rw [h2.mem i p hp j k, false_or]
    constructor
    · rintro ⟨c, hc, hic, hj, hk⟩
      obtain ⟨hjn, hjs, hd⟩ := (hred i him j).1 hj
      have hjf : j ∈ c.forbidden := ((c1 c hc).forb j).2 ⟨i, hic, hj⟩
      obtain ⟨i', hi', hH⟩ := ((hr c.forbidden c.rows).2 j k hjn hjf).1 hk
      have him' := hrows i' ⟨c, hc, hi'⟩
      have : i = i' := (c1 c hc).unique hic hi' hj ((hred i' him' j).2 ⟨hjn, hjs, hdep i' him' j k hH⟩)
      subst this
      exact ⟨hjn, (hseed j hjn).1 hjs, hH⟩
    · rintro ⟨hjn, hcu, hH⟩
      have hjs := (hseed j hjn).2 hcu
      have hj := (hred i him j).2 ⟨hjn, hjs, hdep i him j k hH⟩
      obtain ⟨c, hc, hic⟩ := (c3 i).2 (.inr ⟨i, (forw seeds)[i]'(by rw [hl]; exact him), by omega,
        List.getElem?_eq_getElem _, fun e => by
          obtain ⟨row, hrow, hm⟩ := (hent i j him).2 ⟨hjn, hjs, hdep i him j k hH⟩
          rw [List.getElem?_eq_getElem (by rw [hl]; exact him), Option.some.injEq] at hrow
          rw [← hrow, e] at hm
          cases hm⟩)
      exact ⟨c, hc, hic, hj, ((hr c.forbidden c.rows).2 j k hjn (((c1 c hc).forb j).2 ⟨i, hic, hj⟩)).2 ⟨i, hic, hH⟩⟩

theorem mapE_get {α β : Type} {f : α → Except Err β} {g : α → β} : ∀ (l : List α), (∀ a ∈ l, f a = .ok (g a)) →
    mapE f l = .ok (l.map g)
  | [], _ => rfl
  | a :: l, h => by
    rw [mapE, h a List.mem_cons_self]
    simp only [mapE_get l fun b hb => h b (List.mem_cons_of_mem _ hb)]
    rfl

/-- The elements of the Hessian of each equation without elements given by the user: all of its pattern, each once, by rows. -/
theorem hessian_elements {forw : List Nat → Pattern} {rev : List Nat → List Nat → Pattern} {m n : Nat}
    {Dep : Nat → Nat → Prop} {Hes : Nat → Nat → Nat → Prop} (hf : ForwIs forw m n Dep) (hr : RevIs rev n Hes)
    (hdep : ∀ i < m, ∀ j k, Hes i j k → Dep i j) :
    ∃ ls, hessianElements forw rev m n none = .ok ls ∧ ls.length = m ∧
      ∀ i l, ls[i]? = some l → l.Pairwise (fun u v => u.1 < v.1 ∨ (u.1 = v.1 ∧ u.2 < v.2)) ∧
        ∀ j k, (j, k) ∈ l ↔ j < n ∧ Hes i j k := by
  obtain ⟨sps, h1, h2, h3⟩ := equation_patterns hf hr hdep none
  refine ⟨sps.map fun p => (indexes p).1.zip (indexes p).2, ?_, by rw [List.length_map, h2], fun i l hl => ?_⟩
  · rw [hessianElements, h1]
    exact mapE_get sps fun p _ => rfl
  · rw [List.getElem?_map] at hl
    obtain ⟨p, hp, rfl⟩ := Option.map_eq_some_iff.1 hl
    obtain ⟨_, hs, hm⟩ := h3 i p hp
    obtain ⟨_, _, ho, hmem⟩ := Verif.Sparsity.indexes_correct hs
    refine ⟨ho, fun j k => ?_⟩
    rw [hmem, hm]
    simp

/-- With elements given by the user: those of them which are in the pattern of the equation, in the order of the user. -/
theorem hessian_elements_custom {forw : List Nat → Pattern} {rev : List Nat → List Nat → Pattern} {m n : Nat}
    {Dep : Nat → Nat → Prop} {Hes : Nat → Nat → Nat → Bool} (hf : ForwIs forw m n Dep)
    (hr : RevIs rev n fun i j k => Hes i j k = true) (hdep : ∀ i < m, ∀ j k, Hes i j k = true → Dep i j)
    {els : List (Nat × Nat)} (hels : ∀ e ∈ els, e.1 < n) :
    hessianElements forw rev m n (some els) = .ok ((List.range m).map fun i => els.filter fun e => Hes i e.1 e.2) := by
  obtain ⟨sps, h1, h2, h3⟩ := equation_patterns hf hr hdep (some els)
  have hpick : ∀ (i : Nat) p, sps[i]? = some p → equationElements (some els) p = .ok (els.filter fun e => Hes i e.1 e.2) := by
    intro i p hp
    obtain ⟨hl, _, hm⟩ := h3 i p hp
    refine pick_ok (Q := Hes i) els (fun e he => by rw [hl]; exact hels e he) fun e he => ?_
    rw [hm]
    constructor
    · exact fun h => h.2.2
    · intro h
      refine ⟨hels e he, fun els' h' => ?_, h⟩
      rw [Option.some.injEq] at h'
      subst h'
      exact ⟨e, he, .inl rfl⟩
  have key : ∀ (sps : List Pattern) (i0 : Nat), (∀ k p, sps[k]? = some p →
      equationElements (some els) p = .ok (els.filter fun e => Hes (i0 + k) e.1 e.2)) →
      mapE (equationElements (some els)) sps =
        .ok ((List.range' i0 sps.length).map fun i => els.filter fun e => Hes i e.1 e.2) := by
    intro sps
    induction sps with
    | nil => intro i0 _; rfl
    | cons p sps ih =>
      intro i0 h
      rw [mapE, h 0 p rfl]
      simp only [ih (i0 + 1) fun k q hk => by
        rw [h (k + 1) q (by simpa using hk)]
        congr 3
        funext e
        congr 1
        omega]
      rfl
  rw [hessianElements, h1]
  simp only
  rw [key sps 0 fun k p hk => by rw [Nat.zero_add]; exact hpick k p hk, h2, List.range_eq_range']

/-! ### non-vacuity -/

/-- dependencies of x0², x1 x2, x0 + x1³ -/
def dep3 : Nat → Nat → Bool := fun i j => [(0, 0), (1, 1), (1, 2), (2, 0), (2, 1)].contains (i, j)

/-- their Hessians -/
def hes3 : Nat → Nat → Nat → Bool := fun i j k => [(0, 0, 0), (1, 1, 2), (1, 2, 1), (2, 1, 1)].contains (i, j, k)

def forw3 : List Nat → Pattern := fun seeds =>
  (List.range 3).map fun i => (List.range 3).filter fun j => seeds.contains j && dep3 i j

def rev3 : List Nat → List Nat → Pattern := fun seeds eqs =>
  (List.range 3).map fun j => (List.range 3).filter fun k => seeds.contains j && eqs.any fun i => hes3 i j k

example : colorByRow none (forw3 [0, 1, 2]) =
    [⟨[0, 1], [(2, 1), (1, 1), (0, 0)], [0, 1, 2]⟩, ⟨[2], [(1, 2), (0, 2)], [0, 1]⟩] := by decide +kernel

example : hessianElements forw3 rev3 3 3 none = .ok [[(0, 0)], [(1, 2), (2, 1)], [(1, 1)]] := by rfl

example : hessianElements forw3 rev3 3 3 (some [(2, 1), (1, 1)]) = .ok [[], [(2, 1)], [(1, 1)]] := by rfl

theorem sorted_filter_range (n : Nat) (q : Nat → Bool) : ((List.range n).filter q).Pairwise (· < ·) :=
  List.pairwise_lt_range.filter q

theorem forw3_is : ForwIs forw3 3 3 fun i j => dep3 i j = true := by
  intro seeds
  refine ⟨rfl, fun row hrow => ?_, fun i j hi => ?_⟩
  · obtain ⟨i, _, rfl⟩ := List.mem_map.1 hrow
    exact sorted_filter_range 3 _
  · simp [Entry, forw3, List.getElem?_range hi]

theorem rev3_is : RevIs rev3 3 fun i j k => hes3 i j k = true := by
  intro seeds eqs
  refine ⟨rfl, fun j k hj hs => ?_⟩
  simp only [Entry, rev3, List.getElem?_map, List.getElem?_range hj, Option.map_some, Option.some.injEq, exists_eq_left',
    List.mem_filter, List.mem_range, Bool.and_eq_true, List.contains_iff_mem, List.any_eq_true]
  constructor
  · exact fun h => h.2.2
  · rintro ⟨i, hi, h⟩
    refine ⟨?_, hs, i, hi, h⟩
    simp only [hes3, List.contains_iff_mem, List.mem_cons, Prod.mk.injEq, List.not_mem_nil, or_false] at h
    omega

example : ∃ ls, hessianElements forw3 rev3 3 3 none = .ok ls ∧ ls.length = 3 ∧
    ∀ i l, ls[i]? = some l → l.Pairwise (fun u v => u.1 < v.1 ∨ (u.1 = v.1 ∧ u.2 < v.2)) ∧
      ∀ j k, (j, k) ∈ l ↔ j < 3 ∧ hes3 i j k = true :=
  hessian_elements forw3_is rev3_is fun i _ j k h => by
    simp only [hes3, List.contains_iff_mem, List.mem_cons, Prod.mk.injEq, List.not_mem_nil, or_false] at h
    rcases h with ⟨rfl, rfl, rfl⟩ | ⟨rfl, rfl, rfl⟩ | ⟨rfl, rfl, rfl⟩ | ⟨rfl, rfl, rfl⟩ <;> rfl

end Verif.Deriv
