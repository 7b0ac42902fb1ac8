import Verif.Dae.LemmasDummy
import Verif.Dae.LemmasDummyQr
import Mathlib.Algebra.Field.Rat
import Mathlib.Tactic.NormNum.Basic
import Mathlib.Tactic.IntervalCases

/-
C72: the selection of dummy derivatives ends, and selects as many derivatives as there are differentiated equations;
the relations which are dropped follow from the equations.
-/
namespace Verif.Dae.Dummy

variable {K : Type} [Field K] [DecidableEq K] {S : Sys} {jac : Nat → Nat → K} {qr : QR} {sort : List Nat → List Nat}

theorem start_lists (hS : S.Ok) (hsort : ∀ l, (sort l).Perm l) :
    Lists (tops S.ne S.eqOf S.eqDer) (S.EStage 0) ∧ Lists (sort (tops S.nv S.anti S.der)) (S.VStage 0) := by
  refine ⟨tops_eqs hS, (hsort _).nodup_iff.2 (tops_vars hS).1, fun v => ?_⟩
  rw [(hsort _).mem_iff, (tops_vars hS).2]

theorem start_bound : ∀ i ∈ tops S.ne S.eqOf S.eqDer, i < S.ne + 1 := fun i h => by
  simp only [tops, List.mem_filter, List.mem_reverse, List.mem_range] at h
  omega

/-- The selection ends, and reads no columns which do not exist; assertions can fail only in debug builds. -/
theorem run_defined (hS : S.Ok) (hq : qr.Right jac) (hsort : ∀ l, (sort l).Perm l) (O : Opts) :
    (∃ d, addDummies S O jac qr sort = .ok d) ∨ addDummies S O jac qr sort = .exception ∨
    (O.debug = true ∧ addDummies S O jac qr sort = .assertion) := by
  have hs := start_lists hS hsort
  rcases stages_cases hS (O := O) hq (S.ne + 1) 0 _ _ [] hs.1 hs.2 start_bound (Nat.succ_pos _) (fun _ _ _ _ h => by cases h)
    with ⟨new, h, _⟩ | h | h
  · exact .inl ⟨_, h⟩
  · exact .inr (.inl h)
  · exact .inr (.inr ⟨h.1, h.2.1⟩)

/-- Derivatives are selected, none twice, as many as there are equations which were made by differentiation: there are
as many equations as variables without a relation to other variables. -/
theorem count_right (hS : S.Ok) (hq : qr.Right jac) (hsort : ∀ l, (sort l).Perm l) {O : Opts} {d : List Nat}
    (hrun : addDummies S O jac qr sort = .ok d) :
    d.Nodup ∧ (∀ v ∈ d, ∃ w, S.anti v = some w) ∧ ∀ l, Lists l (fun i => ∃ e, S.eqOf i = some e) → d.length = l.length := by
  have hs := start_lists hS hsort
  rcases stages_cases hS (O := O) hq (S.ne + 1) 0 _ _ [] hs.1 hs.2 start_bound (Nat.succ_pos _) (fun _ _ _ _ h => by cases h)
    with ⟨new, h, hf, _⟩ | h | h
  · rw [addDummies, h, List.nil_append] at hrun
    cases hrun
    refine ⟨hf.nodup, fun v hv => ?_, fun l hl => ?_⟩
    · obtain ⟨_, _, h⟩ := hf.at' v hv
      exact Option.isSome_iff_exists.1 h.2
    · obtain ⟨l', hl', hlen⟩ := hf.count
      rw [hlen]
      refine ((List.perm_ext_iff_of_nodup hl'.1 hl.1).2 fun i => ?_).length_eq
      rw [hl'.2, hl.2]
      constructor
      · rintro ⟨_, _, h⟩; exact Option.isSome_iff_exists.1 h.2
      · intro h
        obtain ⟨k, hk⟩ := elevel_exists hS i
        exact ⟨k, Nat.zero_le k, hk, Option.isSome_iff_exists.2 h⟩
  · rw [addDummies, h] at hrun; cases hrun
  · rw [addDummies, h.2.1] at hrun; cases hrun

/-- The dropped relations follow: if derivatives which are not dummy derivatives have the values of the rates of change,
all derivatives have, for the values for which the Jacobian was determined. Partial: stages in which all variables are
selected have to be regular; this is not checked. -/
theorem relations_kept_partial (hS : S.Ok) {M : Moment K} (hM : M.Right S) {normVar normEq : Nat → K}
    (hnv : ∀ v, normVar v ≠ 0) (hne : ∀ i, normEq i ≠ 0) (hjac : ∀ i v, jac i v = M.part i v * normVar v / normEq i)
    (hq : qr.Right jac) (hsort : ∀ l, (sort l).Perm l) {O : Opts} {d : List Nat} (hrun : addDummies S O jac qr sort = .ok d)
    (hreg : ∀ k eqs vars, Lists eqs (S.EStage k) → Lists vars (S.VStage k) → eqs.length = vars.length → Independent jac eqs vars)
    (hkept : ∀ w v, S.der w = some v → v ∉ d → M.rate w = M.val v) :
    ∀ w v, S.der w = some v → M.rate w = M.val v := by
  have hs := start_lists hS hsort
  rcases stages_cases hS (O := O) hq (S.ne + 1) 0 _ _ [] hs.1 hs.2 start_bound (Nat.succ_pos _) (fun _ _ _ _ h => by cases h)
    with ⟨new, h, _, hsolve⟩ | h | h
  · rw [addDummies, h, List.nil_append] at hrun
    cases hrun
    intro w v hw
    by_cases hv : v ∈ d
    · exact hsolve M normVar normEq hM (funext fun i => funext fun v => hjac i v) hnv hne hreg
        (fun w v _ _ h1 _ h3 => hkept w v h1 h3) w v hw hv
    · exact hkept w v hw hv
  · rw [addDummies, h] at hrun; cases hrun
  · rw [addDummies, h.2.1] at hrun; cases hrun

/-- If a regular selection is possible in every stage, one is made. -/
theorem selection_found (hS : S.Ok) (hq : qr.Right jac) (hsort : ∀ l, (sort l).Perm l) {O : Opts} (hO : O.debug = false)
    (hreg : ∀ k eqs vars, Lists eqs (S.EStage k) → Lists vars (S.VStage k) →
      ∃ sel, sel ⊆ vars ∧ Independent jac eqs sel ∧ sel.length = eqs.length) :
    ∃ d, addDummies S O jac qr sort = .ok d := by
  have hs := start_lists hS hsort
  rcases run_defined hS hq hsort O with h | h | h
  · exact h
  · exact absurd h (stages_succeed hS hq hreg _ 0 _ _ [] hs.1 hs.2 fun _ _ _ _ h => by cases h)
  · rw [hO] at h; cases h.1

/-- Variables to be avoided are selected in a stage only if every regular selection has such a variable. -/
theorem avoided_if_possible (hq : qr.Right jac) {O : Opts} {eqs vars d d' sel : List Nat} (hv : vars.Nodup)
    (hd : ∀ v ∈ vars, v ∉ d) (hsub : sel ⊆ vars) (hi : Independent jac eqs sel) (hlen : sel.length = eqs.length)
    (hav : ∀ v ∈ sel, O.avoid v = false) (hrun : select O jac qr eqs vars d = .ok d') : ∀ v ∈ d', v ∉ d → O.avoid v = false :=
  select_avoids hq hv hd hsub hi hlen hav hrun

/-- Whether variables which were algebraic are preferred makes no difference: the same derivatives are selected. -/
theorem option_no_influence (hS : S.Ok) (hq : qr.Right jac) (hsort : ∀ l, (sort l).Perm l) {O : Opts} {d : List Nat}
    (hrun : addDummies S O jac qr sort = .ok d) (b : Bool) :
    ∃ d2, addDummies S { O with algFirst := b } jac qr sort = .ok d2 ∧ d2.Perm d := by
  have hs := start_lists hS hsort
  exact stages_option hS hq b (S.ne + 1) 0 _ _ [] [] d hs.1 hs.2 (fun _ _ _ _ h => by cases h) (.refl _) hrun

/-- In the information about the new model exactly the relations of dummy derivatives are dropped. -/
theorem info_right (hS : S.Ok) (hq : qr.Right jac) (hsort : ∀ l, (sort l).Perm l) {O : Opts} {d : List Nat}
    (hrun : addDummies S O jac qr sort = .ok d) {tape : Nat → Nat}
    (htape : ∀ v w, v < S.nv → w < S.nv → tape v = tape w → v = w) {info : Nat → Info}
    (hinfo : ∀ v, v < S.nv → (info (tape v)).anti = (S.anti v).map tape ∧ (info (tape v)).der = (S.der v).map tape) :
    ∃ info', newInfo S tape info d = some info' ∧
      ∀ v w, v < S.nv → w < S.nv →
        ((info' (tape v)).anti = some (tape w) ↔ S.anti v = some w ∧ v ∉ d) ∧
        ((info' (tape w)).der = some (tape v) ↔ S.anti v = some w ∧ v ∉ d) := by
  obtain ⟨_, hanti, _⟩ := count_right hS hq hsort hrun
  obtain ⟨info', h1, h2⟩ := newInfo_right hS htape d info fun v hv => Option.isSome_iff_exists.2 (hanti v hv)
  refine ⟨info', h1, fun v w hv hw => ⟨?_, ?_⟩⟩
  · rw [(h2 v hv).1, (hinfo v hv).1]
    split
    case isTrue h => simp [h]
    case isFalse h =>
      simp only [h, not_false_eq_true, and_true, Option.map_eq_some_iff]
      constructor
      · rintro ⟨u, hu, hut⟩
        have := hS.anti_lt v u hu
        rw [htape u w (by omega) hw hut] at hu
        exact hu
      · exact fun h => ⟨w, h, rfl⟩
  · rw [(h2 w hw).2, (hinfo w hw).2]
    split
    case isTrue h =>
      obtain ⟨u, hu, hwu⟩ := h
      simp only [reduceCtorEq, false_iff, not_and, not_not]
      intro hvw
      have := (hS.anti_der v w).1 hvw
      rw [hwu] at this; cases this
      exact hu
    case isFalse h =>
      simp only [Option.map_eq_some_iff]
      constructor
      · rintro ⟨u, hu, hut⟩
        have h3 := (hS.anti_der u w).2 hu
        have := hS.anti_lt u w h3
        rw [htape u v (by omega) hv hut] at hu h3
        exact ⟨h3, fun hd => h ⟨v, hd, hu⟩⟩
      · exact fun h => ⟨v, (hS.anti_der v w).1 h.1, rfl⟩

/-! ### cases -/

/-- `x + 2 y = 0`, differentiated: variables `x y x' y'` -/
def line : Sys where
  nv := 4
  ne := 2
  anti := fun v => if v = 2 then some 0 else if v = 3 then some 1 else none
  der := fun v => if v = 0 then some 2 else if v = 1 then some 3 else none
  eqOf := fun i => if i = 1 then some 0 else none
  eqDer := fun i => if i = 0 then some 1 else none
  occurs := fun e w => (e = 0 ∧ w < 2) ∨ (e = 1 ∧ 2 ≤ w ∧ w < 4)

theorem line_ok : line.Ok where
  anti_der v w := by simp only [line]; split_ifs <;> simp <;> omega
  anti_lt v w := by simp only [line]; split_ifs <;> simp <;> omega
  eq_der v w := by simp only [line]; split_ifs <;> simp <;> omega
  eq_lt v w := by simp only [line]; split_ifs <;> simp <;> omega
  occurs_lt e w := by simp only [line]; omega
  occurs_der i e w := by
    simp only [line]
    intro h1 h2
    split_ifs at h1 with hi
    cases h1
    rcases h2 with ⟨_, h2⟩ | ⟨h2, _⟩
    · rcases (by omega : w = 0 ∨ w = 1) with rfl | rfl
      · exact ⟨2, rfl, by omega⟩
      · exact ⟨3, rfl, by omega⟩
    · omega

def linePart (e w : Nat) : ℚ :=
  if e = 0 then (if w = 0 then 1 else if w = 1 then 2 else 0) else if e = 1 then (if w = 2 then 1 else if w = 3 then 2 else 0) else 0

/-- a moment of a movement along the line, `x = -2 t`, `y = t` -/
def lineMoment : Moment ℚ where
  val := fun v => if v = 2 then -2 else if v = 3 then 1 else 0
  rate := fun v => if v = 0 then -2 else if v = 1 then 1 else 0
  part := linePart
  time := fun _ => 0

theorem line_right : lineMoment.Right line where
  part_occurs e w := by simp only [lineMoment, linePart, line]; split_ifs <;> simp <;> omega
  chain i e w v := by
    simp only [lineMoment, linePart, line]
    intro h1 h2 _
    split_ifs at h1 with hi
    cases h1
    split_ifs at h2 with h3 h4 <;> cases h2 <;> simp [hi, h3, *]
  rate_zero i e := by
    simp only [line]
    intro h1
    split_ifs at h1 with hi
    cases h1
    simp [lineMoment, linePart, Finset.sum_range_succ]
  holds i e := by
    simp only [line]
    intro h1
    split_ifs at h1 with hi
    cases h1
    simp [lineMoment, linePart, Finset.sum_range_succ, Moment.derVal, line]

theorem line_estage {k i : Nat} : line.EStage k i ↔ k = 0 ∧ i = 1 := by
  constructor
  · rintro ⟨h1, h2⟩
    simp only [line] at h2
    split_ifs at h2 with hi
    · refine ⟨?_, hi⟩
      refine elevel_unique h1 ?_
      simp [Sys.ELevel, line, hi]
    · cases h2
  · rintro ⟨rfl, rfl⟩
    exact ⟨rfl, rfl⟩

theorem line_vstage {k v : Nat} : line.VStage k v ↔ k = 0 ∧ (v = 2 ∨ v = 3) := by
  constructor
  · rintro ⟨h1, h2⟩
    simp only [line] at h2
    split_ifs at h2 with h3 h4
    · exact ⟨vlevel_unique h1 (by simp [Sys.VLevel, line, h3]), .inl h3⟩
    · exact ⟨vlevel_unique h1 (by simp [Sys.VLevel, line, h4]), .inr h4⟩
    · cases h2
  · rintro ⟨rfl, rfl | rfl⟩
    · exact ⟨rfl, rfl⟩
    · exact ⟨rfl, rfl⟩

theorem line_indep {c : Nat} (hc : c = 2 ∨ c = 3) {eqs : List Nat} (h : 1 ∈ eqs) : Independent linePart eqs [c] := by
  refine ⟨by simp, fun f hf v hv => ?_⟩
  have := hf 1 h
  simp only [List.mem_singleton] at hv
  subst hv
  rcases hc with rfl | rfl <;> simpa [linePart] using this

theorem line_lists {k : Nat} {eqs vars : List Nat} (he : Lists eqs (line.EStage k)) (hv : Lists vars (line.VStage k)) :
    (k = 0 ∧ eqs = [1] ∧ vars.Perm [2, 3]) ∨ (eqs = [] ∧ vars = []) := by
  by_cases hk : k = 0
  · refine .inl ⟨hk, ?_, ?_⟩
    · refine List.perm_singleton.1 ((List.perm_ext_iff_of_nodup he.1 (by simp)).2 fun a => ?_)
      rw [he.2, line_estage]; simp [hk]
    · refine (List.perm_ext_iff_of_nodup hv.1 (by simp)).2 fun a => ?_
      rw [hv.2, line_vstage]; simp [hk]
  · refine .inr ⟨List.eq_nil_iff_forall_not_mem.2 fun a ha => ?_, List.eq_nil_iff_forall_not_mem.2 fun a ha => ?_⟩
    · exact hk (line_estage.1 ((he.2 a).1 ha)).1
    · exact hk (line_vstage.1 ((hv.2 a).1 ha)).1

theorem line_select {k : Nat} {eqs vars : List Nat} (he : Lists eqs (line.EStage k)) (hv : Lists vars (line.VStage k)) :
    ∃ sel, sel ⊆ vars ∧ Independent linePart eqs sel ∧ sel.length = eqs.length := by
  rcases line_lists he hv with ⟨_, rfl, hp⟩ | ⟨rfl, rfl⟩
  · exact ⟨[2], by simpa using hp.mem_iff.2 (by simp), line_indep (.inl rfl) (by simp), rfl⟩
  · exact ⟨[], by simp, ⟨by simp, fun c _ v hv => by cases hv⟩, rfl⟩

theorem line_regular {k : Nat} {eqs vars : List Nat} (he : Lists eqs (line.EStage k)) (hv : Lists vars (line.VStage k))
    (hlen : eqs.length = vars.length) : Independent linePart eqs vars := by
  rcases line_lists he hv with ⟨_, rfl, hp⟩ | ⟨rfl, rfl⟩
  · have := hp.length_eq
    rw [← hlen] at this; cases this
  · exact ⟨by simp, fun c _ v hv => by cases hv⟩

/-- all hypotheses can be met: one derivative is selected, of one differentiated equation, and all relations are kept -/
example (b : Bool) : ∃ qr : QR, qr.Right linePart ∧ ∃ d, addDummies line ⟨false, b, fun _ => false, fun _ => true⟩ linePart qr id = .ok d ∧
    d.length = 1 ∧ ((∀ w v, line.der w = some v → v ∉ d → lineMoment.rate w = lineMoment.val v) →
      ∀ w v, line.der w = some v → lineMoment.rate w = lineMoment.val v) := by
  obtain ⟨qr, hq⟩ := qr_exists linePart
  obtain ⟨d, hd⟩ := selection_found (O := ⟨false, b, fun _ => false, fun _ => true⟩) line_ok hq (sort := id) (fun l => .refl l) rfl
    fun k eqs vars he hv => line_select he hv
  refine ⟨qr, hq, d, hd, (count_right line_ok hq (fun l => .refl l) hd).2.2 [1] ⟨by simp, fun i => ?_⟩, ?_⟩
  · simp only [line, List.mem_singleton]
    split_ifs with h <;> simp [h]
  · exact relations_kept_partial line_ok line_right (normVar := fun _ => 1) (normEq := fun _ => 1) (by simp) (by simp)
      (by simp [lineMoment]) hq (fun l => .refl l) hd fun k eqs vars he hv hlen => line_regular he hv hlen

/-- a user asks to avoid `x'`: it is not selected -/
example : ∃ qr : QR, qr.Right linePart ∧ ∃ d, select ⟨false, true, fun v => v == 2, fun _ => true⟩ linePart qr [1] [2, 3] [] = .ok d ∧
    ∀ v ∈ d, v ≠ 2 := by
  obtain ⟨qr, hq⟩ := qr_exists linePart
  have hi := line_indep (c := 3) (.inr rfl) (eqs := [1]) (by simp)
  have hn := select_succeeds (O := ⟨false, true, fun v => v == 2, fun _ => true⟩) hq (vars := [2, 3]) (d := []) (by simp) (by simp)
    (sel := [3]) (by simp) hi rfl
  rcases select_cases (O := ⟨false, true, fun v => v == 2, fun _ => true⟩) hq (eqs := [1]) (vars := [2, 3]) (d := []) (by simp) (by simp)
    with ⟨new, h, _⟩ | h | h
  · refine ⟨qr, hq, _, h, fun v hv h2 => ?_⟩
    have := avoided_if_possible hq (by simp) (by simp) (sel := [3]) (by simp) hi rfl (by simp) h v hv (by simp)
    subst h2; cases this
  · exact absurd h hn
  · cases h.1

/-- the option is documented to select derivatives of variables which were algebraic first: though `y'` can be
selected, and only `y` was algebraic, `x'` is selected -/
theorem option_counterexample : ∃ qr : QR, qr.Right linePart ∧ Independent linePart [1] [3] ∧
    addDummies line ⟨false, true, fun _ => false, fun v => v == 3⟩ linePart qr id = .ok [2] := by
  obtain ⟨qr, hq⟩ := qr_exists linePart
  have hle : ∀ l, Independent linePart [1] l → l.length ≤ 1 := fun l h => indep_le h
  refine ⟨fun rows cols => if rows = [1] ∧ cols = [3, 2] then some (1, [2, 3]) else qr rows cols, ⟨?_, ?_, ?_, ?_⟩,
    line_indep (.inr rfl) (by simp), ?_⟩
  · intro rows cols r p h
    split_ifs at h with hc
    · cases h; rw [hc.2]; exact .swap 3 2 []
    · exact hq.perm _ _ _ _ h
  · intro rows cols r p h
    split_ifs at h with hc
    · cases h; rw [hc.1]; exact Nat.le_refl 1
    · exact hq.rank_rows _ _ _ _ h
  · intro rows cols r p hn h
    split_ifs at h with hc
    · cases h; rw [hc.1]; exact ⟨line_indep (.inl rfl) (by simp), by simp⟩
    · exact hq.indep _ _ _ _ hn h
  · intro rows cols l hn hl hi
    split_ifs with hc
    · rw [hc.1] at hi; exact ⟨1, [2, 3], rfl, hle l hi⟩
    · exact hq.max _ _ _ hn hl hi
  · rfl

/-- `x² = 0`, differentiated: variables `x x'` -/
def dot : Sys where
  nv := 2
  ne := 2
  anti := fun v => if v = 1 then some 0 else none
  der := fun v => if v = 0 then some 1 else none
  eqOf := fun i => if i = 1 then some 0 else none
  eqDer := fun i => if i = 0 then some 1 else none
  occurs := fun e w => (e = 0 ∧ w = 0) ∨ (e = 1 ∧ w < 2)

theorem dot_ok : dot.Ok where
  anti_der v w := by simp only [dot]; split_ifs <;> simp <;> omega
  anti_lt v w := by simp only [dot]; split_ifs <;> simp <;> omega
  eq_der v w := by simp only [dot]; split_ifs <;> simp <;> omega
  eq_lt v w := by simp only [dot]; split_ifs <;> simp <;> omega
  occurs_lt e w := by simp only [dot]; omega
  occurs_der i e w := by
    simp only [dot]
    intro h1 h2
    split_ifs at h1 with hi
    cases h1
    rcases h2 with ⟨_, rfl⟩ | ⟨h2, _⟩
    · exact ⟨1, rfl, by omega⟩
    · omega

/-- `x = 0` at all times, with another value for `x'`: `2 x x' = 0` holds -/
def dotMoment : Moment ℚ where
  val := fun v => if v = 1 then 7 else 0
  rate := fun _ => 0
  part := fun e w => if e = 1 ∧ w = 0 then 14 else 0
  time := fun _ => 0

/-- If there are as many variables as equations, the matrix is not looked at: with a singular matrix a derivative is
selected, and the relation which is dropped does not follow. -/
theorem relations_counterexample (qr : QR) : dot.Ok ∧ dotMoment.Right dot ∧
    addDummies dot ⟨false, true, fun _ => false, fun _ => true⟩ dotMoment.part qr id = .ok [1] ∧
    (∀ w v, dot.der w = some v → v ∉ [1] → dotMoment.rate w = dotMoment.val v) ∧
    ¬ ∀ w v, dot.der w = some v → dotMoment.rate w = dotMoment.val v := by
  refine ⟨dot_ok, ⟨?_, ?_, ?_, ?_⟩, rfl, ?_, fun h => ?_⟩
  · intro e w h
    simp only [dotMoment, dot] at h ⊢
    split_ifs at h with hc
    · omega
    · exact absurd rfl h
  · intro i e w v h1 h2 h3
    simp only [dot] at h1 h2
    split_ifs at h1 with hi
    split_ifs at h2 with hw
    cases h1; cases h2
    simp [dotMoment]
  · intro i e h1
    simp only [dot] at h1
    split_ifs at h1 with hi
    cases h1
    simp [dotMoment]
  · intro i e h1
    simp only [dot] at h1
    split_ifs at h1 with hi
    cases h1
    simp [dotMoment]
  · intro w v h hv
    simp only [dot] at h
    split_ifs at h with hw
    cases h
    exact absurd (List.mem_singleton.2 rfl) hv
  · have := h 0 1 rfl
    simp [dotMoment] at this

/-- In debug builds the same selection fails with an assertion, which is made after the insertion, also if the matrix is
regular (`x = 0` instead of `x² = 0`). -/
theorem assertion_counterexample (qr : QR) :
    Independent (fun i v => if (i = 0 ∧ v = 0) ∨ (i = 1 ∧ v = 1) then (1 : ℚ) else 0) [1] [1] ∧
    addDummies dot ⟨true, true, fun _ => false, fun _ => true⟩
      (fun i v => if (i = 0 ∧ v = 0) ∨ (i = 1 ∧ v = 1) then (1 : ℚ) else 0) qr id = .assertion := by
  refine ⟨⟨by simp, fun c h v hv => ?_⟩, rfl⟩
  have := h 1 (by simp)
  simp only [List.mem_singleton] at hv
  subst hv
  simpa using this

/-- the information about the example: `x'` is a dummy derivative, `y` and `y'` stay related -/
example : ∃ info', newInfo line id (fun v => ⟨line.anti v, line.der v⟩) [2] = some info' ∧ info' 0 = ⟨none, none⟩ ∧
    info' 2 = ⟨none, none⟩ ∧ info' 1 = ⟨none, some 3⟩ ∧ info' 3 = ⟨some 1, none⟩ := ⟨_, rfl, rfl, rfl, rfl, rfl⟩

end Verif.Dae.Dummy
