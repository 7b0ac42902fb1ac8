import Verif.Subst.Lemmas
/-
C25: substituting an independent variable by the solution of an equation.

Parameters of all statements: those of `solveFor` (Verif/Solve/Props.lean).
-/
namespace Verif.Subst
open Verif.Codegen Verif.Cg Verif.Paths Verif.Eval Verif.Solve

section
variable {I : Interp ℝ} {ltr : Bool} {ord : Op → List Nat} {depth : Nat → Nat} {maxB fuel : Nat} {w w' : World ℝ}
  {indep dep : Nat} {is : List Nat}

/-- what `substituteIndependent` does when it succeeds -/
theorem substitute_steps {α : Type} {I : Interp α} {half : α} {w w' : World α} {remove : Bool}
    (e : substituteIndependent I half ltr ord depth maxB fuel w indep dep remove = .ok w') :
    ∃ j c w1 a, w.indeps.idxOf? indep = some j ∧ dep < w.nodes.length ∧
      solveFor I half ltr ord depth maxB fuel w dep indep = .ok (c, w1) ∧ solutionArg c = .ok a ∧
      w'.nodes = (setNode w1 indep ⟨.alias, [a]⟩).nodes ∧
      w'.indeps = if remove then w1.indeps.eraseIdx j else w1.indeps := by
  unfold substituteIndependent at e
  cases h1 : w.indeps.idxOf? indep with
  | none => rw [h1] at e; cases e
  | some j =>
    rw [h1] at e
    simp only at e
    split at e
    · cases e
    · rename_i h2
      cases h3 : solveFor I half ltr ord depth maxB fuel w dep indep with
      | error x => rw [h3] at e; cases e
      | ok q =>
        obtain ⟨c, w1⟩ := q
        rw [h3] at e
        simp only at e
        cases h4 : solutionArg c with
        | error x => rw [h4] at e; cases e
        | ok a =>
          rw [h4] at e
          cases e
          refine ⟨j, c, w1, a, rfl, by omega, rfl, h4, ?_, ?_⟩
          · split <;> rfl
          · split <;> rfl

theorem mem_of_idxOf? {l : List Nat} {a j : Nat} (h : l.idxOf? a = some j) : a ∈ l := by
  rw [List.idxOf?, List.findIdx?_eq_some_iff_getElem] at h
  obtain ⟨hj, h1, _⟩ := h
  have : l[j] = a := by simpa using h1
  exact this ▸ List.getElem_mem hj

theorem idxOf?_get {l : List Nat} {a j : Nat} (h : l.idxOf? a = some j) : ∃ hj : j < l.length, l[j] = a := by
  rw [List.idxOf?, List.findIdx?_eq_some_iff_getElem] at h
  obtain ⟨hj, h1, _⟩ := h
  exact ⟨hj, by simpa using h1⟩

/-- For any equation: when the solution `c` found by `solveFor` does not depend on the variable (and the
operations were properly extended), after a successful substitution of the input `indep` by `c`
* the operations are proper again (arguments exist, no cycles, ...), and so every input has exactly one
  evaluation,
* the operations recorded before have the values they had before the substitution with the value of `c`
  put in place of that of the variable (`c` evaluated in the operations `w1` before the substitution,
  with any value of the variable),
* the evaluations are exactly those of `w1` in which the variable has the value of the solution,
* the independent variables are the same, except for the one removed if that is wanted. -/
theorem substitute_meaning {α : Type} {I : Interp α} {half : α} {w w' w1 : World α} {c : Cg α} {remove : Bool}
    (hw : Recorded w) (hin : (w.graph indep).op = .inv) (hlt : indep < w.nodes.length)
    (e : substituteIndependent I half ltr ord depth maxB fuel w indep dep remove = .ok w')
    (hs : solveFor I half ltr ord depth maxB fuel w dep indep = .ok (c, w1))
    (hext : ∃ s, w1.nodes = w.nodes ++ s) (hind : w1.indeps = w.indeps) (hrec1 : Recorded w1)
    (hc : ∀ n, c.node = some n → n < w1.nodes.length ∧ ¬ Reaches w1.graph n indep) :
    Recorded w' ∧
      (∀ x, ∃ val, Computes I w' x val ∧ ∀ val', Computes I w' x val' → ∀ n, n < w'.nodes.length → val' n = val n) ∧
      (∀ x v val1, Computes I w1 (put x indep v) val1 → ∀ q, Denotes val1 c.node c.value q →
        ∀ val0, Computes I w (put x indep q) val0 → ∀ val', Computes I w' x val' →
          ∀ n, n < w.nodes.length → val' n = val0 n) ∧
      (∀ x val, Computes I w' x val ↔
        Computes I w1 (put x indep (val indep)) val ∧ Denotes val c.node c.value (val indep)) ∧
      (if remove then ∃ a b, w.indeps = a ++ indep :: b ∧ w'.indeps = a ++ b else w'.indeps = w.indeps) := by
  obtain ⟨j, c', w1', a, h1, hdep, h3, h4, h5, h6⟩ := substitute_steps e
  rw [hs] at h3
  cases h3
  obtain ⟨a1, a2, a3⟩ := solutionArg_ok h4
  have hext' : Ext w w1 := ⟨hext, [], by rw [hind, List.append_nil]⟩
  have hlt1 : indep < w1.nodes.length := Nat.lt_of_lt_of_le hlt (by obtain ⟨⟨s, hs⟩, _⟩ := hext'; rw [hs, List.length_append]; omega)
  have hrec2 : Recorded (setNode w1 indep ⟨.alias, [a]⟩) :=
    alias_recorded hrec1 hlt1 fun m hm => hc m ((a3 m).mp hm)
  -- the nodes of the result
  obtain ⟨⟨ndI, hI⟩, eI⟩ : ∃ q, w1.nodes[indep]? = some q := ⟨_, List.getElem?_eq_getElem hlt1⟩
  have hopI : ndI.op = .inv := by
    rw [← graph_of eI, graph_ext hext' hlt]; exact hin
  have hndI : ndI = ⟨.inv, []⟩ := by
    have := hrec1.arity indep ndI hI eI
    rw [hopI] at this
    obtain ⟨op, args⟩ := ndI
    cases hopI
    have h0 : args = [] := List.length_eq_zero_iff.mp this
    rw [h0]
  subst hndI
  have hcomp : ∀ x val, Computes I w' x val ↔ Computes I (setNode w1 indep ⟨.alias, [a]⟩) x val := by
    intro x val
    unfold Computes; rw [h5]
  have hiff : ∀ x val, Computes I w' x val ↔
      Computes I w1 (put x indep (val indep)) val ∧ Denotes val c.node c.value (val indep) := by
    intro x val
    rw [hcomp, alias_computes eI]
    constructor
    · rintro ⟨k1, k2⟩; exact ⟨k1, k2 ▸ a1 val⟩
    · rintro ⟨k1, k2⟩; exact ⟨k1, a2 val _ k2⟩
  have hdecl : ∀ m, m ≠ indep → m ∈ w1.indeps → m ∈ w'.indeps := by
    intro m hm hmem
    rw [h6]
    split
    · rw [hind] at hmem ⊢
      obtain ⟨hj, hja⟩ := idxOf?_get h1
      rw [List.mem_eraseIdx_iff_getElem?]
      obtain ⟨k, hk⟩ := List.getElem?_of_mem hmem
      refine ⟨k, ?_, hk⟩
      rintro rfl
      rw [List.getElem?_eq_getElem hj, hja] at hk
      exact hm (Option.some.inj hk).symm
    · exact hmem
  have hrec' : Recorded w' := by
    refine ⟨?_, ?_, ?_, ?_, ?_⟩
    · rw [h5]; exact hrec2.one
    · rw [h5]; exact hrec2.args
    · rw [h5]; exact hrec2.arity
    · rw [h5]; exact hrec2.acyclic
    · intro n nd h en hop
      rw [h5] at en
      rcases setNode_cases en with ⟨_, rfl, _⟩ | ⟨hm, e'⟩
      · cases hop
      · exact hdecl n hm (hrec1.declared n nd h e' hop)
  refine ⟨hrec', computes_unique hrec' I, ?_, hiff, ?_⟩
  · intro x v val1 hv1 q hq val0 hv0 val' hv' n hn
    obtain ⟨k1, k2⟩ := (hiff x val').mp hv'
    have hqv : val' indep = q := by
      cases hcn : c.node with
      | none =>
        unfold Denotes at k2 hq
        rw [hcn] at k2 hq
        simp only at k2 hq
        rw [k2] at hq
        exact Option.some.inj hq
      | some m =>
        unfold Denotes at k2 hq
        rw [hcn] at k2 hq
        simp only at k2 hq
        obtain ⟨l1, l2⟩ := hc m hcn
        have := computes_avoid hrec1 hv1 k1 (v := indep) (fun m hm => by unfold put; rw [if_neg hm, if_neg hm]) m l1 l2
        rw [← k2, ← hq, this]
    obtain ⟨val2, _, l2⟩ := computes_unique hw I (put x indep q)
    rw [l2 _ hv0 n hn]
    rw [hqv] at k1
    exact l2 _ (Ext.computes hext' k1) n hn
  · obtain ⟨hj, hja⟩ := idxOf?_get h1
    rw [h6, hind]
    split
    · refine ⟨w.indeps.take j, w.indeps.drop (j + 1), ?_, ?_⟩
      · conv_lhs => rw [← List.take_append_drop j w.indeps, List.drop_eq_getElem_cons hj, hja]
      · rw [List.eraseIdx_eq_take_drop_succ]
    · rfl


/-- after solving an equation with a single occurrence of the variable -/
theorem solved_single {α : Type} [DecidableEq α] {I : Interp α} (L : Laws I) {half : α} {w w1 : World α} {c : Cg α} (hw : Recorded w)
    (hd : ∀ n, n < depth n) (hne : dep ≠ indep) (his : ∀ is', Route w.graph dep is' indep ↔ is' = is)
    (h3 : solveFor I half ltr ord depth maxB (fuel + 1) w dep indep = .ok (c, w1)) :
    Grow w w1 ∧ Recorded w1 ∧ VaC none w1 c := by
  have hgrow := solveFor_grow L hw hd his hne h3
  -- operations after solving
  have hok1 : ∃ h0, OkW h0 none w1 ∧ VaC none w1 c := by
    obtain ⟨h0, hok⟩ := hw.ok none (fun v h => by cases h)
    unfold solveFor at h3
    rw [if_neg hne, solveLoop_single hw.closed hw.ranked hd his] at h3
    rcases solvePath_spec (L) (half := half) (ltr := ltr) hok hw.shaped is dep w (.const I.zero)
        (fun _ => some I.zero) ((his is).mpr rfl) (fun u hu => by cases hu) (Grow.refl _) hok
        (vaC_const _ _ _) (den_const _ _ _) with ⟨_, h2⟩ | ⟨_, h2⟩
    · obtain ⟨r', w'', e', _, ho, hv, _⟩ := h2.ex
      rw [h3] at e'; cases e'; exact ⟨h0, ho, hv⟩
    · rw [h2] at h3; cases h3
  obtain ⟨h0, hok1, hva⟩ := hok1
  refine ⟨hgrow, ?_, hva⟩
  · obtain ⟨rank, hrank⟩ := hgrow.acyclic hw.ranked
    refine ⟨⟨h0, hok1.own⟩, ?_, ?_, ⟨rank, ?_⟩, ?_⟩
    · intro n nd h en m hm
      exact hok1.closed n nd h en m (mem_argNodes.mpr hm)
    · intro n nd h en
      have := hgrow.shaped hw.shaped n
      rw [graph_of en] at this; exact this
    · intro n nd h en m hm
      exact hrank n m (by unfold kids; rw [graph_of en]; exact mem_argNodes.mpr hm)
    · intro n nd h en hop
      rw [hgrow.indeps]
      exact hw.declared n nd h (hgrow.inputs n nd h en hop) hop

/-- Missing for the full claim: an equation which is the variable itself, where it is false
(`substitute_self_counterexample`), and variables occurring on several routes of the equation.

After a successful substitution of the input `indep` by the solution of `dep = 0`
* the operations are proper again (arguments exist, no cycles, ...), and so every input has exactly one
  evaluation,
* there is an object `c`, the solution, which does not depend on the variable; in every evaluation the
  operations recorded before have the values they had before the substitution with the value of `c` put
  in place of that of the variable (`c` evaluated in the operations `w1` before the substitution, with
  any value of the variable),
* the evaluations are exactly those of `w1` in which the variable has the value of the solution,
* the equation `dep = 0` holds in every evaluation in which it can be solved,
* the independent variables are the same, except for the one removed if that is wanted. -/
theorem substitute_correct_partial (R : RealI I) (hw : Recorded w) (hd : ∀ n, n < depth n)
    (hin : (w.graph indep).op = .inv) (hlt : indep < w.nodes.length) (hne : dep ≠ indep)
    (his : ∀ is', Route w.graph dep is' indep ↔ is' = is)
    {remove : Bool} (e : substituteIndependent I (1 / 2) ltr ord depth maxB (fuel + 1) w indep dep remove = .ok w') :
    ∃ (c : Cg ℝ) (w1 : World ℝ), (∃ s, w1.nodes = w.nodes ++ s) ∧ Recorded w1 ∧ Recorded w' ∧
      (∀ n, c.node = some n → n < w1.nodes.length ∧ ¬ Reaches w1.graph n indep) ∧
      (∀ x, ∃ val, Computes I w' x val ∧ ∀ val', Computes I w' x val' → ∀ n, n < w'.nodes.length → val' n = val n) ∧
      (∀ x v val1, Computes I w1 (put x indep v) val1 → ∀ q, Denotes val1 c.node c.value q →
        ∀ val0, Computes I w (put x indep q) val0 → ∀ val', Computes I w' x val' →
          ∀ n, n < w.nodes.length → val' n = val0 n) ∧
      (∀ x val, Computes I w' x val ↔
        Computes I w1 (put x indep (val indep)) val ∧ Denotes val c.node c.value (val indep)) ∧
      (∀ x val, Computes I w' x val → (∃ q, Need I w.graph val dep is 0 q) → val dep = 0) ∧
      (if remove then ∃ a b, w.indeps = a ++ indep :: b ∧ w'.indeps = a ++ b else w'.indeps = w.indeps) := by
  have dec : DecidableEq ℝ := Classical.decEq ℝ
  obtain ⟨j, c, w1, a, h1, hdep, h3, h4, h5, h6⟩ := substitute_steps e
  have hgrow := solveFor_grow (real_laws R) hw hd his hne h3
  obtain ⟨_, hc2, _, _, hc5⟩ := solveFor_correct_partial R hw hd hdep hne his h3
  have hrec1 := (solved_single (real_laws R) hw hd hne his h3).2.1
  obtain ⟨k1, k2, k3, hiff, k5⟩ := substitute_meaning hw hin hlt e h3 hgrow.ext.1 hgrow.indeps hrec1 hc2
  refine ⟨c, w1, hgrow.ext.1, hrec1, k1, hc2, k2, k3, hiff, ?_, k5⟩
  · intro x val hx hq
    obtain ⟨k1, k2⟩ := (hiff x val).mp hx
    refine hc5 (fun j => val (w1.indeps.getD j 0)) val ⟨?_, ?_⟩ hq k2
    · intro j n hj
      simp only [List.getD_eq_getElem?_getD, hj]; rfl
    · intro n nd h en hop
      have := k1 n nd h en
      rwa [if_neg hop] at this

/-- It succeeds exactly when the variable is declared, the equation belongs to the handler and can be
solved. -/
theorem substitute_succeeds {α : Type} [DecidableEq α] {I : Interp α} (L : Laws I) {half : α} {w : World α} {remove : Bool}
    (hw : Recorded w) (hd : ∀ n, n < depth n) (hne : dep ≠ indep) (his : ∀ is', Route w.graph dep is' indep ↔ is' = is) :
    (∃ w', substituteIndependent I half ltr ord depth maxB (fuel + 1) w indep dep remove = .ok w') ↔
      indep ∈ w.indeps ∧ dep < w.nodes.length ∧
        ∃ r, solveFor I half ltr ord depth maxB (fuel + 1) w dep indep = .ok r := by
  constructor
  · rintro ⟨w', e⟩
    obtain ⟨j, c, w1, a, h1, hdep, h3, _⟩ := substitute_steps e
    exact ⟨mem_of_idxOf? h1, hdep, _, h3⟩
  · rintro ⟨h1, h2, ⟨c, w1⟩, h3⟩
    obtain ⟨_, _, hv⟩ := solved_single L hw hd hne his h3
    obtain ⟨j, hj⟩ : ∃ j, w.indeps.idxOf? indep = some j := by
      cases h : w.indeps.idxOf? indep with
      | some j => exact ⟨j, rfl⟩
      | none => rw [List.idxOf?_eq_none_iff] at h; exact absurd h1 h
    obtain ⟨a, ha⟩ : ∃ a, solutionArg c = .ok a := by
      unfold solutionArg
      cases hn : c.node with
      | some n => exact ⟨_, rfl⟩
      | none =>
        have := hv.reg
        unfold OkReg at this
        rw [hn] at this
        simp only at this
        cases hc : c.value with
        | none => rw [hc] at this; cases this
        | some v => exact ⟨_, rfl⟩
    unfold substituteIndependent
    rw [hj]
    simp only
    rw [if_neg (by omega), h3]
    simp only
    rw [ha]
    exact ⟨_, rfl⟩

/-- the hypotheses are met: the substitution of `x` by the solution of `exp(x * y) - 2 = 0` succeeds -/
example (ltr : Bool) (ord : Op → List Nat) (fuel : Nat) (remove : Bool) : ∃ w', substituteIndependent realI (1 / 2) ltr ord
    (· + 1) (2 ^ 64 - 1) (fuel + 1) exW 0 4 remove = .ok w' ∧ ∀ x val, Computes realI w' x val → x 1 ≠ 0 →
      val 4 = 0 := by
  obtain ⟨r, w1, e, _⟩ := exW_solved ltr ord fuel
  have dec : DecidableEq ℝ := Classical.decEq ℝ
  obtain ⟨w', h⟩ := (substitute_succeeds (remove := remove) (real_laws realI_real) exW_recorded (fun n => Nat.lt_succ_self n)
    (by simp) exW_route).mpr ⟨by simp [exW], by simp [exW], _, e⟩
  refine ⟨w', h, ?_⟩
  obtain ⟨c, w1, hs, _, _, _, _, _, h1, h2, _⟩ := substitute_correct_partial realI_real exW_recorded
    (fun n => Nat.lt_succ_self n) rfl (by simp [exW]) (by simp) exW_route h
  intro x val hv hx
  refine h2 x val hv ⟨Real.log 2 / val 1, ?_⟩
  have hy : val 1 = x 1 := by
    have := ((h1 x val).mp hv).1 1 ⟨.inv, []⟩ 0 (by obtain ⟨s, hs⟩ := hs; rw [hs]; rfl)
    rw [if_pos rfl] at this
    rw [this]; rfl
  rw [← hy] at hx
  refine .step (v := 2) (m := 3) rfl ?_ trivial (.step (v := Real.log 2) (m := 2) rfl ?_ trivial
    (.step (v := Real.log 2 / val 1) (m := 0) rfl ?_ hx .here))
  · show some ((2 : ℝ) - 2) = some 0; norm_num
  · show some (Real.exp (Real.log 2)) = some 2
    rw [Real.exp_log (by norm_num)]
  · show some (Real.log 2 / val 1 * val 1) = some (Real.log 2)
    rw [div_mul_cancel₀ _ hx]

/-! ### the opposite -/

/-- A substitution which kept the variable can be undone: all operations are again what they were, only
those created to find the solution are still there, and the independent variables are the same. -/
theorem undo_restores (R : RealI I) (hw : Recorded w) (hd : ∀ n, n < depth n)
    (hin : (w.graph indep).op = .inv) (hlt : indep < w.nodes.length) (hne : dep ≠ indep)
    (his : ∀ is', Route w.graph dep is' indep ↔ is' = is)
    (e : substituteIndependent I (1 / 2) ltr ord depth maxB (fuel + 1) w indep dep false = .ok w') :
    ∃ w'', undoSubstituteIndependent w' indep = .ok w'' ∧ (∃ s, w''.nodes = w.nodes ++ s) ∧ w''.indeps = w.indeps ∧
      Recorded w'' := by
  have dec : DecidableEq ℝ := Classical.decEq ℝ
  obtain ⟨j, c, w1, a, h1, hdep, h3, h4, h5, h6⟩ := substitute_steps e
  obtain ⟨hg, hrec1, _⟩ := solved_single (real_laws R) hw hd hne his h3
  rw [if_neg (by simp)] at h6
  obtain ⟨s, hs⟩ := hg.ext.1
  have hlt1 : indep < w1.nodes.length := by rw [hs, List.length_append]; omega
  obtain ⟨⟨ndI, hI⟩, eI⟩ : ∃ q, w1.nodes[indep]? = some q := ⟨_, List.getElem?_eq_getElem hlt1⟩
  have hndI : ndI = ⟨.inv, []⟩ := by
    have hopI : ndI.op = .inv := by
      rw [← graph_of eI, graph_ext hg.ext hlt]; exact hin
    have := hrec1.arity indep ndI hI eI
    rw [hopI] at this
    obtain ⟨op, args⟩ := ndI
    cases hopI
    have h0 : args = [] := List.length_eq_zero_iff.mp this
    rw [h0]
  subst hndI
  have hw' : w' = setNode w1 indep ⟨.alias, [a]⟩ := by
    obtain ⟨n', i'⟩ := w'
    simp only at h5 h6
    subst h5 h6
    rfl
  refine ⟨w1, ?_, ⟨s, hs⟩, hg.indeps, hrec1⟩
  unfold undoSubstituteIndependent
  rw [if_pos (by rw [h6, hg.indeps]; exact mem_of_idxOf? h1), hw', setNode_set, setNode_self eI]

/-- what was recorded has the original meaning when only operations were added -/
theorem appended_meaning {α : Type} {I : Interp α} {w w'' : World α} (hext : ∃ s, w''.nodes = w.nodes ++ s)
    (hw : Recorded w) {x val val'' : Nat → α} (h : Computes I w x val) (h'' : Computes I w'' x val'') :
    ∀ n, n < w.nodes.length → val'' n = val n := by
  intro n hn
  obtain ⟨v, _, hv⟩ := computes_unique hw I x
  rw [hv _ h n hn]
  refine hv _ ?_ n hn
  intro m nd k ek
  obtain ⟨s, hs⟩ := hext
  exact h'' m nd k (by rw [hs]; exact getElem?_append_some _ ek)

/-- a substitution which removed the variable cannot be undone -/
theorem undo_removed {α : Type} {I : Interp α} {half : α} {w w' : World α} (hnd : w.indeps.Nodup)
    (hind : ∀ c w1, solveFor I half ltr ord depth maxB fuel w dep indep = .ok (c, w1) → w1.indeps = w.indeps)
    (e : substituteIndependent I half ltr ord depth maxB fuel w indep dep true = .ok w') :
    undoSubstituteIndependent w' indep = .error .exception := by
  obtain ⟨j, c, w1, a, h1, hdep, h3, h4, h5, h6⟩ := substitute_steps e
  have : indep ∉ w'.indeps := by
    rw [h6, if_pos rfl, hind c w1 h3]
    obtain ⟨hj, hja⟩ := idxOf?_get h1
    intro hmem
    rw [List.mem_eraseIdx_iff_getElem] at hmem
    obtain ⟨k, hk, hkj, hke⟩ := hmem
    exact hkj ((List.Nodup.getElem_inj_iff hnd).mp (hke.trans hja.symm))
  unfold undoSubstituteIndependent
  rw [if_neg this]

/-! ### removal -/

/-- `removeIndependent` succeeds exactly for declared variables which were substituted; it removes that
variable and changes nothing else. In particular a variable which is still an input is refused. -/
theorem removeIndependent_iff {α : Type} {w w' : World α} {n : Nat} : removeIndependent w n = .ok w' ↔
    (w.graph n).op = .alias ∧ w'.nodes = w.nodes ∧
      ∃ a b, w.indeps = a ++ n :: b ∧ n ∉ a ∧ w'.indeps = a ++ b := by
  have key : ∀ j, w.indeps.idxOf? n = some j ↔ ∃ a b, w.indeps = a ++ n :: b ∧ n ∉ a ∧ a.length = j := by
    intro j
    rw [List.idxOf?, List.findIdx?_eq_some_iff_getElem]
    constructor
    · rintro ⟨hj, h1, h2⟩
      refine ⟨w.indeps.take j, w.indeps.drop (j + 1), ?_, ?_, ?_⟩
      · have h1' : w.indeps[j] = n := by simpa using h1
        conv_lhs => rw [← List.take_append_drop j w.indeps, List.drop_eq_getElem_cons hj, h1']
      · intro hm
        obtain ⟨k, hk, hke⟩ := List.mem_iff_getElem.mp hm
        rw [List.length_take] at hk
        have := h2 k (by omega)
        rw [List.getElem_take] at hke
        simp [hke] at this
      · rw [List.length_take]; omega
    · rintro ⟨a, b, hab, hna, hl⟩
      have hj : j < w.indeps.length := by rw [hab, List.length_append, List.length_cons]; omega
      have hg : ∀ k (hk : k < w.indeps.length), w.indeps[k] = (a ++ n :: b)[k]'(by rw [← hab]; exact hk) := by
        intro k hk; simp only [hab]
      refine ⟨hj, ?_, ?_⟩
      · rw [hg j hj, List.getElem_append_right (by omega)]
        simp [hl]
      · intro k hk
        rw [hg k (by omega), List.getElem_append_left (by omega)]
        simp only [beq_iff_eq]
        intro h
        exact hna (h ▸ List.getElem_mem _)
  unfold removeIndependent
  constructor
  · intro h
    split at h
    · cases h
    · rename_i hop
      have hop : (w.graph n).op = .alias := by simpa using hop
      split at h
      · cases h
      · rename_i j hj
        cases h
        obtain ⟨a, b, hab, hna, hl⟩ := (key j).mp hj
        refine ⟨hop, rfl, a, b, hab, hna, ?_⟩
        subst hl
        show w.indeps.eraseIdx a.length = _
        rw [hab, List.eraseIdx_append_of_length_le (by omega)]
        simp
  · rintro ⟨hop, hn, a, b, hab, hna, hi⟩
    rw [if_neg (by simp [hop]), (key a.length).mpr ⟨a, b, hab, hna, rfl⟩]
    simp only
    congr 1
    obtain ⟨n', i'⟩ := w'
    simp only at hn hi
    subst hn hi
    congr 1
    rw [hab, List.eraseIdx_append_of_length_le (by omega)]
    simp

/-- refusal is an exception, never undefined behaviour -/
theorem removeIndependent_refuses {α : Type} {w : World α} {n : Nat} (h : (w.graph n).op ≠ .alias ∨ n ∉ w.indeps) :
    removeIndependent w n = .error .exception := by
  unfold removeIndependent
  by_cases ho : (w.graph n).op = .alias
  · rw [if_neg (by simp [ho])]
    rcases h with h | h
    · exact absurd ho h
    · have : w.indeps.idxOf? n = none := List.idxOf?_eq_none_iff.mpr h
      rw [this]
  · rw [if_pos ho]

end

/-- Substituting a variable by the solution of the equation `x = 0`, given as the variable itself, makes
the variable an alias of itself: there is an operation without value, so no longer any finite evaluation
order. -/
theorem substitute_self_counterexample {α : Type} (I : Interp α) (half : α) (ltr : Bool) (ord : Op → List Nat)
    (depth : Nat → Nat) (maxB fuel : Nat) : ∃ (w w' : World α), Recorded w ∧ (w.graph 0).op = .inv ∧ 0 < w.nodes.length ∧
      substituteIndependent I half ltr ord depth maxB fuel w 0 0 true = .ok w' ∧
      (w'.graph 0).args = [.node 0] ∧ ¬ Recorded w' ∧ ∀ x (v : α), ∃ val, Computes I w' x val ∧ val 0 = v := by
  refine ⟨⟨[(⟨.inv, []⟩, 0)], [0]⟩, ⟨[(⟨.alias, [.node 0]⟩, 0)], []⟩, ?_, rfl, by simp, ?_, rfl, ?_, ?_⟩
  · have h1 : ∀ {P : Nat → Node α → Nat → Prop}, P 0 ⟨.inv, []⟩ 0 → ∀ (n : Nat) nd h,
        ([(⟨.inv, []⟩, 0)] : List (Node α × Nat))[n]? = some (nd, h) → P n nd h := by
      intro P h0 n nd h e
      match n with
      | 0 => cases e; exact h0
      | n + 1 => cases e
    exact ⟨⟨0, h1 rfl⟩, h1 (fun m hm => by cases hm), h1 rfl, ⟨id, h1 (fun m hm => by cases hm)⟩, h1 (by simp)⟩
  · unfold substituteIndependent
    have : ([0] : List Nat).idxOf? 0 = some 0 := rfl
    simp only [this]
    rw [if_neg (by simp), solveFor_self_counterexample]
    rfl
  · rintro ⟨_, _, _, ⟨rank, h⟩, _⟩
    have := h 0 _ 0 rfl 0 (by simp)
    omega
  · intro x v
    refine ⟨fun _ => v, ?_, rfl⟩
    intro n nd h e
    match n with
    | 0 => cases e; rfl
    | n + 1 => cases e

end Verif.Subst
