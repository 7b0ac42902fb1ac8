import Verif.Eval.LemmasCg
/-
C24: evaluation of the recorded operations for other values or types.
-/
namespace Verif.Eval
open Verif.Codegen Verif.Cg

variable {α A S : Type}

/-- functions evaluators know -/
def knownFns : List Fn := [.abs, .acos, .asin, .atan, .cosh, .cos, .exp, .log, .sinh, .sin, .sqrt, .tanh, .tan]

/-- number of arguments of each operation -/
def Arity (G : Graph α) (n : Nat) : Prop :=
  match (G n).op with
  | .inv => True
  | .assign | .alias | .un _ | .neg | .sign => ∃ a, (G n).args = [a]
  | .add | .sub | .mul | .div | .pow => ∃ a b, (G n).args = [a, b]
  | .cond _ => ∃ l r t f, (G n).args = [l, r, t, f]

/-- The graph below `roots` can be evaluated: it has no cycles and depth below `fuel`, operations have
their arguments, functions are known and independent variables declared. -/
structure Evaluable (G : Graph α) (rank : Nat → Nat) (fuel : Nat) (indeps roots : List Nat) : Prop where
  acyclic : ∀ n, Reach G roots n → ∀ m ∈ kids G n, rank m < rank n
  depth : ∀ d ∈ roots, rank d < fuel
  arity : ∀ n, Reach G roots n → Arity G n
  known : ∀ n f, Reach G roots n → (G n).op = .un f → f ∈ knownFns
  declared : ∀ n, Reach G roots n → (G n).op = .inv → n ∈ indeps

/-- operation nodes of the dependents -/
def depNodes (deps : List (Cg α)) : List Nat := deps.filterMap (·.node)

theorem visit_reach {E : Setup α A S} {roots : List Nat} {p : List (Nat × Nat)} {n : Nat}
    (h : Visit E roots p n) : Reach E.G roots n := by
  induction h with
  | root h => exact .root h
  | arg _ _ h ih => exact .kid ih (mem_kids_of h)

theorem arity_length {G : Graph α} {n : Nat} (h : Arity G n) (hi : (G n).op ≠ .inv) :
    (G n).args.length = arity (G n).op := by
  unfold Arity at h
  cases ho : (G n).op <;> rw [ho] at h <;> simp only at h
  case inv => exact absurd ho hi
  all_goals first
    | (obtain ⟨a, h⟩ := h; rw [h]; rfl)
    | (obtain ⟨a, b, h⟩ := h; rw [h]; rfl)
    | (obtain ⟨l, r, t, f, h⟩ := h; rw [h]; rfl)

theorem known_supported {f : Fn} (h : f ∈ knownFns) : supported f = true := by
  cases f <;> first | rfl | (simp [knownFns] at h)

theorem idxOf_declared {l : List Nat} {n : Nat} (h : n ∈ l) : ∃ j, l.idxOf? n = some j ∧ l[j]? = some n := by
  have : (l.idxOf? n).isSome = true := by
    rw [List.isSome_idxOf?]; exact h
  obtain ⟨j, hj⟩ := Option.isSome_iff_exists.mp this
  refine ⟨j, hj, ?_⟩
  rw [List.idxOf?_eq_some_iff] at hj
  obtain ⟨h1, h2⟩ := hj
  rw [List.getElem?_eq_getElem h1]
  exact congrArg some (by simpa using h2.1)

/-- the order of evaluation is one of the possible ones -/
def ProperOrder (G : Graph α) (ord : Nat → List Nat) : Prop :=
  ∀ n, (ord n).Perm (List.range (G n).args.length)

theorem means_of {E : Setup α A S} {I : Interp α} {Va : S → A → Prop} {Fin : S → Prop} {Den : A → α → Prop}
    {Dom : Op → List α → Prop} {rank : Nat → Nat} {fuel : Nat} {roots : List Nat} {s0 : S} {xf val : Nat → α}
    (hE : Evaluable E.G rank fuel E.indeps roots) (hhook : ∀ p n, E.hook p n = none)
    (hord : ProperOrder E.G E.ord) (hval : IsValuation I E.G E.indeps roots xf val)
    (hx : ∀ j, j < E.indeps.length → ∃ a, E.x[j]? = some a ∧ Va s0 a ∧ (Fin s0 → Den a (xf j)))
    (hdom : Fin s0 → ∀ n, Reach E.G roots n → (E.G n).op ≠ .inv → Dom (E.G n).op ((E.G n).args.map (argVal val))) :
    Means E I Va Fin Den Dom roots rank s0 val := by
  refine ⟨?_, ?_, ?_, ?_⟩
  · intro p n r _ h; rw [hhook] at h; cases h
  · intro p n hv _ hi
    obtain ⟨j, h1, h2⟩ := idxOf_declared (hE.declared n (visit_reach hv) hi)
    obtain ⟨a, h3, h4, h5⟩ := hx j (List.getElem?_eq_some_iff.mp h2).1
    exact ⟨j, a, h1, h3, h4, fun hf => by rw [hval.1 j n h2]; exact h5 hf⟩
  · intro p n hv _ hi
    have hr := visit_reach hv
    have hl := arity_length (hE.arity n hr) hi
    refine ⟨hl, ?_, by rw [← hl]; exact hord n, fun hf => ⟨hdom hf n hr hi, hval.2 n hr hi⟩⟩
    cases ho : (E.G n).op <;> simp only [unsupportedOp]
    rw [known_supported (hE.known n _ hr ho)]; rfl
  · intro p n hv _; exact hE.acyclic n (visit_reach hv)

theorem mem_depNodes {deps : List (Cg α)} {c : Cg α} {n : Nat} (h : c ∈ deps) (hn : c.node = some n) :
    n ∈ depNodes deps := List.mem_filterMap.mpr ⟨c, h, hn⟩

/-- Evaluation with numbers: whatever happened before (`ev`, unless an evaluation is in progress) and in
whatever order C++ evaluates operands, the results are the values of the recorded expressions at the
given values of the independent variables. -/
theorem evaluate_correct {I : Interp α} {G : Graph α} {rank : Nat → Nat} {fuel : Nat} {indeps : List Nat}
    {deps : List (Cg α)} {ord : Nat → List Nat} {xf val : Nat → α}
    (hE : Evaluable G rank fuel indeps (depNodes deps)) (hord : ProperOrder G ord)
    (hconst : ∀ c ∈ deps, c.node = none → c.value.isSome = true)
    (hval : IsValuation I G indeps (depNodes deps) xf val)
    (ev : Evaluator α) (hev : ev.underEval = false) :
    ∃ ys ev', evaluate ⟨plainOps I, G, indeps, (List.range indeps.length).map xf, fun _ _ => none, ord⟩ fuel deps
        ev () = (.ok ys, ev', ()) ∧ ev'.underEval = false ∧ ys.length = deps.length ∧
      ∀ (i : Nat) c y, deps[i]? = some c → ys[i]? = some y →
        match c.node with | some n => y = val n | none => c.value = some y := by
  have M := means_of (E := ⟨plainOps I, G, indeps, (List.range indeps.length).map xf, fun _ _ => none, ord⟩)
    (I := I) (Va := fun _ _ => True) (Fin := fun _ => True) (Den := fun a p => a = p) (Dom := fun _ _ => True)
    (s0 := ()) hE (fun _ _ => rfl) hord hval
    (fun j hj => ⟨xf j, by simp [List.getElem?_range hj], trivial, fun _ => rfl⟩) (fun _ _ _ _ => trivial)
  obtain ⟨ys, st', e, _, _, _, h1, h2⟩ := evalAll_spec (fuel := fuel) (plain_sound I) M deps ⟨fun _ => none, ()⟩
    (fun c hc n hn => ⟨mem_depNodes hc hn, hE.depth n (mem_depNodes hc hn)⟩) hconst
    ⟨trivial, trivial, fun _ _ _ => trivial, fun _ _ _ h => by cases h⟩
  refine ⟨ys, ⟨fun _ => none, false⟩, ?_, rfl, h1, ?_⟩
  · unfold evaluate
    rw [if_neg (by simp), hev]
    simp only [Bool.false_eq_true, if_false]
    rw [e]
  · intro i c y hc hy
    have := h2 trivial i c y hc hy
    cases hn : c.node with
    | some n => exact this (val n) (by rw [hn])
    | none =>
      have hs := hconst c (List.mem_of_getElem? hc) hn
      obtain ⟨v, hv⟩ := Option.isSome_iff_exists.mp hs
      have := this v (by rw [hn]; exact hv)
      simp only; rw [hv, this]

/-- Evaluation with `CG` objects of a handler: it succeeds, existing nodes are not changed, and the
results denote the values of the recorded expressions at the values denoted by the objects given for
the independent variables, wherever no recorded denominator is zero. -/
theorem evaluate_cg_denotes [DecidableEq α] {I : Interp α} (L : Laws I) {G : Graph α} {rank : Nat → Nat}
    {fuel : Nat} {indeps : List Nat} {deps : List (Cg α)} {ord : Nat → List Nat} {x : List (Cg α)}
    {h0 : Nat} {w : World α} (hE : Evaluable G rank fuel indeps (depNodes deps)) (hord : ProperOrder G ord)
    (hconst : ∀ c ∈ deps, c.node = none → c.value.isSome = true)
    (hlen : x.length = indeps.length) (hw : Own h0 w) (hcl : Closed w) (hxok : ∀ c ∈ x, OkReg w c)
    (ev : Evaluator (Cg α)) (hev : ev.underEval = false)
    {xf val : Nat → α} (hval : IsValuation I G indeps (depNodes deps) xf val)
    (hdiv : ∀ n, Reach G (depNodes deps) n → (G n).op = .div →
      ∀ b, ((G n).args.map (argVal val))[1]? = some b → b ≠ I.zero) :
    ∃ ys ev' w', evaluate ⟨cgOps I, G, indeps, x, fun _ _ => none, ord⟩ fuel deps ev w = (.ok ys, ev', w') ∧
      ev'.underEval = false ∧ (∃ s, w'.nodes = w.nodes ++ s) ∧ (∀ c ∈ ys, OkReg w' c) ∧ ys.length = deps.length ∧
      ∀ xf' val', w'.Val I xf' val' →
        (∀ (j : Nat) c, x[j]? = some c → match c.node with | some n => val' n = xf j | none => c.value = some (xf j)) →
        ∀ (i : Nat) c y p, deps[i]? = some c → ys[i]? = some y →
          (match c.node with | some n => p = val n | none => c.value = some p) →
          (match y.node with | some n => val' n = p | none => y.value = some p) := by
  let E : Setup α (Cg α) (World α) := ⟨cgOps I, G, indeps, x, fun _ _ => none, ord⟩
  have hw0 : OkW h0 none w := ⟨hw, hcl, fun v h => by cases h⟩
  have main : ∀ xf' val', ∃ ys st', evalAll E fuel deps ⟨fun _ => none, w⟩ = (.ok ys, st') ∧
      LeW h0 none w st'.st ∧ (∀ a ∈ ys, VaC none st'.st a) ∧ ys.length = deps.length ∧
      (st'.st.Val I xf' val' →
        (∀ (j : Nat) c, x[j]? = some c → match c.node with | some n => val' n = xf j | none => c.value = some (xf j)) →
        ∀ (i : Nat) c y, deps[i]? = some c → ys[i]? = some y →
        ∀ p, (match c.node with | some n => val n = p | none => c.value = some p) → Good False val' y p) := by
    intro xf' val'
    -- the values given for the independents are taken as part of the interpretation
    have H := cg_sound L h0 none xf' val'
    let Q : Prop := ∀ (j : Nat) c, x[j]? = some c →
      match c.node with | some n => val' n = xf j | none => c.value = some (xf j)
    have H' : Sound E.O I (LeW h0 none) (OkW h0 none) (VaC none) (fun w => w.Val I xf' val' ∧ Q) (Good False val')
        (cgDom I) := by
      refine ⟨H.refl, H.trans, H.va_mono, fun h hf => ⟨H.fin_mono h hf.1, hf.2⟩, H.va_const, H.den_const, ?_⟩
      intro op as s h1 h2 h3 h4 h5
      obtain ⟨r, s', e, h6, h7, h8, h9⟩ := H.step op as s h1 h2 h3 h4 h5
      exact ⟨r, s', e, h6, h7, h8, fun hf => h9 hf.1⟩
    have M : Means E I (VaC none) (fun w => w.Val I xf' val' ∧ Q) (Good False val') (cgDom I) (depNodes deps)
        rank w val := by
      refine means_of (E := E) (fuel := fuel) (xf := xf) hE (fun _ _ => rfl) hord hval ?_ ?_
      · intro j hj
        have hj' : j < x.length := by rw [hlen]; exact hj
        refine ⟨x[j], List.getElem?_eq_getElem hj', ⟨hxok _ (List.getElem_mem hj'), fun v h => by cases h⟩, ?_⟩
        intro hf
        refine ⟨?_, fun h => h.elim⟩
        exact hf.2 j _ (List.getElem?_eq_getElem hj')
      · intro _ n hr _ ho h
        exact hdiv n hr ho _ h rfl
    obtain ⟨ys, st', e, _, hle, hva, h1, h2⟩ := evalAll_spec (fuel := fuel) H' M deps ⟨fun _ => none, w⟩
      (fun c hc n hn => ⟨mem_depNodes hc hn, hE.depth n (mem_depNodes hc hn)⟩) hconst
      ⟨.inl rfl, hw0, fun _ _ h => (by cases h), fun _ _ _ h => by cases h⟩
    exact ⟨ys, st', e, hle, hva, h1, fun hv hq => h2 ⟨hv, hq⟩⟩
  obtain ⟨ys, st', e, hle, hva, h1, _⟩ := main xf val
  refine ⟨ys, ⟨fun _ => none, false⟩, st'.st, ?_, rfl, ?_, fun c hc => (hva c hc).reg, h1, ?_⟩
  · unfold evaluate
    rw [if_neg (by simp [hlen]), hev]
    simp only [Bool.false_eq_true, if_false]
    have : evalAll ⟨cgOps I, G, indeps, x, fun _ _ => none, ord⟩ fuel deps ⟨fun _ => none, w⟩ = (.ok ys, st') := e
    rw [this]
  · rcases hle with h | ⟨h, _⟩
    · exact ⟨[], by rw [← h]; simp⟩
    · exact h.ext.1
  · intro xf' val' hv hq i c y p hc hy hp
    obtain ⟨ys', st'', e', _, _, _, h3⟩ := main xf' val'
    rw [e] at e'
    cases e'
    refine (h3 hv hq i c y hc hy p ?_).den
    cases hn : c.node with
    | some n => rw [hn] at hp; exact hp.symm
    | none => rw [hn] at hp; exact hp

/-! ### calls which are rejected, sequences of calls -/

/-- a wrong number of independent variables is reported and nothing changes -/
theorem wrong_size_rejected (E : Setup α A S) (fuel : Nat) (deps : List (Cg α)) (ev : Evaluator A) (s : S)
    (h : E.x.length ≠ E.indeps.length) : evaluate E fuel deps ev s = (.error .exception, ev, s) := by
  unfold evaluate
  rw [if_pos fun he => h he.symm]

/-- a call during an evaluation of the same evaluator is reported and does not disturb it -/
theorem reentrant_rejected (E : Setup α A S) (fuel : Nat) (deps : List (Cg α)) (ev : Evaluator A) (s : S)
    (h : ev.underEval = true) : evaluate E fuel deps ev s = (.error .exception, ev, s) := by
  unfold evaluate
  by_cases h1 : E.indeps.length ≠ E.x.length
  · rw [if_pos h1]
  · rw [if_neg h1, if_pos h]

/-- requests one after another -/
def runAll (reqs : List (Setup α A S × Nat × List (Cg α))) (ev : Evaluator A) (s : S) :
    List (Except Err (List A)) × Evaluator A × S :=
  match reqs with
  | [] => ([], ev, s)
  | (E, fuel, deps) :: rest =>
    let r := evaluate E fuel deps ev s
    let q := runAll rest r.2.1 r.2.2
    (r.1 :: q.1, q.2)

/-- the same requests, each with a new evaluator -/
def runFresh (reqs : List (Setup α A S × Nat × List (Cg α))) (s : S) : List (Except Err (List A)) × S :=
  match reqs with
  | [] => ([], s)
  | (E, fuel, deps) :: rest =>
    let r := evaluate E fuel deps .new s
    let q := runFresh rest r.2.2
    (r.1 :: q.1, q.2)

theorem evaluate_fresh (E : Setup α A S) (fuel : Nat) (deps : List (Cg α)) (ev : Evaluator A) (s : S)
    (h : ev.underEval = false) :
    (evaluate E fuel deps ev s).1 = (evaluate E fuel deps .new s).1 ∧
    (evaluate E fuel deps ev s).2.2 = (evaluate E fuel deps .new s).2.2 ∧
    (evaluate E fuel deps ev s).2.1.underEval = false := by
  unfold evaluate
  by_cases h1 : E.indeps.length ≠ E.x.length
  · rw [if_pos h1, if_pos h1]; exact ⟨rfl, rfl, h⟩
  · rw [if_neg h1, if_neg h1, h, Evaluator.new]
    simp only [Bool.false_eq_true, if_false]
    cases evalAll E fuel deps ⟨fun _ => none, s⟩ with
    | mk r st => cases r <;> simp

/-- No request, successful or failed, influences later ones: a sequence of requests to one evaluator
gives the results of new evaluators. -/
theorem requests_independent (reqs : List (Setup α A S × Nat × List (Cg α))) (ev : Evaluator A) (s : S)
    (h : ev.underEval = false) :
    (runAll reqs ev s).1 = (runFresh reqs s).1 ∧ (runAll reqs ev s).2.2 = (runFresh reqs s).2 := by
  induction reqs generalizing ev s with
  | nil => exact ⟨rfl, rfl⟩
  | cons r rest ih =>
    obtain ⟨E, fuel, deps⟩ := r
    obtain ⟨h1, h2, h3⟩ := evaluate_fresh E fuel deps ev s h
    obtain ⟨h4, h5⟩ := ih (evaluate E fuel deps ev s).2.1 (evaluate E fuel deps ev s).2.2 h3
    simp only [runAll, runFresh]
    rw [h1, h4, h5, h2]
    exact ⟨rfl, rfl⟩

/-! ### functions which cannot be evaluated -/

/-- `erf(x)` can be recorded, has a value and C code is generated for it, but evaluators raise an
exception (there is no case for acosh, asinh, atanh, erf, erfc, expm1 and log1p in `evalOperation`,
evaluator.hpp l.378-468). -/
theorem unsupported_counterexample (I : Interp α) (f : Fn) (hf : f ∉ knownFns) (x : α) (fuel : Nat)
    (ord : Nat → List Nat) :
    let G : Graph α := fun n => if n = 1 then ⟨.un f, [.node 0]⟩ else ⟨.inv, []⟩
    (evaluate ⟨plainOps I, G, [0], [x], fun _ _ => none, ord⟩ (fuel + 1) [⟨some 1, none⟩] .new ()).1 =
      .error .exception ∧
    IsValuation I G [0] [1] (fun _ => x) (fun n => if n = 1 then I.un f x else x) := by
  intro G
  constructor
  · have hs : supported f = false := by
      cases f <;> first | rfl | (simp [knownFns] at hf)
    simp [evaluate, Evaluator.new, evalAll, evalCG, evalOps, evalOperation, G, unsupportedOp, hs]
  · constructor
    · intro j n h
      match j with
      | 0 => simp at h; subst h; simp
      | j + 1 => simp at h
    · intro n _ hn
      by_cases h1 : n = 1
      · subst h1; simp [G, opSem, argVal]
      · simp [G, h1] at hn

/-! ### an instance -/

/-- integers with partial interpretations of the functions -/
def intI : Interp Int where
  un _ a := a
  add a b := a + b
  sub a b := a - b
  mul a b := a * b
  div a b := a / b
  pow a b := a ^ b.toNat
  neg a := -a
  cmp
    | .lt, a, b => a < b | .le, a, b => a ≤ b | .eq, a, b => a = b
    | .ge, a, b => a ≥ b | .gt, a, b => a > b | .ne, a, b => a ≠ b
  zero := 0
  one := 1
  negOne := -1

/-- `z = x + y`, `w = z * z - 3` and `if w < y then z else w` -/
def exG : Graph Int
  | 2 => ⟨.add, [.node 0, .node 1]⟩
  | 3 => ⟨.mul, [.node 2, .node 2]⟩
  | 4 => ⟨.sub, [.node 3, .param 3]⟩
  | 5 => ⟨.cond .lt, [.node 4, .node 1, .node 2, .node 4]⟩
  | _ => ⟨.inv, []⟩

/-- right to left -/
def exOrd (n : Nat) : List Nat := (List.range (exG n).args.length).reverse

theorem exReach {n : Nat} (h : Reach exG [5] n) : n ≤ 5 := by
  induction h with
  | root h => simp at h; omega
  | @kid n m _ hm ih =>
    match n with
    | 0 | 1 => cases hm
    | 2 => simp [kids, argNodes, exG] at hm; omega
    | 3 => simp [kids, argNodes, exG] at hm; omega
    | 4 => simp [kids, argNodes, exG] at hm; omega
    | 5 => simp [kids, argNodes, exG] at hm; omega
    | n + 6 => omega

theorem exEvaluable : Evaluable exG id 6 [0, 1] [5] := by
  refine ⟨?_, by simp, ?_, ?_, ?_⟩
  · intro n hr m hm
    match n with
    | 0 | 1 => cases hm
    | 2 => simp [kids, argNodes, exG] at hm; simp only [id]; omega
    | 3 => simp [kids, argNodes, exG] at hm; simp only [id]; omega
    | 4 => simp [kids, argNodes, exG] at hm; simp only [id]; omega
    | 5 => simp [kids, argNodes, exG] at hm; simp only [id]; omega
    | n + 6 => have := exReach hr; omega
  · intro n hr
    match n with
    | 0 | 1 => trivial
    | 2 => exact ⟨_, _, rfl⟩
    | 3 => exact ⟨_, _, rfl⟩
    | 4 => exact ⟨_, _, rfl⟩
    | 5 => exact ⟨_, _, _, _, rfl⟩
    | n + 6 => have := exReach hr; omega
  · intro n f hr h
    match n with
    | 0 | 1 | 2 | 3 | 4 | 5 => cases h
    | n + 6 => cases h
  · intro n hr h
    match n with
    | 0 | 1 => simp
    | 2 | 3 | 4 | 5 => cases h
    | n + 6 => have := exReach hr; omega

example : ∃ ys ev', evaluate ⟨plainOps intI, exG, [0, 1], (List.range 2).map (fun j => (j : Int) + 1), fun _ _ => none,
    exOrd⟩ 6 [⟨some 5, none⟩] .new () = (.ok ys, ev', ()) ∧ ys = [6] := by
  refine ⟨_, _, rfl, ?_⟩
  decide

example : ProperOrder exG exOrd := fun _ => (List.reverse_perm _)

example : IsValuation intI exG [0, 1] [5] (fun j => (j : Int) + 1)
    (fun n => [1, 2, 3, 9, 6, 6].getD n 0) := by
  constructor
  · intro j n h
    match j with
    | 0 => simp at h; subst h; rfl
    | 1 => simp at h; subst h; rfl
    | j + 2 => simp at h
  · intro n hr hn
    match n with
    | 0 | 1 => exact absurd rfl hn
    | 2 | 3 | 4 | 5 => decide
    | n + 6 => exact absurd rfl hn

/-- the same with `CG` objects: the shared node is evaluated once -/
example : (evaluate ⟨cgOps intI, exG, [0, 1], [⟨some 0, none⟩, .const 2], fun _ _ => none, exOrd⟩ 6
    [⟨some 4, none⟩] .new ⟨[(⟨.inv, []⟩, 0)], [0]⟩).2.2.nodes.map (fun n => (n.1.op, n.1.args)) =
    [(.inv, []), (.add, [.node 0, .param 2]), (.mul, [.node 1, .node 1]), (.sub, [.node 2, .param 3])] := by
  decide

end Verif.Eval
