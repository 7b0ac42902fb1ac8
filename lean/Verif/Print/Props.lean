import Verif.Print.LemmasGraph
import Verif.Codegen.Props
import Mathlib.Data.Rat.Defs
import Mathlib.Algebra.Order.Field.Basic
import Mathlib.Algebra.Order.Ring.Rat
import Mathlib.Tactic.NormNum
import Mathlib.Tactic.Ring
import Std.Data.String.ToNat

/-
Property C13: the text printed for an expression and for a whole function, read with the grammar of C
and computed with the arithmetic of C, has the value of the recorded expression; and the text-level part
of C09: the names of variables are different texts.

`exprToks`, `bodyToks` and `printStack` are the model of the printer (Model.lean). What a text means is
said by `Reads`/`ReadsS` (grammar) and `ceval`/`execC` (C arithmetic), CSem.lean. `Expr.eval`,
`execAll` and `IsValuation` come from the specification of code generation (Verif/Codegen/Spec.lean).
-/
namespace Verif.Print

open Verif.CExpr
open Verif.Codegen

variable {α : Type} [DecidableEq α] {A : Arith α} {N : Names}

/-! ### an exact arithmetic -/

/-- rational numbers; functions are not of interest -/
def ratI : Interp Rat where
  un _ a := a
  add := (· + ·)
  sub := (· - ·)
  mul := (· * ·)
  div := (· / ·)
  pow a _ := a
  neg a := -a
  cmp c a b := match c with
    | .lt => a < b
    | .le => a ≤ b
    | .eq => a = b
    | .ge => b ≤ a
    | .gt => b < a
    | .ne => a ≠ b
  zero := 0
  one := 1
  negOne := -1

def ratA : Arith Rat := ⟨ratI, fun z => (z : Rat)⟩

/-- both sets of laws can be met -/
theorem rat_signLaws : SignLaws ratA where
  neg_neg a := by show - -a = a; ring
  add_neg a b := by show a + b = a - -b; ring
  sub_neg a b := by show a - b = a + -b; ring
  neg_mul a b := by show -a * b = -(a * b); ring
  neg_div a b := by show -a / b = -(a / b); ring
  neg_one := by show -(-1 : Rat) = 1; ring
  zero_nonneg := by simp [ratA, ratI]
  one_nonneg := by simp [ratA, ratI]
  negOne_neg := by simp [ratA, ratI]
  one_ne_zero := by simp [ratA, ratI]
  ofInt_zero := by simp [ratA, ratI]
  ofInt_one := by simp [ratA, ratI]
  ofInt_neg a _ := by simp [ratA, ratI]
  ofInt_add a b _ _ _ := by simp [ratA, ratI]
  ofInt_sub a b _ _ _ := by simp [ratA, ratI]
  ofInt_mul a b _ _ _ := by simp [ratA, ratI]
  ofInt_cmp c a b _ _ := by cases c <;> simp [ratA, ratI, intCmp]

theorem rat_assocLaws : AssocLaws ratI where
  add_add a b c := by show a + (b + c) = a + b + c; ring
  add_sub a b c := by show a + (b - c) = a + b - c; ring
  mul_mul a b c := by show a * (b * c) = a * b * c; ring
  mul_div a b c := by show a * (b / c) = a * b / c; ring

/-! ### expressions -/

/-- C13. With exact arithmetic: the printed text is a C expression and its value is the value of the recorded
expression, for all nested expressions in which no operation is applied to two `int` operands. -/
theorem printed_value_partial (L : SignLaws A) (H : AssocLaws A.I) {env : Env α} {c : CEnv α} (hr : Rel N env c) (e : Expr α)
    (hi : intSafe A.I e = true) (hl : leaves e < 2 ^ 31) :
    (∃ t, Reads (exprToks A.I N e) t) ∧ ∀ t r, Reads (exprToks A.I N e) t → e.eval A.I env = some r →
      ∃ v, ceval A c t = some v ∧ v.toD A = r := by
  refine ⟨⟨_, expr_reads A.I N e⟩, ?_⟩
  intro t r ht he
  rw [ht.unique (expr_reads A.I N e)]
  obtain ⟨v, h1, h2, _⟩ := expr_value L hr ⟨hi, hl, .inl H⟩ he
  exact ⟨v, h1, h2⟩

/-- C13. With any arithmetic, floating point included: if no sum is the right operand of a sum and no product
the right operand of a product, the printed text computes exactly what was recorded. -/
theorem printed_value_exact (L : SignLaws A) {env : Env α} {c : CEnv α} (hr : Rel N env c) (e : Expr α)
    (hi : intSafe A.I e = true) (hl : leaves e < 2 ^ 31) (hg : grouped e = true) :
    ∀ t r, Reads (exprToks A.I N e) t → e.eval A.I env = some r → ∃ v, ceval A c t = some v ∧ v.toD A = r := by
  intro t r ht he
  rw [ht.unique (expr_reads A.I N e)]
  obtain ⟨v, h1, h2, _⟩ := expr_value L hr ⟨hi, hl, .inr hg⟩ he
  exact ⟨v, h1, h2⟩

/-- the arrays of the examples -/
def exEnv : Env Rat
  | .x 0 => some 2
  | .x 1 => some (-3)
  | .v 0 => some 5
  | _ => none

def exC : CEnv Rat where
  arr s k := if s = "x" then exEnv (.x k) else if s = "y" then exEnv (.y k) else if s = "v" then exEnv (.v k) else none
  ind _ := none

theorem exRel : Rel Names.default exEnv exC := by
  intro i; simp [exC, Names.default]

/-- `(x[0] - (v[0] - -(x[1] * 0.5))) / (x[0] / x[1]) + sign * (-7 + 1)`-like nesting meets the hypotheses -/
def exE : Expr Rat :=
  .add (.div (.sub (.var (.x 0)) (.sub (.var (.v 0)) (.neg (.mul (.var (.x 1)) (.const (1 / 2)))))) (.div (.var (.x 0)) (.var (.x 1))))
    (.mul (.sgn (.x 1)) (.add (.const (-7)) (.mul (.const 1) (.mul (.const 1) (.var (.v 0))))))

example : intSafe ratI exE = true ∧ leaves exE < 2 ^ 31 ∧ (exE.eval ratI exEnv).isSome = true := by
  refine ⟨?_, by simp [leaves, exE], ?_⟩
  · simp [exE, intSafe, isInt, intConst, ratI]
  · simp [exE, Expr.eval, exEnv]

/-- the parenthesised forms are needed and present: the subtracted difference is enclosed -/
example : exprToks ratI Names.default (.sub (.var (.x 0)) (.sub (.var (.x 1)) (.var (.v 0))))
    = nameToks Names.default (.x 0) ++ .op .sub :: .lp :: nameToks Names.default (.x 1) ++ .op .sub :: nameToks Names.default (.v 0) ++ [.rp] := by
  simp [exprToks, negParam, enclosed, encloseMul, strip]

/-! ### the limits -/

/-- C13 fails for constants: `1 / (sign(x[0]) + 1)` is printed as `1 / ((x[0] > 0?1:(x[0] < 0?-1:0)) + 1)`, a division
of `int`s. At `x[0] = 2` the recorded value is 1/2 and the generated code computes 0; at `x[0] = -3` it divides the integer 1
by the integer 0, which is undefined. -/
theorem int_division_counterexample :
    let e : Expr Rat := .div (.const 1) (.add (.sgn (.x 0)) (.const 1))
    (e.eval ratI exEnv = some (1 / 2) ∧ ∀ t, Reads (exprToks ratI Names.default e) t → ceval ratA exC t = some (.int 0)) ∧
    (∀ t, Reads (exprToks ratI Names.default (.div (.const 1) (.add (.sgn (.x 1)) (.const 1)))) t → ceval ratA exC t = none) := by
  refine ⟨⟨?_, ?_⟩, ?_⟩
  · simp only [Expr.eval, exEnv, ratI, Option.map_some]
    norm_num
  · intro t ht
    rw [ht.unique (expr_reads _ _ _)]
    have p0 : paramTree ratI ratI.zero = .num (.int 0) := by simp [paramTree, nonneg, magLit, ratI]
    have p1 : paramTree ratI 1 = .num (.int 1) := by simp [paramTree, nonneg, magLit, ratI]
    have p1' : paramTree ratI ratI.one = .num (.int 1) := by simp [paramTree, nonneg, magLit, ratI]
    have pm : paramTree ratI ratI.negOne = .neg (.num (.int 1)) := by simp [paramTree, nonneg, magLit, ratI]
    have hn : negParam ratI (.const (1 : Rat)) = none := by simp [negParam, nonneg, ratI]
    simp only [ptree, hn, joinAdd, signTree, p0, p1, p1', pm, nameTree, enclosedT, encloseDiv, strip, if_true, if_false, Bool.false_eq_true]
    simp [ceval, CEnv.pos, exC, exEnv, Names.default, intRes, binVal, Val.toD, ratA, ratI, boolVal, ty, Ty.join, Val.conv]
  · intro t ht
    rw [ht.unique (expr_reads _ _ _)]
    have p0 : paramTree ratI ratI.zero = .num (.int 0) := by simp [paramTree, nonneg, magLit, ratI]
    have p1 : paramTree ratI 1 = .num (.int 1) := by simp [paramTree, nonneg, magLit, ratI]
    have p1' : paramTree ratI ratI.one = .num (.int 1) := by simp [paramTree, nonneg, magLit, ratI]
    have pm : paramTree ratI ratI.negOne = .neg (.num (.int 1)) := by simp [paramTree, nonneg, magLit, ratI]
    have hn : negParam ratI (.const (1 : Rat)) = none := by simp [negParam, nonneg, ratI]
    simp only [ptree, hn, joinAdd, signTree, p0, p1, p1', pm, nameTree, enclosedT, encloseDiv, strip, if_true, if_false, Bool.false_eq_true]
    simp [ceval, CEnv.pos, exC, exEnv, Names.default, intRes, binVal, negVal, Val.toD, ratA, ratI, boolVal, ty, Ty.join, Val.conv, cmpOf]

/-- numbers with 40 binary digits: larger results are rounded to even numbers -/
def rnd (z : Int) : Int := if z.natAbs < 2 ^ 40 then z else z.tdiv 2 * 2

def rndI : Interp Int where
  un _ a := a
  add a b := rnd (a + b)
  sub a b := rnd (a - b)
  mul a b := rnd (a * b)
  div a b := a.tdiv b
  pow a _ := a
  neg a := -a
  cmp := intCmp
  zero := 0
  one := 1
  negOne := -1

def rndA : Arith Int := ⟨rndI, id⟩

theorem rnd_neg (z : Int) : rnd (-z) = -rnd z := by
  unfold rnd
  rw [Int.natAbs_neg, Int.neg_tdiv]
  split
  · rfl
  · ring

theorem rnd_small {z : Int} (h : z.natAbs < 2 ^ 31) : rnd z = z := by
  unfold rnd; rw [if_pos (by omega)]

/-- rounding arithmetic obeys the laws of signs -/
theorem rnd_signLaws : SignLaws rndA where
  neg_neg a := by show - -a = a; ring
  add_neg a b := by show rnd (a + b) = rnd (a - -b); congr 1; ring
  sub_neg a b := by show rnd (a - b) = rnd (a + -b); congr 1
  neg_mul a b := by show rnd (-a * b) = -rnd (a * b); rw [← rnd_neg]; congr 1; ring
  neg_div a b := by show (-a).tdiv b = -(a.tdiv b); rw [Int.neg_tdiv]
  neg_one := by decide
  zero_nonneg := by decide
  one_nonneg := by decide
  negOne_neg := by decide
  one_ne_zero := by decide
  ofInt_zero := rfl
  ofInt_one := rfl
  ofInt_neg a _ := rfl
  ofInt_add a b _ _ h := (rnd_small h).symm
  ofInt_sub a b _ _ h := (rnd_small h).symm
  ofInt_mul a b _ _ h := (rnd_small h).symm
  ofInt_cmp c a b _ _ := rfl

/-- C13 fails with rounding: `x[0] + (x[1] + x[2])` is printed as `x[0] + x[1] + x[2]`, which is `(x[0] + x[1]) + x[2]`.
With `x = (2^40, 1, 1)` the recorded value is `2^40 + 2`, the generated code computes `2^40`. -/
theorem regrouping_counterexample :
    let e : Expr Int := .add (.var (.x 0)) (.add (.var (.x 1)) (.var (.x 2)))
    let c : CEnv Int := ⟨fun s k => if s = "x" then some (if k = 0 then 2 ^ 40 else 1) else none, fun _ => none⟩
    let env : Env Int := fun n => match n with | .x k => some (if k = 0 then 2 ^ 40 else 1) | _ => none
    Rel Names.default env c ∧ intSafe rndI e = true ∧ e.eval rndI env = some (2 ^ 40 + 2) ∧
    ∀ t, Reads (exprToks rndI Names.default e) t → ceval rndA c t = some (.dbl (2 ^ 40)) := by
  refine ⟨?_, rfl, by decide, ?_⟩
  · intro i; simp [Names.default]
  · intro t ht
    rw [ht.unique (expr_reads _ _ _)]
    decide

/-- the same for products: `x[0] * (x[1] / x[2])` is printed as `x[0] * x[1] / x[2]` -/
theorem regrouping_product_counterexample :
    let e : Expr Int := .mul (.var (.x 0)) (.div (.var (.x 1)) (.var (.x 2)))
    let c : CEnv Int := ⟨fun s k => if s = "x" then some (if k = 2 then 2 else 3) else none, fun _ => none⟩
    let env : Env Int := fun n => match n with | .x k => some (if k = 2 then 2 else 3) | _ => none
    Rel Names.default env c ∧ intSafe rndI e = true ∧ e.eval rndI env = some 3 ∧
    ∀ t, Reads (exprToks rndI Names.default e) t → ceval rndA c t = some (.dbl 4) := by
  refine ⟨?_, rfl, by decide, ?_⟩
  · intro i; simp [Names.default]
  · intro t ht
    rw [ht.unique (expr_reads _ _ _)]
    decide

/-! ### the stream stack -/

/-- C13. The iterative printing with the stack of pending operations (and any sufficient number of rounds) writes the text
of the recursive definition: nothing is lost, repeated or reordered. -/
theorem stack_prints (I : Interp α) (N : Names) (e : Expr α) :
    ∃ n, ∀ fuel, n ≤ fuel → printStack I N fuel e = some (exprToks I N e) := by
  refine ⟨rounds e + 1, fun fuel hf => ?_⟩
  obtain ⟨p1, p2⟩ := pushes_spec I N (nodeItems I N e) ⟨[], 0, []⟩ (Nat.le_refl _)
  have hr := nodeItems_rounds I N e
  have h0 : stackRounds ([] : List (Item α)) = 0 := rfl
  simp only [h0] at p2
  obtain ⟨s', h1, h2⟩ := run_spec I N fuel _ (by rw [p2]; omega)
  unfold printStack
  rw [h1, Option.map_some, h2, p1, nodeItems_toks]
  simp [stackToks]

example : printStack rndI Names.default 20 (.sub (.var (.x 0)) (.neg (.mul (.var (.x 1)) (.add (.var (.x 0)) (.const 3)))))
    = some [.id "x", .lb, .num (.int 0), .rb, .op .sub, .lp, .op .sub, .id "x", .lb, .num (.int 1), .rb, .op .mul, .lp,
        .id "x", .lb, .num (.int 0), .rb, .op .add, .num (.real 3), .rp, .rp] := by decide

/-! ### functions -/

/-- C13. A printed function body is read as C statements in exactly one way. -/
theorem printed_body_reads (I : Interp α) (N : Names) (z : Bool) (nDep : Nat) (prog : List (Stmt α)) :
    ∃ ss, ReadsS (bodyToks I N z nDep prog) ss ∧ ∀ ss', ReadsS (bodyToks I N z nDep prog) ss' → ss' = ss :=
  ⟨_, body_reads I N z nDep prog, fun _ h => readsS_unique h (body_reads I N z nDep prog)⟩

/-- C13. Executing the printed statements has the effect of the statements which were printed. -/
theorem printed_body_executes (L : SignLaws A) (hN : N.Distinct) {prog : List (Stmt α)} (z : Bool) (nDep : Nat)
    (hz : z = true → prog.take nDep = (List.range nDep).map fun i => Stmt.assign (.y i) (.const A.I.zero))
    (hi : AllExprs (fun e => intSafe A.I e = true ∧ leaves e < 2 ^ 31) prog)
    (hg : AssocLaws A.I ∨ AllExprs (fun e => grouped e = true) prog)
    {env env' : Env α} {c : CEnv α} (hr : Rel N env c) (h : execAll A.I env prog = some env') :
    ∀ ss, ReadsS (bodyToks A.I N z nDep prog) ss → ∃ c', execC A c ss = some c' ∧ Rel N env' c' := by
  intro ss hss
  rw [readsS_unique hss (body_reads A.I N z nDep prog)]
  refine body_sim L hN z nDep ?_ hz hr h
  intro s hs e he
  exact ⟨(hi s hs e he).1, (hi s hs e he).2, hg.imp id fun h => h s hs e he⟩

/-- memory when the generated function is entered -/
def entryC (N : Names) (nIndep : Nat) (x : Nat → α) : CEnv α where
  arr s k := if s = N.x ∧ k < nIndep then some (x k) else none
  ind _ := none

theorem entry_rel (hN : N.Distinct) (nIndep : Nat) (x : Nat → α) : Rel N (entryEnv nIndep x) (entryC N nIndep x) := by
  intro i
  simp [entryC, entryEnv, hN.xy.symm, hN.xv.symm]

/-- C13 and C05: from the recorded graph to the text. For a well formed graph in which no operation has two operands
that may be printed as `int`s, `generateCode` succeeds, and the text of the function body is C which, executed from the
inputs, sets every assigned dependent to the value of the graph. Exact arithmetic, or the recorded grouping, and
expressions of less than 2^31 operands. -/
theorem printed_function_correct [Inhabited α] {G : Graph α} {rank : Nat → Nat} {fuel : Nat} {indeps : List Nat} {deps : List (Arg α)}
    (L : SignLaws A) (hN : N.Distinct) (wf : WF G rank fuel indeps deps) (cfg : Cfg) (h : HState) (hr : Ready h)
    (hn : Unnamed G indeps deps h) (hs : IntSafeGraph A.I G (argNodes deps)) :
    ∃ g h', generateCode G fuel cfg A.I.zero indeps deps h = .ok (g, h') ∧
      (AllExprs (fun e => leaves e < 2 ^ 31) g.prog → (AssocLaws A.I ∨ AllExprs (fun e => grouped e = true) g.prog) →
      ∀ ss, ReadsS (bodyToks A.I N (cfg.zeroDeps && !h'.varOrder.isEmpty) deps.length g.prog) ss →
      ∀ (x val : Nat → α), IsValuation A.I G indeps (argNodes deps) x val →
        ∃ c', execC A (entryC N indeps.length x) ss = some c' ∧
          (∀ (i : Nat) (d : Arg α), deps[i]? = some d → Assigned G deps cfg A.I.zero d → c'.arr N.y i = some (argVal val d)) ∧
          (∀ j, j < indeps.length → c'.arr N.x j = some (x j))) := by
  obtain ⟨g, h', e, hc⟩ := generateCode_correct wf cfg A.I.zero h hr hn
  refine ⟨g, h', e, ?_⟩
  intro hl hg ss hss x val hv
  obtain ⟨env, h1, h2, h3⟩ := hc A.I x val hv
  have hq : ∀ p, plan G fuel cfg indeps deps h = .ok p → ∀ n ∈ p.queue, Reach G (argNodes deps) n := by
    intro p hp
    obtain ⟨p', hp', pf⟩ := plan_spec wf cfg h hr.clean
    rw [hp] at hp'; cases hp'
    exact pf.qreach
  obtain ⟨hsafe, hz⟩ := generate_safe (I := A.I) hs hq e
  obtain ⟨c', h4, h5⟩ := printed_body_executes L hN _ _ hz (fun s hs e he => ⟨hsafe s hs e he, hl s hs e he⟩) hg
    (entry_rel hN indeps.length x) h1 ss hss
  refine ⟨c', h4, ?_, ?_⟩
  · intro i d hd ha
    rw [(h5 i).2.1]; exact h2 i d hd ha
  · intro j hj
    rw [(h5 j).1]; exact h3 j hj

/-- the recorded graphs have the property asked for when `sign` is not used and every operation has an operation among its
arguments (operations on constants are carried out while recording, C02) -/
theorem intSafe_of_no_sign (I : Interp α) {G : Graph α} {deps : List (Arg α)} (h1 : ∀ n, Reach G (argNodes deps) n → (G n).op ≠ .sign)
    (h2 : ∀ n, Reach G (argNodes deps) n → (G n).op ≠ .inv → kids G n ≠ []) : IntSafeGraph I G (argNodes deps) := by
  have key : ∀ a : Arg α, IntLike I G a → ∀ n, a = .node n → ¬ Reach G (argNodes deps) n := by
    intro a h
    induction h with
    | const => intro n e; cases e
    | sign ho => intro n e hr; cases e; exact h1 _ hr ho
    | @pass m a ho ha _ ih =>
      intro n e hr; cases e
      have hk := h2 m hr (by rcases ho with h | h | h <;> rw [h] <;> simp)
      cases a with
      | param v => exact hk (by simp [kids, ha, argNodes])
      | node k => exact ih k rfl (.kid hr (by simp [kids, ha, argNodes]))
    | @bin m a b ho ha _ _ ih1 ih2 =>
      intro n e hr; cases e
      have hk := h2 m hr (by rcases ho with h | h | h | h <;> rw [h] <;> simp)
      cases a with
      | node k => exact ih1 k rfl (.kid hr (by simp [kids, ha, argNodes]))
      | param v =>
        cases b with
        | node k => exact ih2 k rfl (.kid hr (by simp [kids, ha, argNodes]))
        | param w => exact hk (by simp [kids, ha, argNodes])
  intro n a b hr ho ha ⟨i1, i2⟩
  have hk := h2 n hr (by rcases ho with h | h | h | h <;> rw [h] <;> simp)
  cases a with
  | node k => exact key _ i1 k rfl (.kid hr (by simp [kids, ha, argNodes]))
  | param v =>
    cases b with
    | node k => exact key _ i2 k rfl (.kid hr (by simp [kids, ha, argNodes]))
    | param w => exact hk (by simp [kids, ha, argNodes])

/-- the example of code generation meets the hypotheses: its sign is only compared -/
theorem exSafe : IntSafeGraph rndI exG (argNodes exDeps) := by
  have key : ∀ a : Arg Int, IntLike rndI exG a → ∀ n, a = .node n → n = 6 := by
    intro a h
    induction h with
    | const => intro n e; cases e
    | @sign m ho =>
      intro n e; cases e
      unfold exG at ho
      split at ho <;> first | rfl | cases ho
    | @pass m a ho =>
      exfalso
      unfold exG at ho
      split at ho <;> simp at ho
    | @bin m a b ho ha _ _ ih1 ih2 =>
      exfalso
      unfold exG at ho ha
      split at ho <;> simp at ho ha <;> obtain ⟨rfl, rfl⟩ := ha <;> simp at ih1
  intro n a b _ ho ha ⟨i1, i2⟩
  unfold exG at ho ha
  split at ho <;> simp at ho ha <;> obtain ⟨rfl, rfl⟩ := ha <;> simpa using key _ i1 _ rfl

example : (match generateCode exG 12 exCfg 0 [0, 1] exDeps HState.fresh with
    | .ok (g, _) => g.prog.all fun s => (stmtExprs s).all fun e => decide (leaves e < 2 ^ 31) && grouped e
    | .error _ => false) = true := by decide

/-! ### names as texts (C09) -/

/-- text of a variable, lang_c_default_var_name_gen.hpp l.92-123; temporaries are array elements `v[id - min]` or scalars
`v<id>` -/
def nameText (N : Names) (array : Bool) : Name → String
  | .x i => N.x ++ "[" ++ i.repr ++ "]"
  | .y i => N.y ++ "[" ++ i.repr ++ "]"
  | .v i => if array then N.v ++ "[" ++ i.repr ++ "]" else N.v ++ i.repr

theorem split_at {β : Type} {c : β} : ∀ {a b x y : List β}, c ∉ a → c ∉ b → a ++ c :: x = b ++ c :: y → a = b ∧ x = y := by
  intro a
  induction a with
  | nil =>
    intro b x y _ hb h
    cases b with
    | nil => simpa using h
    | cons d b => simp only [List.nil_append, List.cons_append, List.cons.injEq] at h; exact absurd h.1 (by rintro rfl; simp at hb)
  | cons d a ih =>
    intro b x y ha hb h
    cases b with
    | nil => simp only [List.nil_append, List.cons_append, List.cons.injEq] at h; exact absurd h.1 (by rintro rfl; simp at ha)
    | cons d' b =>
      simp only [List.cons_append, List.cons.injEq] at h
      obtain ⟨h1, h2⟩ := ih (by simp at ha; exact ha.2) (by simp at hb; exact hb.2) h.2
      exact ⟨by rw [h.1, h1], h2⟩

theorem repr_no_bracket (n : Nat) : '[' ∉ n.repr.toList := by
  intro h
  have := Nat.isDigit_of_mem_toDigits (b := 10) (by decide) (by decide) (n := n) (c := '[') (by simpa [Nat.repr] using h)
  exact absurd this (by decide)

/-- C09, text level. Different variables have different names, whether temporaries are array elements or scalars, for array
names which are different and have no bracket. -/
theorem names_differ (hN : N.Distinct) (hx : '[' ∉ N.x.toList) (hy : '[' ∉ N.y.toList) (hv : '[' ∉ N.v.toList) (array : Bool)
    (a b : Name) (h : nameText N array a = nameText N array b) : a = b := by
  have arr : ∀ (s t : String) (i j : Nat), '[' ∉ s.toList → '[' ∉ t.toList → s ++ "[" ++ i.repr ++ "]" = t ++ "[" ++ j.repr ++ "]" → s = t ∧ i = j := by
    intro s t i j hs ht h
    have h' := congrArg String.toList h
    simp only [String.toList_append] at h'
    have e1 : s.toList ++ '[' :: (i.repr.toList ++ [']']) = t.toList ++ '[' :: (j.repr.toList ++ [']']) := by simpa using h'
    obtain ⟨h1, h2⟩ := split_at hs ht e1
    have h3 : i.repr.toList = j.repr.toList := by simpa using h2
    exact ⟨String.toList_inj.mp h1, Nat.repr_injective (String.toList_inj.mp h3)⟩
  have sca : ∀ (s : String) (i j : Nat), s ++ "[" ++ i.repr ++ "]" ≠ N.v ++ j.repr := by
    intro s i j h
    have h' := congrArg String.toList h
    simp only [String.toList_append] at h'
    have hm : '[' ∈ N.v.toList ++ j.repr.toList := by rw [← h']; simp
    rcases List.mem_append.mp hm with hm | hm
    · exact hv hm
    · exact repr_no_bracket j hm
  obtain ⟨n1, n2, n3⟩ := hN
  cases array with
  | true =>
    cases a <;> cases b <;> simp only [nameText, if_true] at h
    · rw [(arr _ _ _ _ hx hx h).2]
    · exact absurd (arr _ _ _ _ hx hy h).1 n1
    · exact absurd (arr _ _ _ _ hx hv h).1 n2
    · exact absurd (arr _ _ _ _ hy hx h).1.symm n1
    · rw [(arr _ _ _ _ hy hy h).2]
    · exact absurd (arr _ _ _ _ hy hv h).1 n3
    · exact absurd (arr _ _ _ _ hv hx h).1.symm n2
    · exact absurd (arr _ _ _ _ hv hy h).1.symm n3
    · rw [(arr _ _ _ _ hv hv h).2]
  | false =>
    cases a <;> cases b <;> simp only [nameText, Bool.false_eq_true, if_false] at h
    · rw [(arr _ _ _ _ hx hx h).2]
    · exact absurd (arr _ _ _ _ hx hy h).1 n1
    · exact absurd h (sca _ _ _)
    · exact absurd (arr _ _ _ _ hy hx h).1.symm n1
    · rw [(arr _ _ _ _ hy hy h).2]
    · exact absurd h (sca _ _ _)
    · exact absurd h.symm (sca _ _ _)
    · exact absurd h.symm (sca _ _ _)
    · have h' := congrArg String.toList h
      simp only [String.toList_append, List.append_cancel_left_eq] at h'
      rw [Nat.repr_injective (String.toList_inj.mp h')]

/-- the default names have the properties asked for -/
example : Names.default.Distinct ∧ '[' ∉ Names.default.x.toList ∧ '[' ∉ Names.default.y.toList ∧ '[' ∉ Names.default.v.toList :=
  ⟨⟨by decide, by decide, by decide⟩, by decide, by decide, by decide⟩

/-- with other names they need not: an array name with a bracket, or equal names, give clashes -/
example : nameText ⟨"x", "x", "v"⟩ true (.x 0) = nameText ⟨"x", "x", "v"⟩ true (.y 0) := rfl

end Verif.Print
