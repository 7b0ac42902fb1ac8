import Verif.Solve.Model
import Verif.Eval.LemmasCg
/- Composition of operators on `CG` objects. -/
namespace Verif.Solve
open Verif.Codegen Verif.Cg Verif.Paths Verif.Eval

variable {α : Type}

/-- `c` denotes `f val` wherever it is defined -/
def Den (I : Interp α) (w : World α) (c : Cg α) (f : (Nat → α) → Option α) : Prop :=
  ∀ x val, w.Val I x val → ∀ p, f val = some p → Good False val c p

theorem Den.mono {I : Interp α} {w w' : World α} {c : Cg α} {f : (Nat → α) → Option α} (h : Den I w c f)
    (he : Ext w w') : Den I w' c f := fun x val hv => h x val (he.val hv)

theorem Den.imp {I : Interp α} {w : World α} {c : Cg α} {f g : (Nat → α) → Option α} (h : Den I w c f)
    (hfg : ∀ val p, g val = some p → f val = some p) : Den I w c g := fun x val hv p hp => h x val hv p (hfg val p hp)

/-- a successful computation -/
structure Does (I : Interp α) (h0 : Nat) (av : Option Nat) (w : World α) (res : Except Err (Cg α × World α))
    (f : (Nat → α) → Option α) : Prop where
  intro ::
  ex : ∃ r w', res = .ok (r, w') ∧ Grow w w' ∧ OkW h0 av w' ∧ VaC av w' r ∧ Den I w' r f

theorem Does.imp {I : Interp α} {h0 : Nat} {av : Option Nat} {w : World α} {res : Except Err (Cg α × World α)}
    {f g : (Nat → α) → Option α} (h : Does I h0 av w res f) (hfg : ∀ val p, g val = some p → f val = some p) :
    Does I h0 av w res g := by
  obtain ⟨r, w', e, h1, h2, h3, h4⟩ := h.ex
  exact ⟨r, w', e, h1, h2, h3, h4.imp hfg⟩

theorem Does.pure {I : Interp α} {h0 : Nat} {av : Option Nat} {w : World α} {r : Cg α} {f : (Nat → α) → Option α}
    (hw : OkW h0 av w) (hr : VaC av w r) (hd : Den I w r f) : Does I h0 av w (.ok (r, w)) f :=
  ⟨r, w, rfl, Grow.refl _, hw, hr, hd⟩

theorem Does.bind {I : Interp α} {h0 : Nat} {av : Option Nat} {w : World α} {m : Except Err (Cg α × World α)}
    {k : Cg α × World α → Except Err (Cg α × World α)} {f g : (Nat → α) → Option α} (h : Does I h0 av w m f)
    (hk : ∀ r w', Grow w w' → OkW h0 av w' → VaC av w' r → Den I w' r f → Does I h0 av w' (k (r, w')) g) :
    Does I h0 av w (m >>= k) g := by
  obtain ⟨r, w', rfl, h1, h2, h3, h4⟩ := h.ex
  obtain ⟨r', w'', e, h5, h6, h7, h8⟩ := (hk r w' h1 h2 h3 h4).ex
  exact ⟨r', w'', e, h1.trans h5, h6, h7, h8⟩

theorem Does.bindArg {I : Interp α} {h0 : Nat} {av : Option Nat} {w : World α} {args : List (Arg α)} {i : Nat} {a : Arg α}
    {k : Arg α → Except Err (Cg α × World α)} {g : (Nat → α) → Option α} (h : args[i]? = some a)
    (hk : Does I h0 av w (k a) g) : Does I h0 av w (argAt args i >>= k) g := by
  unfold argAt; rw [h]; exact hk

theorem den_const (I : Interp α) (w : World α) (v : α) : Den I w (.const v) (fun _ => some v) := by
  intro x val _ p hp; cases hp; exact good_const _

theorem vaC_const (av : Option Nat) (w : World α) (v : α) : VaC av w (.const v) :=
  ⟨okReg_const _ _, fun v _ n hn => by cases hn⟩

theorem den_arg (I : Interp α) (w : World α) (a : Arg α) : Den I w (ofArg a) (fun val => some (argVal val a)) := by
  intro x val _ p hp
  cases hp
  cases a with
  | param v => exact good_const v
  | node n => exact ⟨rfl, fun h => h.elim⟩

section
variable [DecidableEq α] {I : Interp α} (L : Laws I) {h0 : Nat} {av : Option Nat} {w : World α}
include L

theorem binary_does {o : Bin} {a b : Cg α} {f g : (Nat → α) → Option α} (hw : OkW h0 av w) (ha : VaC av w a)
    (hb : VaC av w b) (hf : Den I w a f) (hg : Den I w b g) :
    Does I h0 av w (binary I o w a b)
      (fun val => (f val).bind fun p => (g val).bind fun q => o.direct I p q) := by
  obtain ⟨r, w', e, ho⟩ := binary_fine (I := I) (o := o) hw.own ha.reg hb.reg
  have hst := binary_step e
  have hin : ∀ c ∈ [a, b], VaC av w c := by
    intro c hc
    simp only [List.mem_cons, List.not_mem_nil, or_false] at hc
    rcases hc with rfl | rfl <;> assumption
  obtain ⟨h1, h2⟩ := hst.keep hw hin ho
  refine ⟨r, w', e, hst.grow hw hin, h1, h2, ?_⟩
  intro x val hv p hp
  simp only [Option.bind_eq_some_iff] at hp
  obtain ⟨pa, h3, pb, h4, h5⟩ := hp
  exact binary_good L (hf x val (hst.ext.val hv) pa h3) (hg x val (hst.ext.val hv) pb h4) e hv h5

theorem compound_does {o : Bin} {a b : Cg α} {f g : (Nat → α) → Option α} (hop : o ≠ .pow) (hw : OkW h0 av w)
    (ha : VaC av w a) (hb : VaC av w b) (hf : Den I w a f) (hg : Den I w b g) :
    Does I h0 av w (compound I o w a b)
      (fun val => (f val).bind fun p => (g val).bind fun q => o.direct I p q) := by
  obtain ⟨r, w', e, ho⟩ := compound_fine (I := I) hop hw.own ha.reg hb.reg
  have hst := compound_step e
  have hin : ∀ c ∈ [a, b], VaC av w c := by
    intro c hc
    simp only [List.mem_cons, List.not_mem_nil, or_false] at hc
    rcases hc with rfl | rfl <;> assumption
  obtain ⟨h1, h2⟩ := hst.keep hw hin ho
  refine ⟨r, w', e, hst.grow hw hin, h1, h2, ?_⟩
  intro x val hv p hp
  simp only [Option.bind_eq_some_iff] at hp
  obtain ⟨pa, h3, pb, h4, h5⟩ := hp
  exact compound_good L (hf x val (hst.ext.val hv) pa h3) (hg x val (hst.ext.val hv) pb h4) e hv h5

omit L [DecidableEq α] in
theorem unary_does {op : Op} {g : α → α} {a : Cg α} {f : (Nat → α) → Option α} (hop : op ≠ .inv) (har : arity op = 1)
    (hsem : ∀ v, opSem I op [v] = some (g v)) (hw : OkW h0 av w) (ha : VaC av w a) (hf : Den I w a f) :
    Does I h0 av w (unary op g w a) (fun val => (f val).map g) := by
  obtain ⟨r, w', e, ho⟩ := unary_fine (op := op) (g := g) hw.own ha.reg
  have hst := unary_step hop har e
  have hin : ∀ c ∈ [a], VaC av w c := by simpa using ha
  obtain ⟨h1, h2⟩ := hst.keep hw hin ho
  refine ⟨r, w', e, hst.grow hw hin, h1, h2, ?_⟩
  intro x val hv p hp
  simp only [Option.map_eq_some_iff] at hp
  obtain ⟨pa, h3, rfl⟩ := hp
  exact unary_good hop hsem (hf x val (hst.ext.val hv) pa h3) e hv

omit L [DecidableEq α] in
theorem un_does (fn : Fn) {a : Cg α} {f : (Nat → α) → Option α} (hw : OkW h0 av w) (ha : VaC av w a) (hf : Den I w a f) :
    Does I h0 av w (unary (.un fn) (I.un fn) w a) (fun val => (f val).map (I.un fn)) :=
  unary_does (by simp) rfl (fun _ => rfl) hw ha hf

/-! ### inverses -/

/-- the formulas used for the inverses -/
def undo (I : Interp α) (half : α) (op : Op) (first : Bool) (vs : List α) (p : α) : Option α :=
  let u := vs.getD 0 I.zero
  let v := vs.getD 1 I.zero
  match op with
  | .mul => if first then Bin.div.direct I p v else Bin.div.direct I p u
  | .div => if first then some (I.mul p v) else Bin.div.direct I u p
  | .neg => some (I.mul p I.negOne)
  | .add => if first then some (I.sub p v) else some (I.sub p u)
  | .alias => some p
  | .sub => if first then some (I.add p v) else some (I.sub u p)
  | .un .exp => some (I.un .log p)
  | .un .log => some (I.un .exp p)
  | .pow => if first then some p else Bin.div.direct I (I.un .log p) (I.un .log u)
  | .un .sqrt => some (I.mul p p)
  | .un .cosh => some (I.un .log (I.add p (I.un .sqrt (I.sub (I.mul p p) I.one))))
  | .un .sinh => some (I.un .log (I.add p (I.un .sqrt (I.add (I.mul p p) I.one))))
  | .un .tanh => some (I.mul half (I.sub (I.un .log (I.add I.one p)) (I.un .log (I.sub I.one p))))
  | _ => none

theorem logQuot_does {ltr : Bool} {r b : Cg α} {f g : (Nat → α) → Option α} (hw : OkW h0 av w) (hr : VaC av w r)
    (hb : VaC av w b) (hf : Den I w r f) (hg : Den I w b g) :
    Does I h0 av w (logQuot I ltr w r b) (fun val => (f val).bind fun p => (g val).bind fun q =>
      Bin.div.direct I (I.un .log p) (I.un .log q)) := by
  unfold logQuot
  cases ltr
  · simp only [Bool.false_eq_true, if_false]
    refine (un_does .log hw hb hg).bind fun v w1 g1 h1 hv dv => ?_
    refine (un_does .log h1 (hr.mono g1.ext hw) (hf.mono g1.ext)).bind fun u w2 g2 h2 hu du => ?_
    refine (binary_does L h2 hu (hv.mono g2.ext h1) du (dv.mono g2.ext)).imp ?_
    intro val p hp
    simp only [Option.bind_eq_some_iff, Option.map_eq_some_iff] at hp ⊢
    obtain ⟨a, ha, b, hb, hp⟩ := hp
    exact ⟨_, ⟨a, ha, rfl⟩, _, ⟨b, hb, rfl⟩, hp⟩
  · simp only [if_true]
    refine (un_does .log hw hr hf).bind fun u w1 g1 h1 hu du => ?_
    refine (un_does .log h1 (hb.mono g1.ext hw) (hg.mono g1.ext)).bind fun v w2 g2 h2 hv dv => ?_
    refine (binary_does L h2 (hu.mono g2.ext h1) hv (du.mono g2.ext) dv).imp ?_
    intro val p hp
    simp only [Option.bind_eq_some_iff, Option.map_eq_some_iff] at hp ⊢
    obtain ⟨a, ha, b, hb, hp⟩ := hp
    exact ⟨_, ⟨a, ha, rfl⟩, _, ⟨b, hb, rfl⟩, hp⟩

theorem logSqrt_does {o : Bin} {r : Cg α} {f : (Nat → α) → Option α} (ho : ∀ a b, o.direct I a b = some (o.base I a b))
    (hw : OkW h0 av w) (hr : VaC av w r) (hf : Den I w r f) :
    Does I h0 av w (logSqrt I o w r) (fun val => (f val).map fun p =>
      I.un .log (I.add p (I.un .sqrt (o.base I (I.mul p p) I.one)))) := by
  unfold logSqrt
  refine (binary_does L (o := .mul) hw hr hr hf hf).bind fun p w1 g1 h1 hp dp => ?_
  refine (binary_does L (o := o) h1 hp (vaC_const _ _ _) dp (den_const _ _ _)).bind fun q w2 g2 h2 hq dq => ?_
  refine (un_does .sqrt h2 hq dq).bind fun s w3 g3 h3 hs ds => ?_
  have g13 := (g1.trans g2).trans g3
  refine (binary_does L (o := .add) h3 (hr.mono g13.ext hw) hs (hf.mono g13.ext) ds).bind fun t w4 g4 h4 ht dt => ?_
  refine (un_does .log h4 ht dt).imp ?_
  intro val v hv
  simp only [Option.map_eq_some_iff] at hv
  obtain ⟨a, ha, rfl⟩ := hv
  have e1 : Bin.mul.direct I a a = some (I.mul a a) := rfl
  have e2 : ∀ b, Bin.add.direct I a b = some (I.add a b) := fun _ => rfl
  simp [ha, ho, e1, e2]

theorem log1_does {o : Bin} {r : Cg α} {f : (Nat → α) → Option α} (ho : ∀ a b, o.direct I a b = some (o.base I a b))
    (hw : OkW h0 av w) (hr : VaC av w r) (hf : Den I w r f) :
    Does I h0 av w (log1 I o w r) (fun val => (f val).map fun p => I.un .log (o.base I I.one p)) := by
  unfold log1
  refine (binary_does L (o := o) hw (vaC_const _ _ _) hr (den_const _ _ _) hf).bind fun p w1 g1 h1 hp dp => ?_
  refine (un_does .log h1 hp dp).imp ?_
  intro val v hv
  simp only [Option.map_eq_some_iff] at hv
  obtain ⟨a, ha, rfl⟩ := hv
  simp [ha, ho]

theorem halfLogs_does {half : α} {ltr : Bool} {r : Cg α} {f : (Nat → α) → Option α}
    (hw : OkW h0 av w) (hr : VaC av w r) (hf : Den I w r f) :
    Does I h0 av w (halfLogs I half ltr w r) (fun val => (f val).map fun p =>
      I.mul half (I.sub (I.un .log (I.add I.one p)) (I.un .log (I.sub I.one p)))) := by
  unfold halfLogs
  cases ltr
  · simp only [Bool.false_eq_true, if_false]
    refine (log1_does L (o := .sub) (fun _ _ => rfl) hw hr hf).bind fun v w1 g1 h1 hv dv => ?_
    refine (log1_does L (o := .add) (fun _ _ => rfl) h1 (hr.mono g1.ext hw) (hf.mono g1.ext)).bind
      fun u w2 g2 h2 hu du => ?_
    refine (binary_does L (o := .sub) h2 hu (hv.mono g2.ext h1) du (dv.mono g2.ext)).bind fun d w3 g3 h3 hd dd => ?_
    refine (binary_does L (o := .mul) h3 (vaC_const _ _ _) hd (den_const _ _ _) dd).imp ?_
    intro val v hv
    simp only [Option.map_eq_some_iff] at hv
    obtain ⟨a, ha, rfl⟩ := hv
    simp [ha, Bin.direct, Bin.base]
  · simp only [if_true]
    refine (log1_does L (o := .add) (fun _ _ => rfl) hw hr hf).bind fun u w1 g1 h1 hu du => ?_
    refine (log1_does L (o := .sub) (fun _ _ => rfl) h1 (hr.mono g1.ext hw) (hf.mono g1.ext)).bind
      fun v w2 g2 h2 hv dv => ?_
    refine (binary_does L (o := .sub) h2 (hu.mono g2.ext h1) hv (du.mono g2.ext) dv).bind fun d w3 g3 h3 hd dd => ?_
    refine (binary_does L (o := .mul) h3 (vaC_const _ _ _) hd (den_const _ _ _) dd).imp ?_
    intro val v hv
    simp only [Option.map_eq_some_iff] at hv
    obtain ⟨a, ha, rfl⟩ := hv
    simp [ha, Bin.direct, Bin.base]

/-- position of the other argument -/
def otherAt (first : Bool) : Nat := if first then 1 else 0

theorem invert_does {half : α} {ltr : Bool} {nd : Node α} {first : Bool} {r : Cg α} {f : (Nat → α) → Option α}
    (hs : Shaped nd) (hok : solvableStep I nd first = .ok true) (hw : OkW h0 av w) (hr : VaC av w r)
    (ho : ∀ a, nd.args[otherAt first]? = some a → VaC av w (ofArg a)) (hf : Den I w r f) :
    Does I h0 av w (invert I half ltr w nd first r) (fun val => (f val).bind fun p =>
      undo I half nd.op first (nd.args.map (argVal val)) p) := by
  obtain ⟨op, args⟩ := nd
  unfold Shaped at hs
  simp only at hs ho ⊢
  have two : arity op = 2 → ∃ a b, args = [a, b] := by
    intro h
    rw [h] at hs
    match args, hs with
    | [a, b], _ => exact ⟨a, b, rfl⟩
  unfold solvableStep at hok
  cases op with
  | mul =>
    obtain ⟨a, b, rfl⟩ := two rfl
    simp only [invert]
    cases first
    · refine Does.bindArg (a := a) rfl ?_
      exact compound_does L (by simp) hw hr (ho a rfl) hf (den_arg _ _ _)
    · refine Does.bindArg (a := b) rfl ?_
      exact compound_does L (by simp) hw hr (ho b rfl) hf (den_arg _ _ _)
  | div =>
    obtain ⟨a, b, rfl⟩ := two rfl
    simp only [invert]
    cases first
    · simp only [Bool.false_eq_true, if_false]
      refine Does.bindArg (a := a) rfl ?_
      refine (binary_does L hw (ho a rfl) hr (den_arg _ _ _) hf).imp ?_
      intro val p hp
      simp only [Option.bind_eq_some_iff] at hp ⊢
      obtain ⟨q, h1, h2⟩ := hp
      exact ⟨_, rfl, q, h1, h2⟩
    · simp only [if_true]
      refine Does.bindArg (a := b) rfl ?_
      exact compound_does L (by simp) hw hr (ho b rfl) hf (den_arg _ _ _)
  | neg =>
    simp only [invert]
    exact compound_does L (by simp) hw hr (vaC_const _ _ _) hf (den_const _ _ _)
  | add =>
    obtain ⟨a, b, rfl⟩ := two rfl
    simp only [invert]
    cases first
    · refine Does.bindArg (a := a) rfl ?_
      exact compound_does L (by simp) hw hr (ho a rfl) hf (den_arg _ _ _)
    · refine Does.bindArg (a := b) rfl ?_
      exact compound_does L (by simp) hw hr (ho b rfl) hf (den_arg _ _ _)
  | sub =>
    obtain ⟨a, b, rfl⟩ := two rfl
    simp only [invert]
    cases first
    · simp only [Bool.false_eq_true, if_false]
      refine Does.bindArg (a := a) rfl ?_
      refine (binary_does L hw (ho a rfl) hr (den_arg _ _ _) hf).imp ?_
      intro val p hp
      simp only [Option.bind_eq_some_iff] at hp ⊢
      obtain ⟨q, h1, h2⟩ := hp
      exact ⟨_, rfl, q, h1, h2⟩
    · simp only [if_true]
      refine Does.bindArg (a := b) rfl ?_
      exact compound_does L (by simp) hw hr (ho b rfl) hf (den_arg _ _ _)
  | «alias» =>
    simp only [invert]
    refine Does.pure hw hr (hf.imp ?_)
    intro val p hp
    simp only [Option.bind_eq_some_iff, undo] at hp
    obtain ⟨q, h1, h2⟩ := hp
    cases h2; exact h1
  | pow =>
    obtain ⟨a, b, rfl⟩ := two rfl
    simp only [invert]
    cases first
    · simp only [Bool.false_eq_true, if_false]
      refine Does.bindArg (a := a) rfl ?_
      exact logQuot_does L hw hr (ho a rfl) hf (den_arg _ _ _)
    · simp only [if_true] at hok ⊢
      have hok' : (match (motive := Arg α → Except Err Bool) b with
        | .param v => if I.cmp .eq v I.zero then Except.ok false else if I.cmp .eq v I.one then Except.ok true
          else Except.ok false
        | .node _ => Except.ok false) = Except.ok true := hok
      refine Does.bindArg (a := b) rfl ?_
      cases b with
      | node n => cases hok'
      | param v =>
        simp only at hok' ⊢
        split at hok'
        · cases hok'
        · rename_i h1
          split at hok'
          · rename_i h2
            rw [if_neg h1, if_pos h2]
            refine Does.pure hw hr (hf.imp ?_)
            intro val p hp
            simp only [Option.bind_eq_some_iff, undo, if_true] at hp
            obtain ⟨q, h1, h2⟩ := hp
            cases h2; exact h1
          · cases hok'
  | un fn =>
    cases fn <;> simp only at hok <;> first | cases hok | skip
    all_goals simp only [invert]
    · refine (logSqrt_does L (o := .sub) (fun _ _ => rfl) hw hr hf).imp ?_
      intro val p hp
      simp only [Option.bind_eq_some_iff, undo, Option.map_eq_some_iff, Bin.base] at hp ⊢
      obtain ⟨q, h1, h2⟩ := hp
      cases h2; exact ⟨q, h1, rfl⟩
    · refine (un_does .log hw hr hf).imp ?_
      intro val p hp
      simp only [Option.bind_eq_some_iff, undo, Option.map_eq_some_iff] at hp ⊢
      obtain ⟨q, h1, h2⟩ := hp
      cases h2; exact ⟨q, h1, rfl⟩
    · refine (un_does .exp hw hr hf).imp ?_
      intro val p hp
      simp only [Option.bind_eq_some_iff, undo, Option.map_eq_some_iff] at hp ⊢
      obtain ⟨q, h1, h2⟩ := hp
      cases h2; exact ⟨q, h1, rfl⟩
    · refine (logSqrt_does L (o := .add) (fun _ _ => rfl) hw hr hf).imp ?_
      intro val p hp
      simp only [Option.bind_eq_some_iff, undo, Option.map_eq_some_iff, Bin.base] at hp ⊢
      obtain ⟨q, h1, h2⟩ := hp
      cases h2; exact ⟨q, h1, rfl⟩
    · refine (compound_does L (o := .mul) (by simp) hw hr hr hf hf).imp ?_
      intro val p hp
      simp only [Option.bind_eq_some_iff, undo, Bin.direct] at hp ⊢
      obtain ⟨q, h1, h2⟩ := hp
      exact ⟨q, h1, q, h1, h2⟩
    · refine (halfLogs_does L hw hr hf).imp ?_
      intro val p hp
      simp only [Option.bind_eq_some_iff, undo, Option.map_eq_some_iff] at hp ⊢
      obtain ⟨q, h1, h2⟩ := hp
      cases h2; exact ⟨q, h1, rfl⟩
  | inv => cases hok
  | assign => cases hok
  | sign => cases hok
  | cond c => cases hok

/-- operations which cannot be inverted raise -/
theorem invert_raises {half : α} {ltr : Bool} {nd : Node α} {first : Bool} {r : Cg α}
    (hs : Shaped nd) (hok : solvableStep I nd first ≠ .ok true) :
    solvableStep I nd first = .ok false ∧ invert I half ltr w nd first r = .error .exception := by
  obtain ⟨op, args⟩ := nd
  unfold Shaped at hs
  simp only at hs
  cases op with
  | inv => exact ⟨rfl, rfl⟩
  | assign => exact ⟨rfl, rfl⟩
  | sign => exact ⟨rfl, rfl⟩
  | cond c => exact ⟨rfl, rfl⟩
  | un fn => cases fn <;> first | exact ⟨rfl, rfl⟩ | exact absurd rfl hok
  | pow =>
    match args, hs with
    | [a, b], _ =>
      cases first
      · exact absurd rfl hok
      · cases b with
        | node n => exact ⟨rfl, rfl⟩
        | param v =>
          have e : solvableStep I ⟨.pow, [a, .param v]⟩ true = (if I.cmp .eq v I.zero then .ok false
            else if I.cmp .eq v I.one then .ok true else .ok false) := rfl
          have e' : invert I half ltr w ⟨.pow, [a, .param v]⟩ true r = (if I.cmp .eq v I.zero then .error .exception
            else if I.cmp .eq v I.one then .ok (r, w) else .error .exception) := rfl
          rw [e] at hok ⊢
          rw [e']
          by_cases h1 : I.cmp .eq v I.zero = true
          · rw [if_pos h1, if_pos h1]; exact ⟨rfl, rfl⟩
          · by_cases h2 : I.cmp .eq v I.one = true
            · rw [if_neg h1, if_pos h2] at hok; exact absurd rfl hok
            · rw [if_neg h1, if_neg h1, if_neg h2, if_neg h2]; exact ⟨rfl, rfl⟩
  | mul | div | neg | add | sub | «alias» => exact absurd rfl hok

/-- inverses along a route -/
def undoAlong (I : Interp α) (half : α) (G : Graph α) (val : Nat → α) : Nat → List Nat → α → Option α
  | _, [], p => some p
  | n, i :: is, p =>
    match (G n).args[i]? with
    | some (.node m) =>
      (undo I half (G n).op (i == 0) ((G n).args.map (argVal val)) p).bind fun q => undoAlong I half G val m is q
    | _ => none

end

theorem other_ok {h0 : Nat} {av : Option Nat} {w : World α} (hw : OkW h0 av w) {n i m v : Nat} {is : List Nat}
    (hi : (w.graph n).args[i]? = some (.node m)) (hr : Route w.graph m is v)
    (hun : ∀ u, av = some u → u = v ∧ ∀ is', Route w.graph n is' v → is' = i :: is) {a : Arg α}
    (ha : (w.graph n).args[otherAt (i == 0)]? = some a) : VaC av w (ofArg a) := by
  cases a with
  | param c => exact vaC_const _ _ _
  | node m' =>
    refine ⟨?_, ?_⟩
    · unfold OkReg ofArg; exact closed_kid hw.closed ha
    · rintro u hu n' hn' ⟨js, hjs⟩
      obtain ⟨rfl, hun⟩ := hun u hu
      cases hn'
      have := hun (otherAt (i == 0) :: js) (route_cons.mpr ⟨m', ha, hjs⟩)
      have h1 := (List.cons.inj this).1
      unfold otherAt at h1
      by_cases h0 : i = 0
      · subst h0; simp at h1
      · simp only [beq_iff_eq, h0, if_false] at h1; omega

theorem stepsUp_cons {G : Graph α} {n i m : Nat} {is : List Nat} (h : (G n).args[i]? = some (.node m)) :
    stepsUp G n (i :: is) = (n, some i) :: stepsUp G m is := by
  simp only [stepsUp, h]

theorem stepsUp_ne {G : Graph α} {n t : Nat} {is : List Nat} (h : Route G n is t) : stepsUp G n is ≠ [] := by
  cases is with
  | nil => simp [stepsUp]
  | cons i is =>
    obtain ⟨m, h1, _⟩ := route_cons.mp h
    rw [stepsUp_cons h1]; simp

theorem solvePath_cons {I : Interp α} {half : α} {ltr : Bool} {G : Graph α} {n : Nat} {i : Option Nat} {rest : UPath}
    {w : World α} {r : Cg α} (h : rest ≠ []) : solvePath I half ltr G ((n, i) :: rest) w r =
      match invert I half ltr w (G n) (i == some 0) r with
      | .error e => .error e
      | .ok (r', w') => solvePath I half ltr G rest w' r' := by
  cases rest with
  | nil => exact absurd rfl h
  | cons a b => rfl

theorem isSolvablePath_cons {I : Interp α} {G : Graph α} {n : Nat} {i : Option Nat} {rest : UPath}
    (h : rest ≠ []) : isSolvablePath I G ((n, i) :: rest) =
      match solvableStep I (G n) (i == some 0) with
      | .ok true => isSolvablePath I G rest
      | r => r := by
  cases rest with
  | nil => exact absurd rfl h
  | cons a b => rfl

theorem some_beq_zero (i : Nat) : (some i == some 0) = (i == 0) := by
  by_cases h : i = 0
  · subst h; rfl
  · simp

theorem solvePath_spec [DecidableEq α] {I : Interp α} (L : Laws I) {half : α} {ltr : Bool} {h0 : Nat} {av : Option Nat}
    {w0 : World α} (hw0 : OkW h0 av w0) (hs : ShapedG w0.graph) {v : Nat} : ∀ (is : List Nat) (n : Nat) (w : World α)
    (r : Cg α) (f : (Nat → α) → Option α), Route w0.graph n is v →
    (∀ u, av = some u → u = v ∧ ∀ is', Route w0.graph n is' v → is' = is) → Grow w0 w → OkW h0 av w → VaC av w r →
    Den I w r f →
    (isSolvablePath I w0.graph (stepsUp w0.graph n is) = .ok true ∧
      Does I h0 av w (solvePath I half ltr w0.graph (stepsUp w0.graph n is) w r)
        (fun val => (f val).bind (undoAlong I half w0.graph val n is))) ∨
    (isSolvablePath I w0.graph (stepsUp w0.graph n is) = .ok false ∧
      solvePath I half ltr w0.graph (stepsUp w0.graph n is) w r = .error .exception) := by
  intro is
  induction is with
  | nil =>
    intro n w r f hr _ hg hw hva hd
    left
    refine ⟨rfl, ?_⟩
    refine (Does.pure hw hva hd).imp ?_
    intro val p hp
    simp only [Option.bind_eq_some_iff, undoAlong] at hp
    obtain ⟨q, h1, h2⟩ := hp
    cases h2; exact h1
  | cons i is ih =>
    intro n w r f hr hun hg hw hva hd
    obtain ⟨m, hi, hr'⟩ := route_cons.mp hr
    rw [stepsUp_cons hi, solvePath_cons (stepsUp_ne hr'), isSolvablePath_cons (stepsUp_ne hr'), some_beq_zero]
    by_cases hok : solvableStep I (w0.graph n) (i == 0) = .ok true
    · have hinv := invert_does L (half := half) (ltr := ltr) (hs n) hok hw hva
        (fun a ha => (other_ok hw0 hi hr' hun ha).mono hg.ext hw0) hd
      obtain ⟨r', w', e, hg', hw', hva', hd'⟩ := hinv.ex
      rw [e, hok]
      simp only
      have hun' : ∀ u, av = some u → u = v ∧ ∀ is', Route w0.graph m is' v → is' = is := by
        intro u hu
        refine ⟨(hun u hu).1, fun is' his' => ?_⟩
        exact (List.cons.inj ((hun u hu).2 (i :: is') (route_cons.mpr ⟨m, hi, his'⟩))).2
      rcases ih m w' r' _ hr' hun' (hg.trans hg') hw' hva' hd' with ⟨h1, h2⟩ | ⟨h1, h2⟩
      · left
        refine ⟨h1, ?_⟩
        obtain ⟨r2, w2, e2, g2, hw2, hva2, hd2⟩ := h2.ex
        refine ⟨r2, w2, e2, hg'.trans g2, hw2, hva2, hd2.imp ?_⟩
        intro val p hp
        simp only [undoAlong, hi] at hp
        simpa only [Option.bind_assoc] using hp
      · right; exact ⟨h1, h2⟩
    · right
      obtain ⟨h1, h2⟩ := invert_raises (I := I) (half := half) (ltr := ltr) (w := w) (r := r) L (hs n) hok
      rw [h1, h2]
      exact ⟨rfl, rfl⟩

end Verif.Solve
