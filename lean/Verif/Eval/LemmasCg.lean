import Verif.Eval.Lemmas
import Verif.Cg.LemmasSim
import Verif.Paths.LemmasGraph
/- The operators of `CG` objects are sound operations of an evaluator. -/
namespace Verif.Eval
open Verif.Codegen Verif.Cg Verif.Paths

variable {α : Type}

/-- all possible effects of an operator on `ins` -/
inductive StepTo (w : World α) (ins : List (Cg α)) : World α → Cg α → Prop
  | const (v : α) : StepTo w ins w (.const v)
  | same {c : Cg α} : c ∈ ins → StepTo w ins w c
  | node {h : Nat} {op : Op} {args : List (Arg α)} {v : Option α} : op ≠ .inv → args.length = arity op →
      (∀ m ∈ argNodes args, ∃ c ∈ ins, c.node = some m) →
      StepTo w ins (w.add h op args).1 ⟨some w.nodes.length, v⟩

theorem argument_node {c : Cg α} {a : Arg α} (h : c.argument = .ok a) : ∀ m ∈ argNodes [a], c.node = some m := by
  unfold Cg.argument at h
  intro m hm
  cases hn : c.node with
  | some n =>
    rw [hn] at h
    cases h
    simp [argNodes] at hm
    rw [hm]
  | none =>
    cases hv : c.value with
    | none => rw [hn, hv] at h; cases h
    | some v =>
      rw [hn, hv] at h
      cases h
      simp [argNodes] at hm

theorem binNode_step {I : Interp α} {o : Bin} {w w' : World α} {h : Nat} {a b r : Cg α}
    (e : binNode I o w h a b = .ok (r, w')) : StepTo w [a, b] w' r := by
  unfold binNode at e
  obtain ⟨u, hu, e⟩ := bind_ok e
  obtain ⟨v, hv, e⟩ := bind_ok e
  cases e
  refine .node (by cases o <;> simp [Bin.op]) (by cases o <;> rfl) ?_
  intro m hm
  rw [argNodes_cons] at hm
  rcases List.mem_append.mp hm with hm | hm
  · exact ⟨a, by simp, argument_node hu m hm⟩
  · exact ⟨b, by simp, argument_node hv m hm⟩

theorem fold_step {I : Interp α} {o : Bin} {w w' : World α} {a b r : Cg α}
    (e : fold I o w a b = .ok (r, w')) : StepTo w [a, b] w' r := by
  unfold fold at e
  obtain ⟨u, _, e⟩ := bind_ok e
  obtain ⟨v, _, e⟩ := bind_ok e
  cases e
  exact .const _

theorem binary_step {I : Interp α} {o : Bin} {w w' : World α} {a b r : Cg α}
    (e : binary I o w a b = .ok (r, w')) : StepTo w [a, b] w' r := by
  unfold binary at e
  split at e
  · exact fold_step e
  · cases o <;> simp only at e
    all_goals
      repeat' split at e
      all_goals first
        | (cases e; exact .const _)
        | (cases e; exact .same (by simp))
        | (obtain ⟨h, _, e⟩ := bind_ok e; exact binNode_step e)
        | exact binNode_step e
        | cases e

theorem compound_step {I : Interp α} {o : Bin} {w w' : World α} {a b r : Cg α}
    (e : compound I o w a b = .ok (r, w')) : StepTo w [a, b] w' r := by
  unfold compound at e
  split at e
  · cases e
  split at e
  · exact fold_step e
  · cases o <;> simp only at e
    all_goals
      repeat' split at e
      all_goals first
        | (cases e; exact .const _)
        | (cases e; exact .same (by simp))
        | (obtain ⟨h, _, e⟩ := bind_ok e; exact binNode_step e)
        | exact binNode_step e
        | cases e

theorem unary_step {op : Op} {g : α → α} {w w' : World α} {a r : Cg α} (hop : op ≠ .inv) (ha : arity op = 1)
    (e : unary op g w a = .ok (r, w')) : StepTo w [a] w' r := by
  unfold unary at e
  split at e
  · obtain ⟨v, _, e⟩ := bind_ok e
    cases e
    exact .const _
  · split at e
    · cases e
    · obtain ⟨u, hu, e⟩ := bind_ok e
      cases e
      exact .node hop (by simp [ha]) fun m hm => ⟨a, by simp, argument_node hu m hm⟩

theorem condExp_step {I : Interp α} {c : Cmp} {w w' : World α} {l r t f q : Cg α}
    (e : condExp I c w l r t f = .ok (q, w')) : StepTo w [l, r, t, f] w' q := by
  unfold condExp at e
  split at e
  · obtain ⟨u, _, e⟩ := bind_ok e
    obtain ⟨v, _, e⟩ := bind_ok e
    split at e <;> (cases e; exact .same (by simp))
  · split at e
    · cases e; exact .same (by simp)
    · obtain ⟨h, _, e⟩ := bind_ok e
      obtain ⟨a, h1, e⟩ := bind_ok e
      obtain ⟨b, h2, e⟩ := bind_ok e
      obtain ⟨u, h3, e⟩ := bind_ok e
      obtain ⟨v, h4, e⟩ := bind_ok e
      cases e
      refine .node (by simp) rfl ?_
      intro m hm
      rw [argNodes_cons, argNodes_cons b, argNodes_cons u] at hm
      simp only [List.mem_append] at hm
      rcases hm with hm | hm | hm | hm
      · exact ⟨l, by simp, argument_node h1 m hm⟩
      · exact ⟨r, by simp, argument_node h2 m hm⟩
      · exact ⟨t, by simp, argument_node h3 m hm⟩
      · exact ⟨f, by simp, argument_node h4 m hm⟩

/-! ### properties kept -/

/-- arguments exist -/
def Closed (w : World α) : Prop :=
  ∀ (n : Nat) (nd : Node α) (h : Nat), w.nodes[n]? = some (nd, h) → ∀ m ∈ argNodes nd.args, m < w.nodes.length

/-- `c` does not depend on the node `v` -/
def Avoid (w : World α) (v : Nat) (c : Cg α) : Prop := ∀ n, c.node = some n → ¬ Reaches w.graph n v

/-- a proper state: the nodes belong to handler `h0`, arguments exist and `av` (if any) exists -/
structure OkW (h0 : Nat) (av : Option Nat) (w : World α) : Prop where
  own : Own h0 w
  closed : Closed w
  av : ∀ v, av = some v → v < w.nodes.length

/-- a proper object which does not depend on `av` -/
structure VaC (av : Option Nat) (w : World α) (c : Cg α) : Prop where
  reg : OkReg w c
  avoid : ∀ v, av = some v → Avoid w v c

theorem graph_of {w : World α} {n : Nat} {nd : Node α} {h : Nat} (e : w.nodes[n]? = some (nd, h)) : w.graph n = nd := by
  unfold World.graph; rw [e]

theorem graph_ext {w w' : World α} (h : Ext w w') {n : Nat} (hn : n < w.nodes.length) : w'.graph n = w.graph n := by
  obtain ⟨⟨s, hs⟩, _⟩ := h
  unfold World.graph
  rw [hs, List.getElem?_append_left hn]

theorem graph_none {w : World α} {n : Nat} (h : w.nodes.length ≤ n) : w.graph n = ⟨.inv, []⟩ := by
  unfold World.graph; rw [List.getElem?_eq_none h]

theorem closed_kid {w : World α} (hc : Closed w) {n i m : Nat} (h : (w.graph n).args[i]? = some (.node m)) :
    m < w.nodes.length := by
  by_cases hn : n < w.nodes.length
  · have hk := mem_kids_of h
    have e : w.nodes[n]? = some w.nodes[n] := List.getElem?_eq_getElem hn
    have hg := graph_of (nd := w.nodes[n].1) (h := w.nodes[n].2) e
    unfold kids at hk
    rw [hg] at hk
    exact hc n _ _ e m hk
  · rw [graph_none (by omega)] at h; simp at h

/-- routes starting at old nodes are the old ones -/
theorem route_ext {w w' : World α} (h : Ext w w') (hc : Closed w) {n t : Nat} {is : List Nat}
    (hn : n < w.nodes.length) : Route w'.graph n is t ↔ Route w.graph n is t := by
  induction is generalizing n with
  | nil => rw [route_nil, route_nil]
  | cons i is ih =>
    rw [route_cons, route_cons, graph_ext h hn]
    constructor
    · rintro ⟨m, h1, h2⟩; exact ⟨m, h1, (ih (closed_kid hc h1)).mp h2⟩
    · rintro ⟨m, h1, h2⟩; exact ⟨m, h1, (ih (closed_kid hc h1)).mpr h2⟩

theorem Avoid.ext {w w' : World α} (h : Ext w w') (hc : Closed w) {v : Nat} {c : Cg α} (hr : OkReg w c)
    (ha : Avoid w v c) : Avoid w' v c := by
  rintro n hn ⟨is, his⟩
  unfold OkReg at hr
  rw [hn] at hr
  exact ha n hn ⟨is, (route_ext h hc hr).mp his⟩

theorem StepTo.ext {w w' : World α} {ins : List (Cg α)} {r : Cg α} (h : StepTo w ins w' r) : Ext w w' := by
  cases h with
  | const v => exact Ext.refl _
  | same _ => exact Ext.refl _
  | node _ _ _ => exact ext_add _ _ _ _

theorem add_closed {w : World α} (hc : Closed w) {h : Nat} {op : Op} {args : List (Arg α)}
    (ha : ∀ m ∈ argNodes args, m < w.nodes.length) : Closed (w.add h op args).1 := by
  intro n nd h' e m hm
  simp only [World.add] at e ⊢
  rw [List.length_append, List.length_singleton]
  rw [List.getElem?_append] at e
  split at e
  · have := hc n nd h' e m hm; omega
  · rw [List.getElem?_singleton] at e
    split at e
    · cases e; have := ha m hm; omega
    · cases e

theorem StepTo.keep {h0 : Nat} {av : Option Nat} {w w' : World α} {ins : List (Cg α)} {r : Cg α} (h : StepTo w ins w' r)
    (hw : OkW h0 av w) (hi : ∀ c ∈ ins, VaC av w c) (ho : Own h0 w') : OkW h0 av w' ∧ VaC av w' r := by
  cases h with
  | const v =>
    exact ⟨hw, okReg_const _ _, fun v _ n hn => by cases hn⟩
  | same hc => exact ⟨hw, hi _ hc⟩
  | @node h op args v hop hlen hargs =>
    have hlt : ∀ m ∈ argNodes args, m < w.nodes.length := by
      intro m hm
      obtain ⟨c, hc, hcm⟩ := hargs m hm
      have := (hi c hc).reg
      unfold OkReg at this
      rw [hcm] at this
      exact this
    have hcl := add_closed (h := h) (op := op) hw.closed hlt
    refine ⟨⟨ho, hcl, ?_⟩, ?_, ?_⟩
    · intro v hv
      have := hw.av v hv
      simp only [World.add, List.length_append]; omega
    · unfold OkReg; simp [World.add]
    · rintro v hv n hn ⟨is, his⟩
      cases hn
      cases is with
      | nil =>
        rw [route_nil] at his
        have := hw.av v hv; omega
      | cons i is =>
        obtain ⟨m, h1, h2⟩ := route_cons.mp his
        have hg : (w.add h op args).1.graph w.nodes.length = ⟨op, args⟩ := graph_of (h := h) (by simp [World.add])
        rw [hg] at h1
        have hm : m ∈ argNodes args := by
          unfold argNodes
          rw [List.mem_filterMap]
          exact ⟨.node m, List.mem_of_getElem? h1, rfl⟩
        obtain ⟨c, hc, hcm⟩ := hargs m hm
        exact (hi c hc).avoid v hv m hcm ⟨is, (route_ext (ext_add _ _ _ _) hw.closed (hlt m hm)).mp h2⟩

theorem VaC.mono {h0 : Nat} {av : Option Nat} {w w' : World α} (h : Ext w w') (hw : OkW h0 av w) {c : Cg α}
    (hc : VaC av w c) : VaC av w' c :=
  ⟨hc.reg.ext h, fun v hv => (hc.avoid v hv).ext h hw.closed hc.reg⟩

/-! ### soundness -/

/-- only divisions by zero are excluded -/
def cgDom (I : Interp α) (op : Op) (ps : List α) : Prop := op = .div → ps[1]? ≠ some I.zero

/-- the operations have their arguments -/
def Shaped (nd : Node α) : Prop := nd.args.length = arity nd.op

/-- every operation has its arguments -/
def ShapedG (G : Graph α) : Prop := ∀ n, Shaped (G n)

/-- extension by operations on existing ones -/
structure Grow (w w' : World α) : Prop where
  ext : Ext w w'
  indeps : w'.indeps = w.indeps
  shaped : ShapedG w.graph → ShapedG w'.graph
  acyclic : (∃ rank, Ranked w.graph rank) → ∃ rank, Ranked w'.graph rank
  inputs : ∀ (n : Nat) nd h, w'.nodes[n]? = some (nd, h) → nd.op = .inv → w.nodes[n]? = some (nd, h)

theorem Grow.refl (w : World α) : Grow w w := ⟨Ext.refl _, rfl, id, id, fun _ _ _ h _ => h⟩
theorem Grow.trans {a b c : World α} (h : Grow a b) (h' : Grow b c) : Grow a c :=
  ⟨h.ext.trans h'.ext, by rw [h'.indeps, h.indeps], fun hs => h'.shaped (h.shaped hs),
    fun hr => h'.acyclic (h.acyclic hr), fun n nd k e ho => h.inputs n nd k (h'.inputs n nd k e ho) ho⟩

theorem le_sum_of_mem' {l : List Nat} {a : Nat} (h : a ∈ l) : a ≤ l.sum := by
  induction l with
  | nil => cases h
  | cons b l ih =>
    rw [List.sum_cons]
    rcases List.mem_cons.mp h with h | h
    · omega
    · have := ih h; omega

theorem StepTo.grow {h0 : Nat} {av : Option Nat} {w w' : World α} {ins : List (Cg α)} {r : Cg α} (h : StepTo w ins w' r)
    (hw : OkW h0 av w) (hi : ∀ c ∈ ins, VaC av w c) : Grow w w' := by
  cases h with
  | const v => exact Grow.refl _
  | same _ => exact Grow.refl _
  | @node h op args v hop hlen hargs =>
    have hlt : ∀ m ∈ argNodes args, m < w.nodes.length := by
      intro m hm
      obtain ⟨c, hc, hcm⟩ := hargs m hm
      have := (hi c hc).reg
      unfold OkReg at this
      rw [hcm] at this
      exact this
    have hg : (w.add h op args).1.graph w.nodes.length = ⟨op, args⟩ := graph_of (h := h) (by simp [World.add])
    have hold : ∀ n, n < w.nodes.length → (w.add h op args).1.graph n = w.graph n :=
      fun n hn => graph_ext (ext_add _ _ _ _) hn
    have hnew : ∀ n, w.nodes.length < n → (w.add h op args).1.graph n = ⟨.inv, []⟩ := by
      intro n hn
      refine graph_none ?_
      simp only [World.add, List.length_append, List.length_singleton]; omega
    refine ⟨ext_add _ _ _ _, rfl, ?_, ?_, ?_⟩
    · intro hs n
      rcases Nat.lt_trichotomy n w.nodes.length with hn | hn | hn
      · rw [hold n hn]; exact hs n
      · subst hn; rw [hg]; exact hlen
      · rw [hnew n hn]; rfl
    · rintro ⟨rank, hr⟩
      refine ⟨fun n => if n = w.nodes.length then 1 + ((argNodes args).map rank).sum else rank n, ?_⟩
      intro n m hm
      rcases Nat.lt_trichotomy n w.nodes.length with hn | hn | hn
      · have hm' : m ∈ kids w.graph n := by unfold kids at hm ⊢; rw [hold n hn] at hm; exact hm
        have hml : m < w.nodes.length := by
          obtain ⟨⟨nd, h'⟩, e⟩ : ∃ q, w.nodes[n]? = some q := ⟨_, List.getElem?_eq_getElem hn⟩
          unfold kids at hm'
          rw [graph_of e] at hm'
          exact hw.closed n nd h' e m hm'
        simp only
        rw [if_neg (by omega), if_neg (by omega)]
        exact hr n m hm'
      · subst hn
        unfold kids at hm
        rw [hg] at hm
        have hml := hlt m hm
        simp only
        rw [if_neg (by omega), if_pos trivial]
        have : rank m ≤ ((argNodes args).map rank).sum := le_sum_of_mem' (List.mem_map.mpr ⟨m, hm, rfl⟩)
        omega
      · unfold kids at hm
        rw [hnew n hn] at hm
        cases hm
    · intro n nd k e ho
      simp only [World.add] at e
      rw [List.getElem?_append] at e
      split at e
      · exact e
      · have := List.mem_of_getElem? e
        rw [List.mem_singleton] at this
        cases this
        exact absurd ho hop

/-- extension of proper states -/
def LeW (h0 : Nat) (av : Option Nat) (w w' : World α) : Prop := w = w' ∨ Grow w w' ∧ OkW h0 av w

theorem cg_sound [DecidableEq α] {I : Interp α} (L : Laws I) (h0 : Nat) (av : Option Nat) (x val : Nat → α) :
    Sound (cgOps I) I (LeW h0 av) (OkW h0 av) (VaC av) (fun w => w.Val I x val) (Good False val) (cgDom I) := by
  have hle : ∀ {w w' : World α} {ins r}, OkW h0 av w → (∀ c ∈ ins, VaC av w c) → StepTo w ins w' r → LeW h0 av w w' :=
    fun hw hi h => .inr ⟨h.grow hw hi, hw⟩
  refine ⟨fun s => .inl rfl, ?_, ?_, ?_, ?_, ?_, ?_⟩
  · rintro a b c (rfl | ⟨h1, h2⟩) h
    · exact h
    · rcases h with rfl | ⟨h3, _⟩
      · exact .inr ⟨h1, h2⟩
      · exact .inr ⟨h1.trans h3, h2⟩
  · rintro s s' a (rfl | ⟨h1, h2⟩) h
    · exact h
    · exact h.mono h1.ext h2
  · rintro s s' (rfl | ⟨h1, _⟩) h
    · exact h
    · exact h1.ext.val h
  · intro s v; exact ⟨okReg_const _ _, fun v _ n hn => by cases hn⟩
  · intro v; exact good_const v
  · intro op as s hs hva hlen hinv hu
    have hun : ∀ (op : Op) (g : α → α) (a : Cg α), op ≠ .inv → arity op = 1 → VaC av s a →
        (∀ v, opSem I op [v] = some (g v)) →
        ∃ r s', unary op g s a = .ok (r, s') ∧ LeW h0 av s s' ∧ OkW h0 av s' ∧ VaC av s' r ∧
          (s'.Val I x val → ∀ ps p, List.Forall₂ (Good False val) [a] ps → opSem I op ps = some p →
            Good False val r p) := by
      intro op g a hop har ha hsem
      obtain ⟨r, s', e, ho⟩ := unary_fine (op := op) (g := g) hs.own ha.reg
      have hst := unary_step hop har e
      have hin : ∀ c ∈ [a], VaC av s c := by simpa using ha
      obtain ⟨h1, h2⟩ := hst.keep hs hin ho
      refine ⟨r, s', e, hle hs hin hst, h1, h2, ?_⟩
      intro hf ps p hps hp
      cases hps with
      | cons h3 h4 =>
        cases h4
        rw [hsem] at hp
        cases hp
        exact unary_good hop hsem h3 e hf
    have hbin : ∀ (o : Bin) (a b : Cg α), VaC av s a → VaC av s b →
        ∃ r s', binary I o s a b = .ok (r, s') ∧ LeW h0 av s s' ∧ OkW h0 av s' ∧ VaC av s' r ∧
          (s'.Val I x val → ∀ ps p, List.Forall₂ (Good False val) [a, b] ps → cgDom I o.op ps →
            opSem I o.op ps = some p → Good False val r p) := by
      intro o a b ha hb
      obtain ⟨r, s', e, ho⟩ := binary_fine (I := I) (o := o) hs.own ha.reg hb.reg
      have hst := binary_step e
      have hin : ∀ c ∈ [a, b], VaC av s c := by
        intro c hc
        simp only [List.mem_cons, List.not_mem_nil, or_false] at hc
        rcases hc with rfl | rfl <;> assumption
      obtain ⟨h1, h2⟩ := hst.keep hs hin ho
      refine ⟨r, s', e, hle hs hin hst, h1, h2, ?_⟩
      intro hf ps p hps hd hp
      cases hps with
      | cons h3 h4 =>
        cases h4 with
        | cons h4 h5 =>
          cases h5
          refine binary_good L h3 h4 e hf ?_
          rw [op_base] at hp
          cases hp
          cases o <;> simp only [Bin.direct, Bin.base]
          rw [if_neg]
          intro h0
          exact hd rfl (by simp [h0])
    cases op with
    | inv => exact absurd rfl hinv
    | assign =>
      match as, hlen with
      | [a], _ =>
        refine ⟨a, s, rfl, .inl rfl, hs, hva a (by simp), ?_⟩
        intro _ ps p hps _ hp
        cases hps with
        | cons h1 h2 => cases h2; cases hp; exact h1
    | «alias» =>
      match as, hlen with
      | [a], _ =>
        refine ⟨a, s, rfl, .inl rfl, hs, hva a (by simp), ?_⟩
        intro _ ps p hps _ hp
        cases hps with
        | cons h1 h2 => cases h2; cases hp; exact h1
    | un f =>
      match as, hlen with
      | [a], _ =>
        have hsup : supported f = true := by simpa [unsupportedOp] using hu
        obtain ⟨r, s', e, h1, h2, h3, h4⟩ := hun (.un f) (I.un f) a (by simp) rfl (hva a (by simp)) (fun v => rfl)
        exact ⟨r, s', by simp only [applyOps, hsup, if_true]; exact e, h1, h2, h3, fun hf ps p hps _ hp => h4 hf ps p hps hp⟩
    | neg =>
      match as, hlen with
      | [a], _ =>
        obtain ⟨r, s', e, h1, h2, h3, h4⟩ := hun .neg I.neg a (by simp) rfl (hva a (by simp)) (fun v => rfl)
        exact ⟨r, s', e, h1, h2, h3, fun hf ps p hps _ hp => h4 hf ps p hps hp⟩
    | sign =>
      match as, hlen with
      | [a], _ =>
        obtain ⟨r, s', e, h1, h2, h3, h4⟩ := hun .sign (signValue I) a (by simp) rfl (hva a (by simp))
          (fun v => by rw [signValue_eq L]; rfl)
        exact ⟨r, s', e, h1, h2, h3, fun hf ps p hps _ hp => h4 hf ps p hps hp⟩
    | add =>
      match as, hlen with
      | [a, b], _ => exact hbin .add a b (hva a (by simp)) (hva b (by simp))
    | sub =>
      match as, hlen with
      | [a, b], _ => exact hbin .sub a b (hva a (by simp)) (hva b (by simp))
    | mul =>
      match as, hlen with
      | [a, b], _ => exact hbin .mul a b (hva a (by simp)) (hva b (by simp))
    | div =>
      match as, hlen with
      | [a, b], _ => exact hbin .div a b (hva a (by simp)) (hva b (by simp))
    | pow =>
      match as, hlen with
      | [a, b], _ => exact hbin .pow a b (hva a (by simp)) (hva b (by simp))
    | cond c =>
      match as, hlen with
      | [l, r, t, f], _ =>
        have hl := hva l (by simp)
        have hr := hva r (by simp)
        have ht := hva t (by simp)
        have hf := hva f (by simp)
        obtain ⟨q, s', e, ho⟩ := condExp_fine (I := I) (c := c) hs.own hl.reg hr.reg ht.reg hf.reg
        have hst := condExp_step e
        obtain ⟨h1, h2⟩ := hst.keep hs hva ho
        refine ⟨q, s', e, hle hs hva hst, h1, h2, ?_⟩
        intro hfin ps p hps _ hp
        cases hps with
        | cons h3 hps => cases hps with
          | cons h4 hps => cases hps with
            | cons h5 hps => cases hps with
              | cons h6 hps =>
                cases hps
                cases hp
                exact condExp_good (fun a b h => (L.eq_iff a b).mp h) h3 h4 h5 h6 e hfin

/-- plain numbers -/
theorem plain_sound (I : Interp α) :
    Sound (plainOps I) I (fun _ _ => True) (fun _ => True) (fun _ _ => True) (fun _ => True) (fun a p => a = p)
      (fun _ _ => True) := by
  refine ⟨fun _ => trivial, fun _ _ => trivial, fun _ _ => trivial, fun _ _ => trivial, fun _ _ => trivial,
    fun _ => rfl, ?_⟩
  intro op as s _ _ hlen hinv hu
  have key : ∀ r, applyOps (plainOps I) op as s = .ok (r, s) → (∀ p, opSem I op as = some p → r = p) →
      ∃ r s', applyOps (plainOps I) op as s = .ok (r, s') ∧ True ∧ True ∧ True ∧
        (True → ∀ ps p, List.Forall₂ (fun a p => a = p) as ps → True → opSem I op ps = some p → r = p) := by
    intro r e h
    refine ⟨r, s, e, trivial, trivial, trivial, ?_⟩
    intro _ ps p hps _ hp
    have : as = ps := by
      rw [← List.forall₂_eq_eq_eq]; exact hps
    subst this
    exact h p hp
  cases op with
  | inv => exact absurd rfl hinv
  | assign | «alias» | neg | sign =>
    match as, hlen with
    | [a], _ => exact key _ rfl (fun p hp => by cases hp; rfl)
  | un f =>
    match as, hlen with
    | [a], _ =>
      have hsup : supported f = true := by simpa [unsupportedOp] using hu
      exact key _ (by simp only [applyOps, hsup, if_true]; rfl) (fun p hp => by cases hp; rfl)
  | add | sub | mul | div | pow =>
    match as, hlen with
    | [a, b], _ => exact key _ rfl (fun p hp => by cases hp; rfl)
  | cond c =>
    match as, hlen with
    | [l, r, t, f], _ => exact key _ rfl (fun p hp => by cases hp; rfl)

end Verif.Eval
