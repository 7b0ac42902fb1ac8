import Verif.Cg.Lemmas
namespace Verif.Cg
open Verif.Codegen
variable {α : Type}

/-- arity of recorded operations; aliases and assignments are never recorded by operators -/
def Arity (op : Op) (args : List (Arg α)) : Prop :=
  match op with
  | .inv => args = []
  | .assign | .alias => False
  | .un _ | .neg => ∃ a, args = [a]
  | .sign => ∃ m, args = [.node m]
  | .add | .sub | .mul | .div | .pow => ∃ a b, args = [a, b]
  | .cond _ => ∃ l r t f, args = [l, r, t, f]

structure WorldOk (w : World α) : Prop where
  args : ∀ (n : Nat) (nd : Node α) (h : Nat), w.nodes[n]? = some (nd, h) → ∀ m ∈ argNodes nd.args, m < n
  arity : ∀ (n : Nat) (nd : Node α) (h : Nat), w.nodes[n]? = some (nd, h) → Arity nd.op nd.args
  indep : ∀ n, n ∈ w.indeps ↔ ∃ nd h, w.nodes[n]? = some (nd, h) ∧ nd.op = .inv
  nodup : w.indeps.Nodup

/-- a variable belongs to an existing node, a constant has a value -/
def OkReg (w : World α) (c : Cg α) : Prop :=
  match c.node with
  | some n => n < w.nodes.length
  | none => c.value.isSome = true

theorem OkReg.ext {w w' : World α} {c : Cg α} (h : OkReg w c) (he : Ext w w') : OkReg w' c := by
  obtain ⟨⟨s, hs⟩, _⟩ := he
  unfold OkReg at *
  cases hn : c.node with
  | none => rw [hn] at h; exact h
  | some n => rw [hn] at h; simp only at *; rw [hs, List.length_append]; omega

theorem okReg_const (w : World α) (v : α) : OkReg w (Cg.const v) := rfl

theorem OkReg.arg {w : World α} {c : Cg α} (h : OkReg w c) :
    ∃ a, c.argument = .ok a ∧ (∀ m ∈ argNodes [a], m < w.nodes.length) ∧
      (c.isPar = false → ∃ m, a = .node m ∧ c.node = some m) := by
  unfold OkReg at h
  unfold Cg.argument Cg.isPar
  cases hn : c.node with
  | none =>
    rw [hn] at h
    simp only at h
    obtain ⟨v, hv⟩ := Option.isSome_iff_exists.1 h
    rw [hv]
    exact ⟨_, rfl, by simp [argNodes], by simp⟩
  | some n =>
    rw [hn] at h
    exact ⟨_, rfl, by simpa [argNodes] using h, fun _ => ⟨n, rfl, rfl⟩⟩

theorem argNodes_cons (a : Arg α) (l : List (Arg α)) : argNodes (a :: l) = argNodes [a] ++ argNodes l := by
  cases a <;> simp [argNodes]

theorem worldOk_add {w : World α} (hw : WorldOk w) {h : Nat} {op : Op} {args : List (Arg α)}
    (ha : ∀ m ∈ argNodes args, m < w.nodes.length) (hs : Arity op args) (hop : op ≠ .inv) :
    WorldOk (w.add h op args).1 := by
  have hsplit : ∀ (n : Nat) (nd : Node α) (h' : Nat), (w.add h op args).1.nodes[n]? = some (nd, h') →
      w.nodes[n]? = some (nd, h') ∨ (n = w.nodes.length ∧ nd = ⟨op, args⟩ ∧ h' = h) := by
    intro n nd h' hn
    simp only [World.add] at hn
    rw [List.getElem?_append] at hn
    split at hn
    · exact Or.inl hn
    · rename_i hlt
      rw [List.getElem?_singleton] at hn
      split at hn
      · rename_i hz
        cases hn
        exact Or.inr ⟨by omega, rfl, rfl⟩
      · cases hn
  refine ⟨?_, ?_, ?_, hw.nodup⟩
  · intro n nd h' hn m hm
    rcases hsplit n nd h' hn with h1 | ⟨h1, rfl, _⟩
    · exact hw.args n nd h' h1 m hm
    · rw [h1]; exact ha m hm
  · intro n nd h' hn
    rcases hsplit n nd h' hn with h1 | ⟨h1, rfl, _⟩
    · exact hw.arity n nd h' h1
    · exact hs
  · intro n
    constructor
    · intro hn
      obtain ⟨nd, h', h1, h2⟩ := (hw.indep n).1 hn
      exact ⟨nd, h', getElem?_append_some _ h1, h2⟩
    · rintro ⟨nd, h', h1, h2⟩
      rcases hsplit n nd h' h1 with h3 | ⟨_, rfl, _⟩
      · exact (hw.indep n).2 ⟨nd, h', h3, h2⟩
      · exact absurd h2 hop

theorem worldOk_indep {w : World α} (hw : WorldOk w) (h : Nat) (v : Option α) :
    WorldOk (makeIndep w h v).2 ∧ OkReg (makeIndep w h v).2 (makeIndep w h v).1 ∧
      Ext w (makeIndep w h v).2 := by
  have hsplit : ∀ (n : Nat) (nd : Node α) (h' : Nat), (makeIndep w h v).2.nodes[n]? = some (nd, h') →
      w.nodes[n]? = some (nd, h') ∨ (n = w.nodes.length ∧ nd = ⟨.inv, []⟩ ∧ h' = h) := by
    intro n nd h' hn
    simp only [makeIndep] at hn
    rw [List.getElem?_append] at hn
    split at hn
    · exact Or.inl hn
    · rename_i hlt
      rw [List.getElem?_singleton] at hn
      split at hn
      · rename_i hz
        cases hn
        exact Or.inr ⟨by omega, rfl, rfl⟩
      · cases hn
  refine ⟨⟨?_, ?_, ?_, ?_⟩, ?_, ⟨⟨_, rfl⟩, ⟨_, rfl⟩⟩⟩
  · intro n nd h' hn m hm
    rcases hsplit n nd h' hn with h1 | ⟨h1, rfl, _⟩
    · exact hw.args n nd h' h1 m hm
    · simp [argNodes] at hm
  · intro n nd h' hn
    rcases hsplit n nd h' hn with h1 | ⟨h1, rfl, _⟩
    · exact hw.arity n nd h' h1
    · rfl
  · intro n
    simp only [makeIndep, List.mem_append, List.mem_singleton]
    constructor
    · rintro (hn | hn)
      · obtain ⟨nd, h', h1, h2⟩ := (hw.indep n).1 hn
        exact ⟨nd, h', getElem?_append_some _ h1, h2⟩
      · subst hn
        exact ⟨⟨.inv, []⟩, h, by simp, rfl⟩
    · rintro ⟨nd, h', h1, h2⟩
      rcases hsplit n nd h' h1 with h3 | ⟨h3, _, _⟩
      · exact Or.inl ((hw.indep n).2 ⟨nd, h', h3, h2⟩)
      · exact Or.inr h3
  · simp only [makeIndep]
    rw [List.nodup_append]
    refine ⟨hw.nodup, by simp, ?_⟩
    intro a ha b hb
    simp only [List.mem_singleton] at hb
    subst hb
    intro hab
    subst hab
    obtain ⟨nd, h', h1, _⟩ := (hw.indep _).1 ha
    have := (List.getElem?_eq_some_iff.1 h1).1
    omega
  · simp [OkReg, makeIndep]

/-- what every operation guarantees about the recorded graph -/
structure OpOk (w w' : World α) (r : Cg α) : Prop where
  world : WorldOk w'
  reg : OkReg w' r
  ext : Ext w w'

theorem opOk_same {w : World α} (hw : WorldOk w) {r : Cg α} (hr : OkReg w r) : OpOk w w r :=
  ⟨hw, hr, Ext.refl _⟩

theorem opOk_add {w : World α} (hw : WorldOk w) {h : Nat} {op : Op} {args : List (Arg α)} {v : Option α}
    (ha : ∀ m ∈ argNodes args, m < w.nodes.length) (hs : Arity op args) (hop : op ≠ .inv) :
    OpOk w (w.add h op args).1 ⟨some w.nodes.length, v⟩ :=
  ⟨worldOk_add hw ha hs hop, by simp [OkReg, World.add], ext_add _ _ _ _⟩

theorem binNode_ok {I : Interp α} {o : Bin} {w w' : World α} {h : Nat} {a b r : Cg α} (hw : WorldOk w)
    (ha : OkReg w a) (hb : OkReg w b) (e : binNode I o w h a b = .ok (r, w')) : OpOk w w' r := by
  obtain ⟨u, hu, hu', _⟩ := ha.arg
  obtain ⟨v, hv, hv', _⟩ := hb.arg
  unfold binNode at e
  rw [hu, hv] at e
  cases e
  refine opOk_add hw ?_ ?_ (by cases o <;> simp [Bin.op])
  · intro m hm
    rw [argNodes_cons, List.mem_append] at hm
    rcases hm with hm | hm
    · exact hu' m hm
    · exact hv' m hm
  · cases o <;> exact ⟨_, _, rfl⟩

theorem fold_ok {I : Interp α} {o : Bin} {w w' : World α} {a b r : Cg α} (hw : WorldOk w)
    (e : fold I o w a b = .ok (r, w')) : OpOk w w' r := by
  unfold fold at e
  obtain ⟨u, _, e⟩ := bind_ok e
  obtain ⟨v, _, e⟩ := bind_ok e
  cases e
  exact opOk_same hw (okReg_const _ _)

theorem binary_ok {I : Interp α} {o : Bin} {w w' : World α} {a b r : Cg α} (hw : WorldOk w)
    (ha : OkReg w a) (hb : OkReg w b) (e : binary I o w a b = .ok (r, w')) : OpOk w w' r := by
  unfold binary at e
  split at e
  · exact fold_ok hw e
  · cases o <;> simp only at e
    all_goals
      repeat' split at e
    all_goals first
      | cases e; exact opOk_same hw ha
      | cases e; exact opOk_same hw hb
      | cases e; exact opOk_same hw (okReg_const _ _)
      | (obtain ⟨h, _, e⟩ := bind_ok e; exact binNode_ok hw ha hb e)
      | exact binNode_ok hw ha hb e
      | cases e

theorem compound_ok {I : Interp α} {o : Bin} {w w' : World α} {a b r : Cg α} (hw : WorldOk w)
    (ha : OkReg w a) (hb : OkReg w b) (e : compound I o w a b = .ok (r, w')) : OpOk w w' r := by
  unfold compound at e
  split at e
  · cases e
  split at e
  · exact fold_ok hw e
  · cases o <;> simp only at e
    all_goals
      repeat' split at e
    all_goals first
      | cases e; exact opOk_same hw ha
      | cases e; exact opOk_same hw hb
      | cases e; exact opOk_same hw (okReg_const _ _)
      | (obtain ⟨h, _, e⟩ := bind_ok e; exact binNode_ok hw ha hb e)
      | cases e

theorem unary_ok {op : Op} {g : α → α} {w w' : World α} {a r : Cg α} (hw : WorldOk w)
    (ha : OkReg w a) (hop : op ≠ .inv) (hs : ∀ m, Arity (α := α) op [.node m])
    (e : unary op g w a = .ok (r, w')) : OpOk w w' r := by
  unfold unary at e
  split at e
  · obtain ⟨v, _, e⟩ := bind_ok e
    cases e
    exact opOk_same hw (okReg_const _ _)
  · rename_i hp
    split at e
    · cases e
    · obtain ⟨u, hu, hu', hn⟩ := ha.arg
      rw [hu] at e
      cases e
      obtain ⟨m, hm, _⟩ := hn (by simpa using hp)
      subst hm
      exact opOk_add hw hu' (hs m) hop

theorem condExp_ok {I : Interp α} {c : Cmp} {w w' : World α} {l r t f q : Cg α} (hw : WorldOk w)
    (hl : OkReg w l) (hr : OkReg w r) (ht : OkReg w t) (hf : OkReg w f)
    (e : condExp I c w l r t f = .ok (q, w')) : OpOk w w' q := by
  unfold condExp at e
  split at e
  · obtain ⟨u, _, e⟩ := bind_ok e
    obtain ⟨v, _, e⟩ := bind_ok e
    split at e
    · cases e; exact opOk_same hw ht
    · cases e; exact opOk_same hw hf
  · split at e
    · cases e; exact opOk_same hw ht
    · obtain ⟨h, _, e⟩ := bind_ok e
      obtain ⟨_, g1, k1, _⟩ := hl.arg
      obtain ⟨_, g2, k2, _⟩ := hr.arg
      obtain ⟨_, g3, k3, _⟩ := ht.arg
      obtain ⟨_, g4, k4, _⟩ := hf.arg
      rw [g1, g2, g3, g4] at e
      cases e
      refine opOk_add hw ?_ ⟨_, _, _, _, rfl⟩ (by simp)
      intro m hm
      rw [argNodes_cons, List.mem_append] at hm
      rcases hm with hm | hm
      · exact k1 m hm
      rw [argNodes_cons, List.mem_append] at hm
      rcases hm with hm | hm
      · exact k2 m hm
      rw [argNodes_cons, List.mem_append] at hm
      rcases hm with hm | hm
      · exact k3 m hm
      · exact k4 m hm

/-! ### the whole recording -/

structure StOk (s : RState α) : Prop where
  world : WorldOk s.world
  regs : ∀ c ∈ s.regs, OkReg s.world c

theorem reg_ok {s : RState α} {i : Nat} {c : Cg α} (h : reg s i = .ok c) : s.regs[i]? = some c := by
  unfold reg at h
  split at h
  · cases h; assumption
  · cases h

theorem StOk.append {s : RState α} (hs : StOk s) {w' : World α} {r : Cg α} (h : OpOk s.world w' r) :
    StOk ⟨s.regs ++ [r], w'⟩ := by
  refine ⟨h.world, ?_⟩
  intro c hc
  rcases List.mem_append.1 hc with hc | hc
  · exact (hs.regs c hc).ext h.ext
  · rw [List.mem_singleton] at hc
    subst hc
    exact h.reg

theorem StOk.set {s : RState α} (hs : StOk s) {w' : World α} {r : Cg α} (i : Nat)
    (h : OpOk s.world w' r) : StOk ⟨s.regs.set i r, w'⟩ := by
  refine ⟨h.world, ?_⟩
  intro c hc
  rcases List.mem_or_eq_of_mem_set hc with hc | hc
  · exact (hs.regs c hc).ext h.ext
  · subst hc
    exact h.reg

theorem step_ok {I : Interp α} {s s' : RState α} (hs : StOk s) {i : Instr α}
    (e : step I s i = .ok s') : StOk s' ∧ Ext s.world s'.world := by
  have hreg : ∀ {i : Nat} {c : Cg α}, reg s i = .ok c → OkReg s.world c := by
    intro i c h
    exact hs.regs c (List.mem_of_getElem? (reg_ok h))
  cases i with
  | const v =>
    cases e
    exact ⟨hs.append (opOk_same hs.world (okReg_const _ _)), Ext.refl _⟩
  | indep h v =>
    cases e
    obtain ⟨h1, h2, h3⟩ := worldOk_indep hs.world h v
    exact ⟨hs.append ⟨h1, h2, h3⟩, h3⟩
  | bin o i j =>
    obtain ⟨a, ea, e⟩ := bind_ok e
    obtain ⟨b, eb, e⟩ := bind_ok e
    obtain ⟨⟨r, w'⟩, er, e⟩ := bind_ok e
    cases e
    have := binary_ok hs.world (hreg ea) (hreg eb) er
    exact ⟨hs.append this, this.ext⟩
  | upd o i j =>
    obtain ⟨a, ea, e⟩ := bind_ok e
    obtain ⟨b, eb, e⟩ := bind_ok e
    obtain ⟨⟨r, w'⟩, er, e⟩ := bind_ok e
    cases e
    have := compound_ok hs.world (hreg ea) (hreg eb) er
    exact ⟨hs.set i this, this.ext⟩
  | copy i j =>
    obtain ⟨a, ea, e⟩ := bind_ok e
    obtain ⟨b, eb, e⟩ := bind_ok e
    cases e
    exact ⟨hs.set i (opOk_same hs.world (hreg eb)), Ext.refl _⟩
  | un f i =>
    obtain ⟨a, ea, e⟩ := bind_ok e
    obtain ⟨⟨r, w'⟩, er, e⟩ := bind_ok e
    cases e
    have := unary_ok (op := .un f) hs.world (hreg ea) (by simp) (fun m => ⟨_, rfl⟩) er
    exact ⟨hs.append this, this.ext⟩
  | neg i =>
    obtain ⟨a, ea, e⟩ := bind_ok e
    obtain ⟨⟨r, w'⟩, er, e⟩ := bind_ok e
    cases e
    have := unary_ok (op := .neg) hs.world (hreg ea) (by simp) (fun m => ⟨_, rfl⟩) er
    exact ⟨hs.append this, this.ext⟩
  | sign i =>
    obtain ⟨a, ea, e⟩ := bind_ok e
    obtain ⟨⟨r, w'⟩, er, e⟩ := bind_ok e
    cases e
    have := unary_ok (op := .sign) hs.world (hreg ea) (by simp) (fun m => ⟨_, rfl⟩) er
    exact ⟨hs.append this, this.ext⟩
  | cond c l r t f =>
    obtain ⟨a, ea, e⟩ := bind_ok e
    obtain ⟨b, eb, e⟩ := bind_ok e
    obtain ⟨u, eu, e⟩ := bind_ok e
    obtain ⟨v, ev, e⟩ := bind_ok e
    obtain ⟨⟨r, w'⟩, er, e⟩ := bind_ok e
    cases e
    have := condExp_ok hs.world (hreg ea) (hreg eb) (hreg eu) (hreg ev) er
    exact ⟨hs.append this, this.ext⟩

theorem stOk_init : StOk (RState.init (α := α)) :=
  ⟨⟨by simp [RState.init], by simp [RState.init], by simp [RState.init], by simp [RState.init]⟩,
    by simp [RState.init]⟩

theorem record_ok {I : Interp α} {is : List (Instr α)} {s s' : RState α} (hs : StOk s)
    (e : record I s is = .ok s') : StOk s' ∧ Ext s.world s'.world := by
  induction is generalizing s with
  | nil => cases e; exact ⟨hs, Ext.refl _⟩
  | cons i is ih =>
    unfold record at e
    cases h : step I s i with
    | error x => rw [h] at e; cases e
    | ok s1 =>
      rw [h] at e
      obtain ⟨h1, h2⟩ := step_ok hs h
      obtain ⟨h3, h4⟩ := ih h1 e
      exact ⟨h3, h2.trans h4⟩

/-! ### valuations of a recorded world -/

/-- evaluation in order of creation -/
def evalNodes (I : Interp α) (x : Nat → α) (d : α) (indeps : List Nat) : List (Node α × Nat) → Nat → List α → List α
  | [], _, acc => acc
  | nd :: ns, k, acc =>
    evalNodes I x d indeps ns (k + 1) (acc ++
      [if k ∈ indeps then x (indeps.idxOf k)
        else (opSem I nd.1.op (nd.1.args.map (argVal (fun n => acc.getD n d)))).getD d])

theorem evalNodes_prefix (I : Interp α) (x : Nat → α) (d : α) (indeps : List Nat) :
    ∀ (ns : List (Node α × Nat)) (k : Nat) (acc : List α),
      ∃ t, evalNodes I x d indeps ns k acc = acc ++ t := by
  intro ns
  induction ns with
  | nil => intro k acc; exact ⟨[], by simp [evalNodes]⟩
  | cons nd ns ih =>
    intro k acc
    rw [evalNodes]
    obtain ⟨t, ht⟩ := ih (k + 1) (acc ++ [if k ∈ indeps then x (indeps.idxOf k)
        else (opSem I nd.1.op (nd.1.args.map (argVal (fun n => acc.getD n d)))).getD d])
    exact ⟨_, by rw [ht, List.append_assoc]⟩

theorem evalNodes_get (I : Interp α) (x : Nat → α) (d : α) (indeps : List Nat) (all : List (Node α × Nat))
    (hargs : ∀ (n : Nat) (nd : Node α) (h : Nat), all[n]? = some (nd, h) → ∀ m ∈ argNodes nd.args, m < n) :
    ∀ (ns : List (Node α × Nat)) (k : Nat) (acc : List α), acc.length = k → all.drop k = ns →
      ∀ (n : Nat) (nd : Node α) (h : Nat), k ≤ n → all[n]? = some (nd, h) →
        (evalNodes I x d indeps ns k acc).getD n d =
          (if n ∈ indeps then x (indeps.idxOf n)
            else (opSem I nd.op (nd.args.map (argVal (fun m =>
              (evalNodes I x d indeps ns k acc).getD m d)))).getD d) := by
  intro ns
  induction ns with
  | nil =>
    intro k acc hk hd n nd h hn hall
    have := (List.getElem?_eq_some_iff.1 hall).1
    rw [List.drop_eq_nil_iff] at hd
    omega
  | cons nd0 ns ih =>
    intro k acc hk hd n nd h hn hall
    have hk0 : all[k]? = some nd0 := by
      have : (all.drop k)[0]? = some nd0 := by rw [hd]; rfl
      rw [List.getElem?_drop] at this
      simpa using this
    have hd' : all.drop (k + 1) = ns := by
      have := congrArg (List.drop 1) hd
      rw [List.drop_drop] at this
      simpa using this
    rw [evalNodes]
    by_cases hnk : n = k
    · subst hnk
      rw [hk0] at hall
      cases hall
      obtain ⟨t, ht⟩ := evalNodes_prefix I x d indeps ns (n + 1) (acc ++ [if n ∈ indeps then x (indeps.idxOf n)
        else (opSem I nd.op (nd.args.map (argVal (fun n => acc.getD n d)))).getD d])
      rw [ht, List.append_assoc]
      have hget : (acc ++ ([if n ∈ indeps then x (indeps.idxOf n)
        else (opSem I nd.op (nd.args.map (argVal (fun n => acc.getD n d)))).getD d] ++ t)).getD n d =
        (if n ∈ indeps then x (indeps.idxOf n)
        else (opSem I nd.op (nd.args.map (argVal (fun n => acc.getD n d)))).getD d) := by
        rw [List.getD_eq_getElem?_getD, List.getElem?_append_right (by omega)]
        simp [hk]
      rw [hget]
      split
      · rfl
      · congr 2
        apply List.map_congr_left
        intro a ha
        cases a with
        | param v => rfl
        | node m =>
          have hm : m < n := hargs n nd h hk0 m (by
            unfold argNodes
            rw [List.mem_filterMap]
            exact ⟨_, ha, rfl⟩)
          simp only [argVal]
          rw [List.getD_eq_getElem?_getD, List.getD_eq_getElem?_getD,
            List.getElem?_append_left (by omega)]
    · exact ih (k + 1) _ (by simp [hk]) hd' n nd h (by omega) hall

theorem worldVal_exists {w : World α} (hw : WorldOk w) (I : Interp α) (x : Nat → α) :
    ∃ val, w.Val I x val := by
  have d : α := x 0
  refine ⟨fun n => (evalNodes I x d w.indeps w.nodes 0 []).getD n d, ?_, ?_⟩
  · intro j n hj
    have hn := List.mem_of_getElem? hj
    obtain ⟨nd, h, hnd, _⟩ := (hw.indep n).1 hn
    simp only
    rw [evalNodes_get I x d w.indeps w.nodes hw.args w.nodes 0 [] rfl rfl n nd h (by omega) hnd,
      if_pos hn]
    have hl := List.idxOf_lt_length_of_mem hn
    have hg : w.indeps[w.indeps.idxOf n]? = some n := by
      rw [List.getElem?_eq_getElem hl, List.getElem_idxOf]
    have : w.indeps.idxOf n = j := (List.getElem?_inj hl hw.nodup).1 (hg.trans hj.symm)
    rw [this]
  · intro n nd h hnd hop
    have hni : n ∉ w.indeps := by
      intro hn
      obtain ⟨nd', h', h1, h2⟩ := (hw.indep n).1 hn
      rw [hnd] at h1
      cases h1
      exact hop h2
    have := evalNodes_get I x d w.indeps w.nodes hw.args w.nodes 0 [] rfl rfl n nd h (by omega) hnd
    rw [if_neg hni] at this
    simp only
    rw [this]
    have har := hw.arity n nd h hnd
    obtain ⟨op, args⟩ := nd
    simp only at *
    unfold Arity at har
    cases op <;> simp only at har
    case inv => exact absurd rfl hop
    case un f => obtain ⟨a, rfl⟩ := har; rfl
    case neg => obtain ⟨a, rfl⟩ := har; rfl
    case sign => obtain ⟨a, rfl⟩ := har; rfl
    case add => obtain ⟨a, b, rfl⟩ := har; rfl
    case sub => obtain ⟨a, b, rfl⟩ := har; rfl
    case mul => obtain ⟨a, b, rfl⟩ := har; rfl
    case div => obtain ⟨a, b, rfl⟩ := har; rfl
    case pow => obtain ⟨a, b, rfl⟩ := har; rfl
    case cond c => obtain ⟨l, r, t, f, rfl⟩ := har; rfl

end Verif.Cg
