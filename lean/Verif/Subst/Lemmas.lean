import Verif.Subst.Spec
import Verif.Subst.Model
import Verif.Solve.Props
import Verif.Solve.PropsCollect
namespace Verif.Subst
open Verif.Codegen Verif.Cg Verif.Paths Verif.Eval Verif.Solve

variable {α : Type}

theorem setNode_get {w : World α} {n : Nat} {nd : Node α} (m : Nat) :
    (setNode w n nd).nodes[m]? = if m = n then (w.nodes[m]?).map (fun p => (nd, p.2)) else w.nodes[m]? := by
  unfold setNode
  simp only [List.getElem?_modify]
  by_cases h : n = m
  · subst h; simp
  · have h' : m ≠ n := fun e => h e.symm
    simp [h, h']

theorem setNode_length {w : World α} {n : Nat} {nd : Node α} : (setNode w n nd).nodes.length = w.nodes.length := by
  unfold setNode; simp

theorem setNode_cases {w : World α} {n : Nat} {nd nd' : Node α} {m h : Nat}
    (e : (setNode w n nd).nodes[m]? = some (nd', h)) :
    (m = n ∧ nd' = nd ∧ ∃ old, w.nodes[m]? = some (old, h)) ∨ (m ≠ n ∧ w.nodes[m]? = some (nd', h)) := by
  rw [setNode_get] at e
  split at e
  · rename_i hm
    rw [Option.map_eq_some_iff] at e
    obtain ⟨p, hp, he⟩ := e
    cases he
    exact .inl ⟨hm, rfl, p.1, hp⟩
  · rename_i hm; exact .inr ⟨hm, e⟩

theorem setNode_set {w : World α} {n : Nat} {nd nd' : Node α} : setNode (setNode w n nd) n nd' = setNode w n nd' := by
  have h : (setNode (setNode w n nd) n nd').nodes = (setNode w n nd').nodes := by
    apply List.ext_getElem?
    intro m
    rw [setNode_get, setNode_get, setNode_get]
    by_cases hm : m = n
    · simp only [hm, if_true, Option.map_map]; rfl
    · simp [hm]
  unfold setNode at h ⊢
  simp only at h ⊢
  rw [h]

theorem setNode_self {w : World α} {n : Nat} {nd : Node α} {h : Nat} (e : w.nodes[n]? = some (nd, h)) : setNode w n nd = w := by
  have : (setNode w n nd).nodes = w.nodes := by
    apply List.ext_getElem?
    intro m
    rw [setNode_get]
    by_cases hm : m = n
    · subst hm; rw [if_pos rfl, e]; rfl
    · rw [if_neg hm]
  unfold setNode at this ⊢
  simp only at this ⊢
  rw [this]

/-- an evaluation exists and is unique -/
theorem computes_unique {w : World α} (hw : Recorded w) (I : Interp α) (x : Nat → α) :
    ∃ val, Computes I w x val ∧ ∀ val', Computes I w x val' → ∀ n, n < w.nodes.length → val' n = val n := by
  let ins := (List.range w.nodes.length).filter fun n => decide ((w.graph n).op = .inv)
  let w0 : World α := ⟨w.nodes, ins⟩
  have hg : w0.graph = w.graph := rfl
  obtain ⟨val, hv⟩ := val_exists (w := w0) (I := I) hw.shaped hw.ranked
    (List.Nodup.filter _ List.nodup_range)
    (by intro n hn; rw [hg]; have := (List.mem_filter.mp hn).2; simpa using this) (fun j => x (ins.getD j 0))
  refine ⟨val, ?_, ?_⟩
  · intro n nd h e
    split
    · rename_i hop
      have hn : n ∈ ins := by
        refine List.mem_filter.mpr ⟨List.mem_range.mpr (List.getElem?_eq_some_iff.mp e).1, ?_⟩
        rw [graph_of e]; simpa using hop
      obtain ⟨j, hj⟩ := List.getElem?_of_mem hn
      have := hv.1 j n hj
      rw [this]; simp only [List.getD_eq_getElem?_getD, hj]; rfl
    · rename_i hop
      exact hv.2 n nd h e hop
  · intro val' hv'
    obtain ⟨rank, hrank⟩ := hw.ranked
    have main : ∀ k n, rank n < k → n < w.nodes.length → val' n = val n := by
      intro k
      induction k with
      | zero => intro n h; omega
      | succ k ih =>
        intro n hk hn
        obtain ⟨⟨nd, h⟩, e⟩ : ∃ q, w.nodes[n]? = some q := ⟨_, List.getElem?_eq_getElem hn⟩
        have h1 := hv' n nd h e
        by_cases hop : nd.op = .inv
        · rw [if_pos hop] at h1
          have hm : n ∈ ins := by
            refine List.mem_filter.mpr ⟨List.mem_range.mpr hn, ?_⟩
            rw [graph_of e]; simpa using hop
          obtain ⟨j, hj⟩ := List.getElem?_of_mem hm
          have := hv.1 j n hj
          rw [h1, this]; simp only [List.getD_eq_getElem?_getD, hj]; rfl
        · rw [if_neg hop] at h1
          have h2 := hv.2 n nd h e hop
          have : nd.args.map (argVal val') = nd.args.map (argVal val) := by
            refine List.map_congr_left fun a ha => ?_
            cases a with
            | param v => rfl
            | node m =>
              have hm : m ∈ kids w.graph n := by
                unfold kids; rw [graph_of e]; exact mem_argNodes.mpr ha
              exact ih m (by have := hrank n m hm; omega) (hw.args n nd h e m ha)
          rw [this, h2] at h1
          exact (Option.some.inj h1).symm
    exact fun n hn => main (rank n + 1) n (Nat.lt_succ_self _) hn

theorem solutionArg_ok {c : Cg α} {a : Arg α} (e : solutionArg c = .ok a) :
    (∀ (val : Nat → α), Denotes val c.node c.value (argVal val a)) ∧
    (∀ (val : Nat → α) p, Denotes val c.node c.value p → argVal val a = p) ∧
    (∀ m, a = .node m ↔ c.node = some m) := by
  unfold solutionArg at e
  cases hn : c.node with
  | some n =>
    rw [hn] at e; cases e
    refine ⟨fun val => rfl, fun val p h => h, fun m => ?_⟩
    simp
  | none =>
    rw [hn] at e
    simp only at e
    cases hv : c.value with
    | none => rw [hv] at e; cases e
    | some v =>
      rw [hv] at e; cases e
      refine ⟨fun val => rfl, fun val p h => Option.some.inj h, fun m => ?_⟩
      simp

/-- replacing an input by an alias -/
theorem alias_computes {I : Interp α} {w : World α} {n h : Nat} (hn : w.nodes[n]? = some (⟨.inv, []⟩, h)) {a : Arg α}
    {x val : Nat → α} :
    Computes I (setNode w n ⟨.alias, [a]⟩) x val ↔ Computes I w (put x n (val n)) val ∧ argVal val a = val n := by
  constructor
  · intro hc
    refine ⟨?_, ?_⟩
    · intro m nd h' e
      by_cases hm : m = n
      · subst hm
        rw [hn] at e; cases e
        rw [if_pos rfl]
        unfold put; rw [if_pos rfl]
      · have := hc m nd h' (by rw [setNode_get, if_neg hm]; exact e)
        split
        · rename_i ho
          rw [if_pos ho] at this
          unfold put; rw [if_neg hm]; exact this
        · rename_i ho
          rw [if_neg ho] at this; exact this
    · have := hc n ⟨.alias, [a]⟩ h (by rw [setNode_get, if_pos rfl, hn]; rfl)
      rw [if_neg (by simp)] at this
      exact Option.some.inj this
  · rintro ⟨hc, ha⟩ m nd h' e
    rcases setNode_cases e with ⟨rfl, rfl, _⟩ | ⟨hm, e'⟩
    · rw [if_neg (by simp)]
      exact congrArg some ha
    · have := hc m nd h' e'
      split
      · rename_i ho
        rw [if_pos ho] at this
        unfold put at this; rwa [if_neg hm] at this
      · rename_i ho
        rw [if_neg ho] at this; exact this

theorem Ext.computes {I : Interp α} {w w' : World α} {x val : Nat → α} (h : Ext w w') (hc : Computes I w' x val) :
    Computes I w x val := by
  obtain ⟨⟨s, hs⟩, _⟩ := h
  intro n nd h' e
  exact hc n nd h' (by rw [hs]; exact getElem?_append_some _ e)

/-- an alias of something which does not depend on it keeps the operations proper -/
theorem alias_recorded {w : World α} (hw : Recorded w) {n : Nat} (hn : n < w.nodes.length) {a : Arg α}
    (ha : ∀ m, a = .node m → m < w.nodes.length ∧ ¬ Reaches w.graph m n) : Recorded (setNode w n ⟨.alias, [a]⟩) := by
  obtain ⟨h0, hone⟩ := hw.one
  obtain ⟨rank, hrank⟩ := hw.ranked
  refine ⟨⟨h0, ?_⟩, ?_, ?_, ?_, ?_⟩
  · intro m nd h e
    rcases setNode_cases e with ⟨_, _, old, e'⟩ | ⟨_, e'⟩ <;> exact hone m _ h e'
  · intro m nd h e k hk
    rw [setNode_length]
    rcases setNode_cases e with ⟨_, rfl, _⟩ | ⟨_, e'⟩
    · simp only [List.mem_singleton] at hk
      exact (ha k hk.symm).1
    · exact hw.args m nd h e' k hk
  · intro m nd h e
    rcases setNode_cases e with ⟨_, rfl, _⟩ | ⟨_, e'⟩
    · rfl
    · exact hw.arity m nd h e'
  · classical
    obtain ⟨K, hK⟩ : ∃ K : Nat, ∀ m, a = .node m → K = rank m + 1 := by
      cases a with
      | param v => exact ⟨0, fun m h => by cases h⟩
      | node m => exact ⟨rank m + 1, fun k h => by cases h; rfl⟩
    refine ⟨fun m => if Reaches w.graph m n then rank m + K else rank m, ?_⟩
    intro m nd h e k hk
    rcases setNode_cases e with ⟨rfl, rfl, _⟩ | ⟨_, e'⟩
    · simp only [List.mem_singleton] at hk
      have hk' := hk.symm
      have h1 := (ha k hk').2
      have h2 : Reaches w.graph m m := Reaches.refl m
      have h3 : K = rank k + 1 := hK k hk'
      simp only [h1, h2, if_true, if_false, h3]
      omega
    · have hm : k ∈ kids w.graph m := by
        unfold kids; rw [graph_of e']; exact mem_argNodes.mpr hk
      have h1 := hrank m k hm
      by_cases h2 : Reaches w.graph k n
      · obtain ⟨i, hi⟩ := List.getElem?_of_mem hk
        have h3 : Reaches w.graph m n := (Reaches.step (G := w.graph) (i := i) (by rw [graph_of e']; exact hi)).trans h2
        simp only [h2, h3, if_true]; omega
      · simp only [h2, if_false]
        split <;> omega
  · intro m nd h e hop
    rcases setNode_cases e with ⟨_, rfl, _⟩ | ⟨_, e'⟩
    · cases hop
    · exact hw.declared m nd h e' hop

/-- operations which do not depend on an input do not depend on its value -/
theorem computes_avoid {I : Interp α} {w : World α} (hw : Recorded w) {v : Nat} {x y val val' : Nat → α}
    (hc : Computes I w x val) (hc' : Computes I w y val') (hxy : ∀ m, m ≠ v → x m = y m) :
    ∀ n, n < w.nodes.length → ¬ Reaches w.graph n v → val n = val' n := by
  obtain ⟨rank, hrank⟩ := hw.ranked
  have main : ∀ k n, rank n < k → n < w.nodes.length → ¬ Reaches w.graph n v → val n = val' n := by
    intro k
    induction k with
    | zero => intro n h; omega
    | succ k ih =>
      intro n hk hn hr
      obtain ⟨⟨nd, h⟩, e⟩ : ∃ q, w.nodes[n]? = some q := ⟨_, List.getElem?_eq_getElem hn⟩
      have h1 := hc n nd h e
      have h2 := hc' n nd h e
      by_cases hop : nd.op = .inv
      · rw [if_pos hop] at h1 h2
        rw [h1, h2]
        refine hxy n ?_
        rintro rfl
        exact hr (Reaches.refl n)
      · rw [if_neg hop] at h1 h2
        have : nd.args.map (argVal val) = nd.args.map (argVal val') := by
          refine List.map_congr_left fun a ha => ?_
          cases a with
          | param v => rfl
          | node m =>
            have hm : m ∈ kids w.graph n := by
              unfold kids; rw [graph_of e]; exact mem_argNodes.mpr ha
            refine ih m (by have := hrank n m hm; omega) (hw.args n nd h e m ha) fun h' => hr ?_
            obtain ⟨i, hi⟩ := List.getElem?_of_mem ha
            exact (Reaches.step (G := w.graph) (i := i) (by rw [graph_of e]; exact hi)).trans h'
        rw [this, h2] at h1
        exact (Option.some.inj h1).symm
  exact fun n => main (rank n + 1) n (Nat.lt_succ_self _)

end Verif.Subst
