import Verif.Funcs.LemmasSplit
import Mathlib.Tactic.ByContra

/-! Theorems about the functions written by `LanguageC`. -/

namespace Verif.Funcs

variable {M L : Type}

/-! ### C56: structs given to atomic functions -/

/-- The generated code of one function runs without reading members of `Array` structs that were not assigned,
every atomic function is given the arrays of its operation (elements, size, number and places of nonzeros), and the
effect is that of the operations: members are assigned only when they change, in code with any loops and conditional
blocks, run for any number of iterations. -/
theorem one_function_right (σ : Sem M L) (fresh : Nat → L) (max : Nat) (zero tail : List Nat) (c : Code Op) (s : Nat)
    (hp : c.All Op.Placed s) (hn : (s :: c.scopes).Nodup) (h0 : c = .nil → zero = [])
    (h1 : (program max zero c.text tail).funcs = []) (m : M) (r : Option M) :
    (program max zero c.text tail).Runs σ fresh m r ↔
      r = σ.effect ((Code.texts zero).append (c.append (Code.texts tail))) m (fresh 0) := by
  -- the code is that of the whole list of operations
  have hprog : program max zero c.text tail = ⟨[], [],
      (((Code.texts zero).append (c.append (Code.texts tail))).trans fun _ => none).1.text⟩ := by
    have hg : (generate (limitOf max) zero c.text).funcs = [] := by
      by_contra hne
      rw [program] at h1
      simp only [if_neg hne] at h1
      exact hne h1
    have htext : (generate (limitOf max) zero c.text).code =
        (((Code.texts zero).append c).trans fun _ => none).1.text := by
      rw [generate] at hg ⊢
      by_cases hc : c.text = []
      · rw [if_pos hc]
        have := text_nil hc
        subst this
        rw [h0 rfl]
        rfl
      · rw [if_neg hc] at hg ⊢
        simp only at hg ⊢
        have hf : (c.text.foldl (GenSt.step (limitOf max)) { code := zero.map fun n => .tok (.text n) }).funcs = [] := by
          split at hg
          · simp [GenSt.save] at hg
          · exact hg
        rw [if_neg (fun h => h.1 hf), fold_no_funcs _ _ _ hf, Code.fold_noSplit none c _ (.inl rfl)]
        rw [Code.trans_append, Code.append_text]
        simp only [(texts_trans _ zero).1, (texts_trans _ zero).2]
    rw [program]
    simp only [if_pos hg, htext]
    congr 1
    rw [← Code.append_assoc, Code.trans_append (Code.append _ _), Code.append_text, (texts_trans _ tail).2]
  rw [hprog]
  have hp' : ((Code.texts zero).append (c.append (Code.texts tail))).All Op.Placed s := by
    rw [Code.all_append, Code.all_append]
    exact ⟨texts_placed s zero, hp, texts_placed s tail⟩
  have hs' : ((Code.texts zero).append (c.append (Code.texts tail))).scopes = c.scopes := by
    rw [Code.scopes_append, Code.scopes_append, texts_scopes, texts_scopes, List.nil_append, List.append_nil]
  obtain ⟨⟨m1, l1⟩, A', hx, hr, -, -⟩ := Code.run_ok σ _ s (fun _ => none) hp' (by rw [hs']; exact hn)
    (fun _ _ h => by cases h) (fun _ => {}) (fun _ _ h => by cases h) m (fresh 0)
  rw [Sem.effect, hx, Option.map_some]
  constructor
  · rintro ⟨-, h⟩
    cases h with
    | bad _ _ _ _ h =>
      have h := (Machine.runs_text σ.gen _ _ _).mp h
      rw [hr] at h
      cases h
    | next _ _ _ _ s' _ h h' =>
      have h := (Machine.runs_text σ.gen _ _ _).mp h
      rw [hr] at h
      obtain rfl := Option.some.inj h
      cases h'
      rfl
  · rintro rfl
    exact ⟨rfl, .next 0 _ _ m (m1, l1, A') _ ((Machine.runs_text σ.gen _ _ _).mpr hr.symm) (.done _ _)⟩

/-- Every `Array` struct used by a call of an atomic function is declared, with enough elements: forward mode of
order `p` uses `atx[0..p]` and `aty`, reverse mode `atx[0..p]`, `apx` and `apy[0..p]`. -/
theorem structs_declared (n : Nat) (calls : List CallInfo) (hpos : ∀ c ∈ calls, c.pos < n) (c : CallInfo) (hc : c ∈ calls) :
    let d := declare (calls.foldl MaxOrders.visit ⟨List.replicate n (-1), List.replicate n (-1)⟩)
    (c.order : Int) < d.tx ∧ (c.fwd = true → d.ty = true) ∧
      (c.fwd = false → d.px = true ∧ (c.order : Int) < d.py) := by
  intro d
  have h := visits_cover calls ⟨List.replicate n (-1), List.replicate n (-1)⟩ c hc (by simpa using hpos c hc) (by simpa using hpos c hc)
  rw [Covers] at h
  have hd : d = declare (calls.foldl MaxOrders.visit ⟨List.replicate n (-1), List.replicate n (-1)⟩) := rfl
  generalize calls.foldl MaxOrders.visit ⟨List.replicate n (-1), List.replicate n (-1)⟩ = mo at h hd
  rw [hd, declare]
  split at h <;> rename_i hf
  · rw [if_pos (by omega)]
    refine ⟨by simp only; omega, fun _ => by simp only [decide_eq_true_eq]; omega, fun hf' => ?_⟩
    rw [hf] at hf'; cases hf'
  · rw [if_pos (by omega)]
    refine ⟨by simp only; omega, fun hf' => absurd hf' hf, fun _ => ⟨by simp only [decide_eq_true_eq]; omega, ?_⟩⟩
    simp only
    rw [if_pos (by omega)]
    omega

/-- without calls no structs are declared -/
theorem structs_not_declared (n : Nat) :
    declare (List.foldl MaxOrders.visit ⟨List.replicate n (-1), List.replicate n (-1)⟩ []) = {} := by
  have h : maxOrder (List.replicate n (-1)) = -1 := by
    cases n with
    | zero => rfl
    | succ n =>
      have : ∀ n, List.foldl max (-1 : Int) (List.replicate n (-1)) = -1 := by
        intro n
        induction n with
        | zero => rfl
        | succ n ih => simp only [List.replicate_succ, List.foldl_cons]; exact ih
      exact this n
  simp only [List.foldl_nil, declare, h]
  rfl

/-! ### C55: several functions -/

/-- Splitting the code into functions neither loses nor adds nor moves text: the bodies of the functions one after
another are the code of the single function (without the limit). -/
theorem split_text (max : Nat) (zero : List Nat) (ops : List (Br Op)) (tail : List Nat) :
    (program max zero ops tail).funcs.flatten ++ (program max zero ops tail).stray ++ (program max zero ops tail).main =
      (program 0 zero ops tail).main := by
  have hcode : ∀ limit, (generate limit zero ops).funcs.flatten ++ (generate limit zero ops).code =
      (generate none zero ops).code := by
    intro limit
    have hnone : (generate none zero ops).funcs = [] := by
      rw [generate]
      split
      · rfl
      · simp [fold_none_funcs]
    have key : SameText (generate limit zero ops) (generate none zero ops) := by
      rw [generate, generate]
      by_cases h : ops = []
      · rw [if_pos h, if_pos h]
        exact ⟨rfl, rfl, rfl⟩
      · rw [if_neg h, if_neg h]
        have hf := SameText.fold limit ops (g := { code := zero.map fun n => .tok (.text n) }) ⟨rfl, rfl, rfl⟩
        simp only [fold_none_funcs, ne_eq, not_true_eq_false, false_and, if_false]
        split
        · exact (SameText.save _).trans hf
        · exact hf
    have h3 := key.2.2
    rw [hnone] at h3
    simpa using h3
  have hnone : (generate none zero ops).funcs = [] := by
    rw [generate]
    split
    · rfl
    · simp [fold_none_funcs]
  have h0 : (program 0 zero ops tail).main = (generate none zero ops).code ++ tail.map fun n => Br.tok (Tok.text n) := by
    rw [program]
    show (Program.main (if (generate none zero ops).funcs = [] then _ else _)) = _
    rw [if_pos hnone]
    rfl
  rw [h0, ← hcode (limitOf max), program]
  by_cases h : (generate (limitOf max) zero ops).funcs = []
  · simp [h]
  · simp [h]

/-- Functions made of plain assignments have exactly as many as the limit says, except for the last one which has at
least one and at most as many. -/
theorem split_sizes (k : Nat) (hk : k > 0) (ns : List Nat) (tail : List Nat)
    (hf : (program k [] (ns.map fun n => Br.tok (Op.plain n 1)) tail).funcs ≠ []) :
    ∃ fs f, (program k [] (ns.map fun n => Br.tok (Op.plain n 1)) tail).funcs = fs ++ [f] ∧
      (∀ g ∈ fs, g.length = k) ∧ 0 < f.length ∧ f.length ≤ k := by
  by_cases hns : ns = []
  · subst hns
    exact absurd rfl hf
  have hlim : limitOf k = some k := by simp [limitOf, hk]
  obtain ⟨h1, h2, h3, h4, h5⟩ := plain_fold k hk ns {} rfl rfl (by simp) (by simp)
  have hgen : (generate (limitOf k) [] (ns.map fun n => Br.tok (Op.plain n 1))).funcs ≠ [] := by
    intro h
    apply hf
    rw [program]
    simp only [if_pos h]
  have hp : (program k [] (ns.map fun n => Br.tok (Op.plain n 1)) tail).funcs =
      (generate (limitOf k) [] (ns.map fun n => Br.tok (Op.plain n 1))).funcs := by
    rw [program]
    simp only [if_neg hgen]
  rw [hp]
  rw [generate, if_neg (by simpa using hns), hlim] at hgen ⊢
  simp only [List.map_nil] at hgen ⊢
  have h5 := h5 hns
  by_cases hc : ((ns.map fun n => Br.tok (Op.plain n 1)).foldl (GenSt.step (some k)) { code := [] }).funcs ≠ [] ∧
      ((ns.map fun n => Br.tok (Op.plain n 1)).foldl (GenSt.step (some k)) { code := [] }).count > 0
  · rw [if_pos hc]
    exact ⟨_, _, rfl, h4, h5, h3⟩
  · rw [if_neg hc] at hgen
    exact absurd ⟨hgen, by rw [h2]; exact h5⟩ hc

/-- The functions do together what the operations do, if outside of loops there are only counted statements (no calls
of atomic functions, no conditional blocks, no assignments to indexed dependents), and statements and blocks do not use
what others left in the variables of a function. Missing: calls of atomic functions outside of loops, conditional
blocks and indexed dependents outside of loops, for which it is false. -/
theorem split_right_partial (σ : Sem M L) (fresh : Nat → L) (max : Nat) (zero tail : List Nat) (c : Code Op) (s : Nat)
    (hp : c.All Op.Placed s) (hn : (s :: c.scopes).Nodup) (hs : c.Splits) (h0 : c = .nil → zero = [])
    (hl : σ.Local ((Code.texts zero).append (c.append (Code.texts tail)))) (m : M) (l : L) (r : Option M) :
    (program max zero c.text tail).Runs σ fresh m r ↔
      r = σ.effect ((Code.texts zero).append (c.append (Code.texts tail))) m l := by
  rw [Sem.Local.effect_eq _ _ rfl hl m l (fresh 0)]
  by_cases h1 : (program max zero c.text tail).funcs = []
  · exact one_function_right σ fresh max zero tail c s hp hn h0 h1 m r
  have hgen : (generate (limitOf max) zero c.text).funcs ≠ [] := by
    intro h
    apply h1
    rw [program]
    simp only [if_pos h]
  have hlim : ∃ k, limitOf max = some k := by
    rw [limitOf]
    by_cases h : max > 0
    · exact ⟨max, by rw [if_pos h]⟩
    · exfalso
      apply hgen
      rw [limitOf, if_neg h, generate]
      split
      · rfl
      · simp [fold_none_funcs]
  obtain ⟨k, hk⟩ := hlim
  have hc : c.text ≠ [] := by
    intro h
    apply hgen
    rw [generate, if_pos h]
  -- the functions
  have hR : Reached (fun _ => none) [] [] (Code.texts zero) { code := zero.map fun n => .tok (.text n) } := by
    refine ⟨rfl, rfl, ?_, ?_, fun h => absurd rfl h⟩
    · exact (texts_trans _ zero).2.symm
    · exact (texts_trans _ zero).1.symm
  obtain ⟨ds, d, f1, f2⟩ := split_fold k (fun _ => none) [] c _ _ _ hs hR
  have hfinal : ∃ ds' d', (generate (limitOf max) zero c.text).funcs = bodies (fun _ => none) ds' ∧
      (generate (limitOf max) zero c.text).code = [] ∧ (d'.trans ((Code.concat ds').trans fun _ => none).2).1.text = [] ∧
      Code.concat (ds' ++ [d']) = (Code.texts zero).append c := by
    rw [generate, if_neg hc, hk]
    rw [generate, if_neg hc, hk] at hgen
    simp only at hgen ⊢
    have f2' : Code.concat (ds ++ [d]) = (Code.texts zero).append c := by
      rw [f2]
      simp [Code.concat, Code.append_nil]
    by_cases hcond : (c.text.foldl (GenSt.step (some k)) { code := zero.map fun n => .tok (.text n) }).funcs ≠ [] ∧
        (c.text.foldl (GenSt.step (some k)) { code := zero.map fun n => .tok (.text n) }).count > 0
    · rw [if_pos hcond]
      refine ⟨ds ++ [d], .nil, by rw [f1.save.funcs, List.nil_append], rfl, rfl, ?_⟩
      rw [Code.concat_append (ds ++ [d]), f2']
      exact Code.append_nil _
    · rw [if_neg hcond] at hgen ⊢
      have hcode := f1.inv hgen (by
        by_contra hne
        exact hcond ⟨hgen, by omega⟩)
      have hnil : (d.trans ((Code.concat ds).trans fun _ => none).2).1.text = [] := by rw [← f1.code, hcode]
      exact ⟨ds, d, by rw [f1.funcs, List.nil_append], hcode, hnil, f2'⟩
  obtain ⟨ds', d', g1, g2, g2', g3⟩ := hfinal
  have hprog : program max zero c.text tail = ⟨[], bodies (fun _ => none) ds', tail.map fun n => Br.tok (Tok.text n)⟩ := by
    rw [program]
    simp only [if_neg hgen]
    rw [g1, g2]
  have hb : bodies (fun _ => none) ds' ++ [tail.map fun n => Br.tok (Tok.text n)] =
      bodies (fun _ => none) (ds' ++ [d'.append (Code.texts tail)]) := by
    rw [bodies_append, bodies, bodies, Code.trans_append, Code.append_text, g2', (texts_trans _ tail).2, List.nil_append]
  have hcc : Code.concat (ds' ++ [d'.append (Code.texts tail)]) =
      (Code.texts zero).append (c.append (Code.texts tail)) := by
    rw [concat_last, g3, Code.append_assoc]
  have hs' : ((Code.texts zero).append (c.append (Code.texts tail))).scopes = c.scopes := by
    rw [Code.scopes_append, Code.scopes_append, texts_scopes, texts_scopes, List.nil_append, List.append_nil]
  have hmain := calls_ok σ fresh s (ds' ++ [d'.append (Code.texts tail)]) (fun _ => none)
    (by rw [hcc, Code.all_append, Code.all_append]; exact ⟨texts_placed s zero, hp, texts_placed s tail⟩)
    (by rw [hcc, Code.noTop_append, Code.noTop_append]; exact ⟨texts_noTop zero, hs.noTop, texts_noTop tail⟩)
    (by rw [hcc, hs']; exact hn) (fun _ _ h => by cases h) (by rw [hcc]; exact hl) 0 m (fresh 0) r
  rw [hprog, Program.Runs, hb, hmain, hcc]
  exact ⟨fun h => h.2, fun h => ⟨rfl, h⟩⟩

/-! ### where it is not so, and cases with several functions -/

/-- atomic functions log what they see; loops have two iterations -/
def demo : Sem (List View) Unit where
  act n m l := (m ++ [⟨.null, n, none⟩], l)
  count _ _ _ := 2
  index _ _ l := l
  cond _ _ _ := true
  call _ vs m := m ++ vs

/-- two calls outside of loops, with the same kinds of arrays in the same structs -/
def twoCalls : Code Op :=
  .one (.forward 0 [⟨1, false, 3, 3, 0⟩] ⟨4, false, 2, 2, 0⟩) (.one (.forward 1 [⟨1, false, 3, 3, 0⟩] ⟨6, false, 2, 2, 0⟩) .nil)

/-- C55 is false for calls of atomic functions outside of loops: `saveLocalFunction` does not clear
`_atomicFuncArrays`, so in the second function only the `data` of the second struct is assigned, and the atomic
function reads members which were never assigned. The limit is 1 only to keep it short. -/
theorem split_calls_counterexample :
    twoCalls.All Op.Placed 0 ∧ (0 :: twoCalls.scopes).Nodup ∧ demo.Local twoCalls ∧
    (program 1 [] twoCalls.text []).Runs demo (fun _ => ()) [] none ∧
    (demo.effect twoCalls [] ()).isSome = true := by
  refine ⟨⟨⟨⟨?_, rfl⟩, ?_⟩, ⟨⟨?_, rfl⟩, ?_⟩, trivial⟩, by decide, fun _ _ _ _ _ => rfl, ⟨by decide, ?_⟩, by decide⟩
  · simp
  · simp [Op.Kinds]
  · simp
  · simp [Op.Kinds]
  · refine .next 0 _ _ _ (_, (), _) none
      (⟨.one (.put (.tx 0) (.data (.dense 1))) (.one (.put (.tx 0) (.size 3)) (.one (.put (.tx 0) (.sparse false))
        (.one (.put .ty (.data (.dense 4))) (.one (.put .ty (.size 2)) (.one (.put .ty (.sparse false))
        (.one (.call 0 [.tx 0, .ty]) .nil)))))), by decide, rfl⟩) ?_
    exact .bad 1 _ _ _ ⟨.one (.put .ty (.data (.dense 6))) (.one (.call 1 [.tx 0, .ty]) .nil), by decide, rfl⟩

/-- C55: conditional blocks outside of loops are cut in two -/
theorem split_ifs_counterexample :
    let c : Code Op := .ifs 0 1 (.one (.plain 0 1) (.one (.plain 1 1) .nil)) .done .nil
    ¬ ∃ r, (program 2 [] c.text []).Runs demo (fun _ => ()) [] r := by
  intro c
  rintro ⟨r, -, h⟩
  have hf : (program 2 [] (Code.ifs 0 1 (.one (.plain 0 1) (.one (.plain 1 1) .nil)) .done .nil).text []).funcs ++
      [(program 2 [] (Code.ifs 0 1 (.one (.plain 0 1) (.one (.plain 1 1) .nil)) .done .nil).text []).main] =
      [[.ifOpen 0 1, .tok (.text 0)], [.tok (.text 1), .ifClose], []] := by decide
  have hbad : ∀ s r, ¬ demo.gen.Runs [.ifOpen 0 1, .tok (.text 0)] s r := by
    rintro s r ⟨c, hc, -⟩
    have : Br.ifClose ∈ c.text := by
      cases c with
      | nil => cases hc
      | one t r => cases hc
      | loop h s b r => cases hc
      | ifs k s b a r => simp [Code.text]
    rw [hc] at this
    simp at this
  have h' := hf ▸ h
  cases h' with
  | bad _ _ _ _ h' => exact hbad _ _ h'
  | next _ _ _ _ _ _ h' _ => exact hbad _ _ h'

/-- C55: assignments to indexed dependents outside of loops after the last function are written outside of all
functions -/
theorem split_indexed_counterexample :
    let c : Code Op := .one (.plain 0 1) (.one (.plain 1 1) (.one (.indexedDep 2) .nil))
    (program 2 [] c.text []).stray = [.tok (.text 2)] ∧ ¬ ∃ r, (program 2 [] c.text []).Runs demo (fun _ => ()) [] r := by
  refine ⟨by decide, ?_⟩
  rintro ⟨r, h, -⟩
  revert h
  decide

/-- C56 needs structs to be used for arrays of the same kind: after a dense array the `nnz` of an empty sparse array
is not assigned -/
theorem kinds_counterexample :
    let c : Code Op := .one (.forward 0 [⟨1, false, 3, 3, 0⟩] ⟨4, false, 2, 2, 0⟩)
      (.one (.forward 1 [⟨1, true, 0, 3, 0⟩] ⟨4, false, 2, 2, 0⟩) .nil)
    (program 0 [] c.text []).Runs demo (fun _ => ()) [] none := by
  refine ⟨by decide, .bad 0 _ _ _ ⟨.one (.put (.tx 0) (.data (.dense 1))) (.one (.put (.tx 0) (.size 3))
    (.one (.put (.tx 0) (.sparse false)) (.one (.put .ty (.data (.dense 4))) (.one (.put .ty (.size 2))
    (.one (.put .ty (.sparse false)) (.one (.call 0 [.tx 0, .ty]) (.one (.put (.tx 0) (.data .null))
    (.one (.put (.tx 0) (.sparse true)) (.one (.call 1 [.tx 0, .ty]) .nil))))))))), by decide, rfl⟩⟩

/-- A struct which was used for an array of any kind shows a dense array afterwards, when what was assigned to it before
is what the generator remembers. -/
theorem dense_array_shown (c : Cache) (s : Slot) (a : Arr) (f : Fields) (ha : a.sparse = false)
    (h : ∀ e, c s = some e → e.scope = a.scope → f.data = e.data ∧ f.size = some e.size ∧ f.sparse = some e.sparse) :
    ((structInit c s a).1.foldl Put.apply f).view = some a.view := by
  have hv : a.view = ⟨dataOf a, a.stored, none⟩ := by rw [← view_data]; simp [Arr.view, ha]
  rw [hv]
  simp only [structInit, ha, Bool.false_eq_true, if_false]
  cases hc : c s with
  | none => simp [initDense, Put.apply, Fields.view]
  | some e =>
    by_cases hs : e.scope = a.scope
    · obtain ⟨h1, h2, h3⟩ := h e hc hs
      by_cases g1 : some (dataOf a) = e.data <;> by_cases g2 : a.stored = e.size <;> cases g3 : e.sparse <;>
        simp [initDense, hs, g1, g2, g3, h1, h2, h3, Put.apply, Fields.view] <;> rw [← g1]
    · simp [initDense, hs, Put.apply, Fields.view]

/-- after a sparse array with two of three elements, in the same scope -/
example : let r := structInit (fun _ => none) .ty ⟨1, true, 2, 3, 0⟩
    let r' := structInit r.2 .ty ⟨1, false, 3, 3, 0⟩
    (r'.1.foldl Put.apply (r.1.foldl Put.apply {})).view = some ⟨.dense 1, 3, none⟩ := by decide

/-- C56 needs arrays to be variables of the block of the call: the structs for arrays of an outer block, filled outside
and changed in a loop, are wrong in the second iteration -/
theorem scope_counterexample :
    let a : Arr := ⟨1, false, 1, 1, 0⟩
    let b : Arr := ⟨2, false, 1, 1, 0⟩
    let c : Code Op := .one (.forward 0 [a] a) (.loop 0 1 (.one (.forward 1 [a] a) (.one (.forward 2 [b] a) .nil)) .nil)
    ∃ m, (program 0 [] c.text []).Runs demo (fun _ => ()) [] (some m) ∧ some m ≠ demo.effect c [] () := by
  refine ⟨_, ⟨by decide, .next 0 _ _ _ (_, (), _) _ ⟨.one (.put (.tx 0) (.data (.dense 1))) (.one (.put (.tx 0) (.size 1))
    (.one (.put (.tx 0) (.sparse false)) (.one (.put .ty (.data (.dense 1))) (.one (.put .ty (.size 1))
    (.one (.put .ty (.sparse false)) (.one (.call 0 [.tx 0, .ty]) (.loop 0 1 (.one (.call 1 [.tx 0, .ty])
    (.one (.put (.tx 0) (.data (.dense 2))) (.one (.call 2 [.tx 0, .ty]) .nil))) .nil))))))), by decide, rfl⟩ (.done _ _)⟩, ?_⟩
  decide

/-- C55: the calls of the local functions do not pass index arguments although their parameters include them; without
index arguments names and number agree -/
theorem local_arguments (indexes : List String) (x y atomic v arr sarr : String) :
    localArgs x y atomic v arr sarr = localParams indexes x y atomic v arr sarr ↔ indexes = [] := by
  rw [localArgs, localParams]
  constructor
  · intro h
    have := congrArg List.length h
    simp at this
    exact this
  · rintro rfl
    rfl

/-- calls inside of loops, in a program with several functions; the second loop uses the same structs -/
def loopsWithCalls : Code Op :=
  .one (.plain 0 1) (.loop 0 1 (.one (.forward 0 [⟨1, false, 3, 3, 1⟩] ⟨4, false, 2, 2, 1⟩) .nil)
    (.one (.plain 1 1) (.loop 0 2 (.one (.forward 1 [⟨1, false, 3, 3, 2⟩] ⟨6, false, 2, 2, 2⟩) .nil) .nil)))

example : loopsWithCalls.All Op.Placed 0 ∧ (0 :: loopsWithCalls.scopes).Nodup ∧ loopsWithCalls.Splits ∧
    demo.Local ((Code.texts [7]).append (loopsWithCalls.append (Code.texts [8]))) ∧
    (program 3 [7] loopsWithCalls.text [8]).funcs.length = 2 := by
  refine ⟨?_, by decide, ?_, fun _ _ _ _ _ => rfl, by decide⟩
  · simp [loopsWithCalls, Code.All, Op.Placed, Op.InScope, Op.Kinds]
  · simp [loopsWithCalls, Code.Splits, Op.Counted]

/-- both loops assign all members, the calls see the arrays -/
example : (demo.effect loopsWithCalls [] ()).map (·.length) = some 10 ∧
    (program 3 [7] loopsWithCalls.text [8]).funcs.map (·.length) = [11, 10] := by decide

/-- reverse mode with sparse arrays, in one function -/
example :
    let c : Code Op := .one (.reverse 0 [⟨1, false, 2, 2, 0⟩, ⟨1, true, 1, 2, 0⟩] ⟨3, false, 2, 2, 0⟩
      [⟨2, true, 0, 3, 0⟩, ⟨5, false, 3, 3, 0⟩]) (.one (.plain 9 1) .nil)
    c.All Op.Placed 0 ∧ (0 :: c.scopes).Nodup ∧ (program 7 [] c.text []).funcs = [] := by
  refine ⟨?_, by decide, by decide⟩
  simp [Code.All, Op.Placed, Op.InScope, Op.Kinds]

/-- splitting of plain assignments -/
example : (program 2 [] ([1, 2, 3, 4, 5].map fun n => Br.tok (Op.plain n 1)) []).funcs.map (·.length) = [2, 2, 1] := by
  decide

/-- calls of different orders -/
example : (declare ([⟨0, true, 0⟩, ⟨1, false, 1⟩].foldl MaxOrders.visit ⟨List.replicate 2 (-1), List.replicate 2 (-1)⟩)).tx = 2 := by
  decide

end Verif.Funcs
