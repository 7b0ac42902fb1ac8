import Verif.Eval.LemmasAtomic

/-
C84: evaluation of graphs with arrays and calls of atomic functions.
-/
namespace Verif.Eval.Atomic

variable {A : Type}

/-- C84: in a graph without cycles in which elements are those of the array of results of their call and each such array belongs to one call, an evaluation gives the values of the dependent
variables, whatever the evaluator saved before (also in an evaluation which failed) and in whatever order C++ evaluates operands. Each call is made at most once, with the values of its arguments, and the number of evaluated atomic
functions is the number of calls. -/
theorem evaluate_right (E : Setup A) (rank : Nat → Nat) (fuel : Nat) (deps : List (Arg A)) (val : Nat → A) (ev : Evaluator A) (hev : ev.underEval = false)
    (hacyclic : ∀ n, Reach E.G (argNodes deps) n → ∀ k ∈ (E.G n).kids, rank k < rank n)
    (hdepth : ∀ n ∈ argNodes deps, rank n < fuel)
    (hdeps : ∀ n ∈ argNodes deps, (E.G n).scalar = true)
    (hargs : ∀ n k args, Reach E.G (argNodes deps) n → (E.G n = .op k args ∨ E.G n = .array args) → ∀ m ∈ argNodes args, (E.G m).scalar = true)
    (helem : ∀ n a t i, Reach E.G (argNodes deps) n → E.G n = .elem a t i → ∃ id x, E.G t = .atomic true id 0 x a)
    (hcall : ∀ t fw id p x y, Reach E.G (argNodes deps) t → E.G t = .atomic fw id p x y → fw = true ∧ p = 0 ∧
      (∃ f, E.fns id = some f ∧ ∀ l m, (f l m).length = m) ∧ (∃ xs, E.G x = .array xs) ∧ ∃ ys, E.G y = .array ys)
    (hord : ∀ n k args, Reach E.G (argNodes deps) n → E.G n = .op k args → (E.ord n).Perm (List.range args.length))
    (hown : ∀ t t' fw fw' id id' p p' x x' y y', Reach E.G (argNodes deps) t → Reach E.G (argNodes deps) t' →
      E.G t = .atomic fw id p x y → E.G t' = .atomic fw' id' p' x' y' → y' ≠ x ∧ (y = y' → t = t'))
    (hval : Values E.opf E.fns E.G E.x (Reach E.G (argNodes deps)) val) :
    ∃ ev', evaluate E fuel E.x.length deps ev = (.ok (deps.map (Arg.value val)), ev') ∧ ev'.underEval = false ∧
      (ev'.st.calls.map Prod.fst).Nodup ∧ ev'.st.atoms.length = ev'.st.calls.length ∧
      ∀ c ∈ ev'.st.calls, ∃ fw id p x y xs, E.G c.1 = .atomic fw id p x y ∧ E.G x = .array xs ∧ c.2 = xs.map (Arg.value val) := by
  have W : WF E rank (Reach E.G (argNodes deps)) := ⟨fun n hn k hk => .kid hn hk, hacyclic, hargs, helem, hcall, hord, hown⟩
  let R := (argNodes deps).foldr (fun n r => max (rank n + 1) r) 0
  have hR : ∀ l : List Nat, ∀ n ∈ l, rank n < l.foldr (fun n r => max (rank n + 1) r) 0 := by
    intro l
    induction l with
    | nil => simp
    | cons a l ih =>
      intro n hn
      rw [List.foldr_cons]
      rcases List.mem_cons.1 hn with rfl | hn
      · omega
      · have := ih n hn
        omega
  obtain ⟨st, h1, h2, _⟩ := evalArgs_ok (R := R) W (eval_ok W hval fuel) deps
    (fun m hm => ⟨.root hm, hdeps m hm, hdepth m hm, hR _ m hm⟩) (st := ⟨fun _ => none, fun _ => none, [], []⟩)
    ⟨nofun, nofun, nofun, rfl, List.nodup_nil, nofun⟩
  refine ⟨⟨{ st with evals := fun _ => none, arrays := fun _ => none }, false⟩, ?_, rfl, ?_, ?_, fun c hc => ?_⟩
  · rw [evaluate, if_neg (by simp), hev, if_neg (by simp)]
    simp only [h1]
  · show (st.calls.map Prod.fst).Nodup
    rw [h2.calls]
    exact h2.nodup
  · show st.atoms.length = st.calls.length
    rw [← h2.calls, List.length_map]
  · have hmem : c.1 ∈ st.atoms := by
      rw [← h2.calls]
      exact List.mem_map_of_mem hc
    obtain ⟨hu, fw, id, p, x, y, hG, _⟩ := h2.atoms c.1 hmem
    obtain ⟨_, _, _, ⟨xs, hxs⟩, _⟩ := hcall c.1 fw id p x y hu hG
    exact ⟨fw, id, p, x, y, xs, hG, hxs, h2.right c hc fw id p x y xs hG hxs⟩

/-- C84: functions which are not defined in the evaluator, other orders and reverse mode are reported (the array of results has no operations, as in recorded calls), and the evaluator can be
used again -/
theorem evaluate_rejects (E : Setup A) (fuel a t i n : Nat) (ev : Evaluator A) (hev : ev.underEval = false) (fw : Bool) (id p x : Nat) (ys : List A)
    (hn : E.G n = .elem a t i) (ht : E.G t = .atomic fw id p x a) (ha : E.G a = .array (ys.map .param)) (h : fw = false ∨ E.fns id = none ∨ p ≠ 0) :
    ∃ ev', evaluate E (fuel + 1) E.x.length [.node n] ev = (.error .exception, ev') ∧ ev'.underEval = false := by
  rw [evaluate, if_neg (by simp), hev, if_neg (by simp)]
  have hat : ∀ (evl : Nat → St A → Except Err A × St A) (st : St A), t ∉ st.atoms → evalAtomic E evl t st = (.error .exception, st) := by
    intro evl st hst
    rw [evalAtomic, if_neg hst, ht]
    simp only
    rcases h with rfl | h | h
    · rfl
    · cases fw
      · rfl
      · simp [h]
    · cases fw
      · rfl
      · cases hf : E.fns id with
        | none => rfl
        | some f => simp [h]
  have hfill : ∀ (evl : Nat → St A → Except Err A × St A) (ys : List A) (j : Nat) (st : St A), (st.arrays a).isSome = true →
      ∃ st', fill evl a j (ys.map .param) st = (.ok (), st') ∧ st'.atoms = st.atoms := by
    intro evl ys
    induction ys with
    | nil => exact fun j st _ => ⟨st, rfl, rfl⟩
    | cons y ys ih =>
      intro j st hst
      obtain ⟨l, hl⟩ := Option.isSome_iff_exists.1 hst
      obtain ⟨st', h1, h2⟩ := ih (j + 1) { st with arrays := upd st.arrays a (l.set j y) } (by simp [upd])
      refine ⟨st', ?_, h2⟩
      rw [List.map_cons, fill, evalArg]
      simp only [hl]
      exact h1
  obtain ⟨st', h1, h2⟩ := hfill (eval E fuel) ys 0 ⟨fun _ => none, upd (fun _ => none) a (List.replicate (ys.map Arg.param).length E.zero), [], []⟩ (by simp [upd])
  have hnot : t ∉ st'.atoms := by rw [h2]; simp
  simp only [evalArgs, evalArg, eval, evalOperation, hn, evalElem, evalArray, ha, h1, hat _ _ hnot]
  exact ⟨_, rfl, rfl⟩

/-! ### cases -/

/-- nodes: variables 0 and 1, their sum 2, arguments 3 of a call 5 with the results 4, elements 6 and 7 of it, arguments 8 (element 6 and the constant 10) of a call 10 with the results 9,
element 11 of it, and the product 12 of elements 7 and 11 -/
private def graph : Nat → Node Int
  | 0 => .indep 0
  | 1 => .indep 1
  | 2 => .op 0 [.node 0, .node 1]
  | 3 => .array [.node 2, .node 1]
  | 4 => .array [.param 0, .param 0]
  | 5 => .atomic true 7 0 3 4
  | 6 => .elem 4 5 0
  | 7 => .elem 4 5 1
  | 8 => .array [.node 6, .param 10]
  | 9 => .array [.param 0, .param 0]
  | 10 => .atomic true 7 0 8 9
  | 11 => .elem 9 10 1
  | 12 => .op 1 [.node 7, .node 11]
  | _ => .indep 0

/-- sum and product -/
private def setup : Setup Int where
  G := graph
  opf k l := match k, l with | 0, [a, b] => some (a + b) | 1, [a, b] => some (a * b) | _, _ => none
  fns id := if id = 7 then some fun l m => ([l.sum, l.prod] ++ List.replicate m 0).take m else none
  x := [2, 3]
  zero := 0
  ord n := if n = 2 then [0, 1] else [1, 0]

/-- an evaluator which saved wrong results and calls in an evaluation which failed -/
private def used : Evaluator Int := ⟨⟨fun _ => some 99, fun _ => some [98, 97], [5, 10], [(5, [])]⟩, false⟩

-- 2 + 3 = 5; sum 8 and product 15 of 5 and 3; product 80 of 8 and 10; 15 * 80
example : (evaluate setup 13 2 [.node 12, .node 6, .param 4, .node 11] used).1.toOption = some [1200, 8, 4, 80] := by
  decide +kernel

example : (evaluate setup 13 2 [.node 12, .node 6, .param 4, .node 11] used).2.st.calls = [(10, [8, 10]), (5, [5, 3])] := by
  decide +kernel

private def values : Nat → Int
  | 0 => 2 | 1 => 3 | 2 => 5 | 6 => 8 | 7 => 15 | 11 => 80 | 12 => 1200 | _ => 2

private theorem reach_le (n : Nat) (h : Reach graph [12, 6, 11] n) : n ≤ 12 := by
  induction h with
  | root h =>
    rcases List.mem_cons.1 h with rfl | h
    · omega
    · rcases List.mem_cons.1 h with rfl | h
      · omega
      · rcases List.mem_cons.1 h with rfl | h
        · omega
        · cases h
  | @kid n k _ hk ih =>
    have : ∀ n ≤ 12, ∀ k ∈ (graph n).kids, k ≤ 12 := by decide
    exact this n ih k hk

-- the hypotheses are met
example : ∃ ev', evaluate setup 13 2 [.node 12, .node 6, .node 11] used = (.ok [1200, 8, 80], ev') := by
  have key : ∀ n, Reach setup.G (argNodes (A := Int) [.node 12, .node 6, .node 11]) n → n ≤ 12 := reach_le
  have cases13 : ∀ n ≤ 12, n = 0 ∨ n = 1 ∨ n = 2 ∨ n = 3 ∨ n = 4 ∨ n = 5 ∨ n = 6 ∨ n = 7 ∨ n = 8 ∨ n = 9 ∨ n = 10 ∨ n = 11 ∨ n = 12 := by omega
  obtain ⟨ev', h, _⟩ := evaluate_right setup id 13 [.node 12, .node 6, .node 11] values used rfl
    (fun n hn => (by decide : ∀ n ≤ 12, ∀ k ∈ (graph n).kids, k < n) n (key n hn))
    (by decide)
    (by decide)
    (fun n k args hn hG m hm => by
      have h1 : m ∈ (graph n).kids := by
        rcases hG with hG | hG <;> · have hG : graph n = _ := hG; rw [hG]; exact hm
      have h2 : (graph n).kids = argNodes args → ∀ m ∈ (graph n).kids, (match graph n with | .op _ _ | .array _ => true | _ => false) = true → (graph m).scalar = true :=
        fun _ => (by decide : ∀ n ≤ 12, ∀ m ∈ (graph n).kids, (match graph n with | .op _ _ | .array _ => true | _ => false) = true → (graph m).scalar = true) n (key n hn)
      refine h2 ?_ m h1 ?_ <;> rcases hG with hG | hG <;> · have hG : graph n = _ := hG; rw [hG]; try rfl)
    (fun n a t i hn hG => by
      have hG : graph n = _ := hG
      rcases cases13 n (key n hn) with h | h | h | h | h | h | h | h | h | h | h | h | h <;> subst h <;> cases hG
      · exact ⟨7, 3, rfl⟩
      · exact ⟨7, 3, rfl⟩
      · exact ⟨7, 8, rfl⟩)
    (fun t fw id p x y hn hG => by
      have hG : graph t = _ := hG
      have hlen : ∃ f, setup.fns 7 = some f ∧ ∀ (l : List Int) (m : Nat), (f l m).length = m := ⟨_, rfl, fun l m => by simp; omega⟩
      rcases cases13 t (key t hn) with h | h | h | h | h | h | h | h | h | h | h | h | h <;> subst h <;> cases hG
      · exact ⟨rfl, rfl, hlen, ⟨_, rfl⟩, ⟨_, rfl⟩⟩
      · exact ⟨rfl, rfl, hlen, ⟨_, rfl⟩, ⟨_, rfl⟩⟩)
    (fun n k args hn hG => by
      have hG : graph n = _ := hG
      rcases cases13 n (key n hn) with h | h | h | h | h | h | h | h | h | h | h | h | h <;> subst h <;> cases hG
      · exact List.Perm.refl _
      · exact List.Perm.swap 0 1 [])
    (fun t t' fw fw' id id' p p' x x' y y' hn hn' hG hG' => by
      have hG : graph t = _ := hG
      have hG' : graph t' = _ := hG'
      rcases cases13 t (key t hn) with h | h | h | h | h | h | h | h | h | h | h | h | h <;> subst h <;> cases hG <;>
        rcases cases13 t' (key t' hn') with h | h | h | h | h | h | h | h | h | h | h | h | h <;> subst h <;> cases hG' <;> decide)
    (fun n hn => by
      rcases cases13 n (key n hn) with h | h | h | h | h | h | h | h | h | h | h | h | h <;> subst h
      case inr.inr.inr.inr.inr.inr.inl | inr.inr.inr.inr.inr.inr.inr.inl | inr.inr.inr.inr.inr.inr.inr.inr.inr.inr.inr.inl =>
        intro fw id p xs ys ax ay f h1 h2 h3 h4
        cases h1
        cases h2
        cases h3
        cases h4
        decide
      all_goals first | trivial | decide)
  exact ⟨ev', h⟩

end Verif.Eval.Atomic
