import Verif.Print.LemmasStmt
import Verif.Codegen.LemmasTop

/-! The expressions of the generated statements, and the stream stack. -/
namespace Verif.Print

open Verif.CExpr
open Verif.Codegen

variable {α : Type} [DecidableEq α] {I : Interp α} {G : Graph α} {roots : List Nat} {vid : Nat → Nat}
  {nameOf : Nat → Except Err Name}

theorem argExpr_safe {rec : Nat → Except Err (Expr α)} {a : Arg α} {e : Expr α}
    (hrec : ∀ n e, a = .node n → rec n = .ok e → intSafe I e = true ∧ (isInt I e = true → IntLike I G (.node n)))
    (h : argExpr vid nameOf rec a = .ok e) : intSafe I e = true ∧ (isInt I e = true → IntLike I G a) := by
  cases a with
  | param v => cases h; exact ⟨rfl, fun h => .const h⟩
  | node n =>
    simp only [argExpr] at h
    by_cases hv : vid n ≠ 0
    · rw [if_pos hv] at h
      cases hn : nameOf n with
      | error x => rw [hn] at h; cases h
      | ok nm => rw [hn] at h; cases h; exact ⟨rfl, fun h => by simp [isInt] at h⟩
    · rw [if_neg hv] at h
      exact hrec n e rfl h

theorem map_ok {β γ : Type} {f : β → γ} {x : Except Err β} {c : γ} (h : x.map f = .ok c) : ∃ b, x = .ok b ∧ f b = c := by
  cases x with
  | error e => cases h
  | ok b => cases h; exact ⟨b, rfl, rfl⟩

theorem do_ok {β γ : Type} {f : β → β → γ} {x y : Except Err β} {c : γ} (h : (do let u ← x; let w ← y; pure (f u w)) = .ok c) :
    ∃ u w, x = .ok u ∧ y = .ok w ∧ f u w = c := by
  cases x with
  | error e => cases h
  | ok u =>
    cases y with
    | error e => cases h
    | ok w => cases h; exact ⟨u, w, rfl, rfl, rfl⟩

theorem nodeExpr_safe (hs : IntSafeGraph I G roots) : ∀ (k n : Nat) (e : Expr α), Reach G roots n →
    nodeExpr G vid nameOf k n = .ok e → intSafe I e = true ∧ (isInt I e = true → IntLike I G (.node n)) := by
  intro k
  induction k with
  | zero => intro n e _ h; cases h
  | succ k ih =>
    intro n e hr h
    have harg : ∀ a e, a ∈ (G n).args → argExpr vid nameOf (nodeExpr G vid nameOf k) a = .ok e →
        intSafe I e = true ∧ (isInt I e = true → IntLike I G a) := by
      intro a e ha h
      refine argExpr_safe ?_ h
      rintro m e rfl he
      exact ih m e (.kid hr (mem_argNodes.2 ha)) he
    unfold nodeExpr at h
    simp only at h
    split at h
    · rename_i a ho ha
      obtain ⟨u, h1, rfl⟩ := map_ok h
      obtain ⟨h2, h3⟩ := harg a u (by rw [ha]; simp) h1
      exact ⟨h2, fun h => .pass (.inl ho) ha (h3 h)⟩
    · rename_i a ho ha
      obtain ⟨u, h1, rfl⟩ := map_ok h
      obtain ⟨h2, h3⟩ := harg a u (by rw [ha]; simp) h1
      exact ⟨h2, fun h => .pass (.inr (.inl ho)) ha (h3 h)⟩
    · rename_i f a ho ha
      obtain ⟨u, h1, rfl⟩ := map_ok h
      obtain ⟨h2, h3⟩ := harg a u (by rw [ha]; simp) h1
      exact ⟨h2, fun h => by simp [isInt] at h⟩
    · rename_i a ho ha
      obtain ⟨u, h1, rfl⟩ := map_ok h
      obtain ⟨h2, h3⟩ := harg a u (by rw [ha]; simp) h1
      exact ⟨h2, fun h => .pass (.inr (.inr ho)) ha (h3 h)⟩
    all_goals try
      rename_i a b ho ha
      obtain ⟨u, w, h1, h1', rfl⟩ := do_ok h
      obtain ⟨h2, h3⟩ := harg a u (by rw [ha]; simp) h1
      obtain ⟨h2', h3'⟩ := harg b w (by rw [ha]; simp) h1'
    all_goals try
      have ho4 : (G n).op = .add ∨ (G n).op = .sub ∨ (G n).op = .mul ∨ (G n).op = .div := by simp [ho]
      have hno := hs n a b hr ho4 ha
      have hni : (isInt I u && isInt I w) = false := by
        cases e1 : isInt I u <;> cases e2 : isInt I w <;> first | rfl | exact absurd ⟨h3 e1, h3' e2⟩ hno
      exact ⟨by simp [intSafe, h2, h2', hni], fun h => by simp only [isInt] at h; rw [hni] at h; cases h⟩
    · exact ⟨by simp [intSafe, h2, h2'], fun h => by simp [isInt] at h⟩
    · rename_i m ho ha
      split at h
      · obtain ⟨u, h1, rfl⟩ := map_ok h
        exact ⟨rfl, fun _ => .sign ho⟩
      · cases h
    · cases h

theorem mapE_mem {β γ : Type} {f : β → Except Err γ} : ∀ {l : List β} {cs : List γ}, mapE f l = .ok cs →
    ∀ c ∈ cs, ∃ b ∈ l, f b = .ok c := by
  intro l
  induction l with
  | nil => intro cs h; cases h; simp
  | cons b l ih =>
    intro cs h c hc
    simp only [mapE] at h
    cases hb : f b with
    | error x => rw [hb] at h; cases h
    | ok c1 =>
      rw [hb] at h
      cases hl : mapE f l with
      | error x => rw [hl] at h; cases h
      | ok cs' =>
        rw [hl] at h
        cases h
        rcases List.mem_cons.mp hc with rfl | hc
        · exact ⟨b, by simp, hb⟩
        · obtain ⟨b', h1, h2⟩ := ih hl c hc
          exact ⟨b', List.mem_cons_of_mem _ h1, h2⟩

theorem nodeStmt_safe (hs : IntSafeGraph I G roots) {fuel n : Nat} {s : Stmt α} (hr : Reach G roots n)
    (h : nodeStmt G vid nameOf fuel n = .ok s) : ∀ e ∈ stmtExprs s, intSafe I e = true := by
  have harg : ∀ a e, a ∈ (G n).args → argExpr vid nameOf (nodeExpr G vid nameOf fuel) a = .ok e → intSafe I e = true := by
    intro a e ha h
    refine (argExpr_safe (G := G) ?_ h).1
    rintro m e rfl he
    exact nodeExpr_safe hs fuel m e (.kid hr (mem_argNodes.2 ha)) he
  unfold nodeStmt at h
  simp only at h
  split at h
  · rename_i c l r t f ho ha
    split at h
    · cases h1 : nameOf n with
      | error x => rw [h1] at h; cases h
      | ok nm =>
        rw [h1] at h
        cases h2 : argExpr vid nameOf (nodeExpr G vid nameOf fuel) t with
        | error x => rw [h2] at h; cases h
        | ok e =>
          rw [h2] at h; cases h
          intro e' he'
          simp only [stmtExprs, List.mem_singleton] at he'
          subst he'
          exact harg t e' (by rw [ha]; simp) h2
    · cases h1 : nameOf n with
      | error x => rw [h1] at h; cases h
      | ok nm =>
        rw [h1] at h
        cases h2 : argExpr vid nameOf (nodeExpr G vid nameOf fuel) l with
        | error x => rw [h2] at h; cases h
        | ok e1 =>
          rw [h2] at h
          cases h3 : argExpr vid nameOf (nodeExpr G vid nameOf fuel) r with
          | error x => rw [h3] at h; cases h
          | ok e2 =>
            rw [h3] at h
            cases h4 : argExpr vid nameOf (nodeExpr G vid nameOf fuel) t with
            | error x => rw [h4] at h; cases h
            | ok e3 =>
              rw [h4] at h
              cases h5 : argExpr vid nameOf (nodeExpr G vid nameOf fuel) f with
              | error x => rw [h5] at h; cases h
              | ok e4 =>
                rw [h5] at h; cases h
                intro e' he'
                simp only [stmtExprs, List.mem_cons, List.not_mem_nil, or_false] at he'
                rcases he' with rfl | rfl | rfl | rfl
                · exact harg l _ (by rw [ha]; simp) h2
                · exact harg r _ (by rw [ha]; simp) h3
                · exact harg t _ (by rw [ha]; simp) h4
                · exact harg f _ (by rw [ha]; simp) h5
  · cases h1 : nameOf n with
    | error x => rw [h1] at h; cases h
    | ok nm =>
      rw [h1] at h
      cases h2 : nodeExpr G vid nameOf fuel n with
      | error x => rw [h2] at h; cases h
      | ok e =>
        rw [h2] at h; cases h
        intro e' he'
        simp only [stmtExprs, List.mem_singleton] at he'
        subst he'
        exact (nodeExpr_safe hs fuel n e' hr h2).1

theorem dupStmt_safe {deps : List (Arg α)} {i : Nat} {s : Stmt α} (h : dupStmt deps nameOf i = .ok s) :
    ∀ e ∈ stmtExprs s, intSafe I e = true := by
  unfold dupStmt at h
  split at h
  · obtain ⟨nm, _, rfl⟩ := map_ok h
    simp [stmtExprs, intSafe]
  · cases h

theorem constStmts_safe {ig : Bool} {zero : α} : ∀ (ds : List (Arg α)) (i : Nat) (ss : List (Stmt α)),
    constStmts G ig zero nameOf i ds = .ok ss → ∀ s ∈ ss, ∀ e ∈ stmtExprs s, intSafe I e = true := by
  intro ds
  induction ds with
  | nil => intro i ss h; cases h; simp
  | cons d ds ih =>
    intro i ss h
    cases d with
    | param v =>
      simp only [constStmts] at h
      cases hr : constStmts G ig zero nameOf (i + 1) ds with
      | error x => rw [hr] at h; cases h
      | ok rest =>
        rw [hr] at h
        have h' : (if (!ig || !decide (v = zero)) = true then (pure (Stmt.assign (.y i) (.const v) :: rest) : Except Err _) else pure rest) = .ok ss := h
        by_cases hc : (!ig || !decide (v = zero)) = true
        · rw [if_pos hc] at h'; cases h'
          intro s hs
          rcases List.mem_cons.mp hs with rfl | hs
          · simp [stmtExprs, intSafe]
          · exact ih (i + 1) rest hr s hs
        · rw [if_neg hc] at h'; cases h'
          exact ih (i + 1) _ hr
    | node n =>
      simp only [constStmts] at h
      by_cases hc : (G n).op = .inv
      · rw [if_pos hc] at h
        cases hn : nameOf n with
        | error x => rw [hn] at h; cases h
        | ok nm =>
          rw [hn] at h
          cases hr : constStmts G ig zero nameOf (i + 1) ds with
          | error x => rw [hr] at h; cases h
          | ok rest =>
            rw [hr] at h; cases h
            intro s hs
            rcases List.mem_cons.mp hs with rfl | hs
            · simp [stmtExprs, intSafe]
            · exact ih (i + 1) rest hr s hs
      · rw [if_neg hc] at h
        exact ih (i + 1) ss h

/-- expressions of a generated function, and its first statements when the dependents are set to zero -/
theorem generate_safe {fuel : Nat} {cfg : Cfg} {zero : α} {indeps : List Nat} {deps : List (Arg α)} {h h' : HState} {g : Gen α}
    (hs : IntSafeGraph I G (argNodes deps)) (hq : ∀ p, plan G fuel cfg indeps deps h = .ok p → ∀ n ∈ p.queue, Reach G (argNodes deps) n)
    (e : generateCode G fuel cfg zero indeps deps h = .ok (g, h')) :
    AllExprs (fun e => intSafe I e = true) g.prog ∧
    ((cfg.zeroDeps && !h'.varOrder.isEmpty) = true →
      g.prog.take deps.length = (List.range deps.length).map fun i => Stmt.assign (.y i) (.const zero)) := by
  unfold generateCode at e
  cases hp : plan G fuel cfg indeps deps h with
  | error x => rw [hp] at e; cases e
  | ok p =>
    rw [hp] at e
    simp only at e
    cases hm : emit G fuel cfg zero indeps deps p h.names with
    | error x => rw [hm] at e; cases e
    | ok gn =>
      rw [hm] at e
      obtain ⟨g', names⟩ := gn
      simp only at e
      cases e
      simp only
      unfold emit at hm
      simp only at hm
      generalize (varName (nameTemps G p.cnt p.vid indeps.length p.minTemp p.queue (nameDeps 0 deps (nameIndeps p.vid indeps h.names)))
        p.vid indeps.length p.minTemp (depIds G p.vid 0 deps [] []).1) = nameOf at hm
      cases h1 : mapE (nodeStmt G p.vid nameOf fuel) p.queue with
      | error x => rw [h1] at hm; cases hm
      | ok body =>
        rw [h1] at hm
        simp only at hm
        cases h2 : mapE (dupStmt deps nameOf) (depIds G p.vid 0 deps [] []).2 with
        | error x => rw [h2] at hm; cases hm
        | ok dups =>
          rw [h2] at hm
          simp only at hm
          cases h3 : constStmts G cfg.ignoreZero zero nameOf 0 deps with
          | error x => rw [h3] at hm; cases hm
          | ok consts =>
            rw [h3] at hm
            cases hm
            simp only
            constructor
            · intro s hsm
              simp only [List.mem_append] at hsm
              rcases hsm with ((hz | hb) | hd) | hc
              · split at hz
                · obtain ⟨i, _, rfl⟩ := List.mem_map.mp hz
                  simp [stmtExprs, intSafe]
                · simp at hz
              · obtain ⟨n, hn, hn'⟩ := mapE_mem h1 s hb
                exact nodeStmt_safe hs (hq p hp n hn) hn'
              · obtain ⟨i, _, hi⟩ := mapE_mem h2 s hd
                exact dupStmt_safe hi
              · exact constStmts_safe deps 0 consts h3 s hc
            · intro hz
              rw [if_pos hz]
              simp only [List.append_assoc]
              rw [List.take_append_of_le_length (by simp)]
              rw [List.take_of_length_le (by simp)]

/-! ### the stream stack -/

/-- text which is still to be written for an entry -/
def itemToks (I : Interp α) (N : Names) : Item α → List (Tok (Lit α))
  | .text t => [t]
  | .node e => exprToks I N e

/-- number of rounds needed for an entry -/
def rounds : Expr α → Nat
  | .const _ | .var _ | .sgn _ => 1
  | .un _ a | .neg a | .ali a | .asg a => rounds a + 1
  | .pow a b | .add a b | .sub a b | .mul a b | .div a b => rounds a + rounds b + 1

def itemRounds : Item α → Nat
  | .text _ => 0
  | .node e => rounds e

def stackToks (I : Interp α) (N : Names) (is : List (Item α)) : List (Tok (Lit α)) := is.flatMap (itemToks I N)

theorem stackToks_text (I : Interp α) (N : Names) (ts : List (Tok (Lit α))) : stackToks I N (ts.map .text) = ts := by
  induction ts with
  | nil => rfl
  | cons t ts ih => simp only [stackToks] at ih; simp [stackToks, itemToks, ih]

theorem stackToks_append (I : Interp α) (N : Names) (a b : List (Item α)) :
    stackToks I N (a ++ b) = stackToks I N a ++ stackToks I N b := List.flatMap_append

theorem stackToks_cons (I : Interp α) (N : Names) (a : Item α) (b : List (Item α)) :
    stackToks I N (a :: b) = itemToks I N a ++ stackToks I N b := List.flatMap_cons

theorem argItems_toks (I : Interp α) (N : Names) (e : Expr α) : stackToks I N (argItems I N e) = exprToks I N e := by
  cases e <;> simp only [argItems, stackToks_text, exprToks] <;> simp [stackToks, itemToks, exprToks]

theorem enclosedItems_toks (I : Interp α) (N : Names) (b : Bool) (is : List (Item α)) :
    stackToks I N (enclosedItems b is) = enclosed b (stackToks I N is) := by
  cases b
  · rfl
  · simp [enclosedItems, enclosed, stackToks, itemToks]

theorem nodeItems_toks (I : Interp α) (N : Names) (e : Expr α) : stackToks I N (nodeItems I N e) = exprToks I N e := by
  cases e with
  | add a b =>
    simp only [nodeItems, exprToks]
    cases negParam I b <;> simp [stackToks_append, stackToks_cons, argItems_toks, itemToks, stackToks_text]
  | sub a b =>
    simp only [nodeItems, exprToks]
    cases negParam I b <;> simp [stackToks_append, stackToks_cons, argItems_toks, itemToks, stackToks_text, enclosedItems_toks]
  | _ =>
    simp [nodeItems, exprToks, stackToks_append, stackToks_cons, argItems_toks, itemToks, stackToks_text, enclosedItems_toks]
    try rfl

theorem insertIdx_split {β : Type} (x : β) : ∀ (n : Nat) (l : List β), n ≤ l.length → l.insertIdx n x = l.take n ++ x :: l.drop n := by
  intro n
  induction n with
  | zero => intro l _; simp
  | succ n ih =>
    intro l h
    cases l with
    | nil => simp at h
    | cons a l => simp [List.insertIdx_succ_cons, ih l (by simpa using h)]

def stackRounds (is : List (Item α)) : Nat := (is.map itemRounds).sum

theorem push_spec (I : Interp α) (N : Names) (s : Stack α) (i : Item α) (h : s.it ≤ s.cache.length) :
    (s.push i).it ≤ (s.push i).cache.length ∧
    (s.push i).out ++ stackToks I N ((s.push i).cache.take (s.push i).it) = s.out ++ stackToks I N (s.cache.take s.it) ++ itemToks I N i ∧
    stackRounds ((s.push i).cache.take (s.push i).it) = stackRounds (s.cache.take s.it) + itemRounds i ∧
    (s.push i).cache.drop (s.push i).it = s.cache.drop s.it := by
  have ins : ∀ j : Item α, s.it + 1 ≤ (s.cache.insertIdx s.it j).length ∧ (s.cache.insertIdx s.it j).take (s.it + 1) = s.cache.take s.it ++ [j] ∧
      (s.cache.insertIdx s.it j).drop (s.it + 1) = s.cache.drop s.it := by
    intro j
    rw [insertIdx_split j s.it s.cache h]
    have hl : (s.cache.take s.it).length = s.it := by simp; omega
    refine ⟨by simp; omega, ?_, ?_⟩
    · rw [List.take_append, hl]
      simp [List.take_of_length_le (show (s.cache.take s.it).length ≤ s.it + 1 by omega)]
    · rw [List.drop_append, hl]
      rw [List.drop_eq_nil_of_le (show (s.cache.take s.it).length ≤ s.it + 1 by omega)]
      simp
  cases i with
  | text t =>
    by_cases h0 : s.it = 0
    · have e : s.push (.text t) = { s with out := s.out ++ [t] } := by simp [Stack.push, h0]
      rw [e]
      simp only [h0, List.take_zero, itemToks, itemRounds]
      simp [stackToks]
    · have e : s.push (.text t) = { s with cache := s.cache.insertIdx s.it (.text t), it := s.it + 1 } := by simp [Stack.push, h0]
      obtain ⟨h1, h2, h3⟩ := ins (.text t)
      rw [e]
      simp only [h2, h3, stackToks_append, stackRounds, List.map_append, List.sum_append]
      exact ⟨h1, by simp [stackToks], by simp, trivial⟩
  | node e' =>
    obtain ⟨h1, h2, h3⟩ := ins (.node e')
    have e : s.push (.node e') = { s with cache := s.cache.insertIdx s.it (.node e'), it := s.it + 1 } := rfl
    rw [e]
    simp only [h2, h3, stackToks_append, stackRounds, List.map_append, List.sum_append]
    exact ⟨h1, by simp [stackToks], by simp, trivial⟩

theorem pushes_spec (I : Interp α) (N : Names) (is : List (Item α)) : ∀ (s : Stack α), s.it ≤ s.cache.length →
    (is.foldl Stack.push s).out ++ stackToks I N (is.foldl Stack.push s).cache
      = s.out ++ stackToks I N (s.cache.take s.it) ++ stackToks I N is ++ stackToks I N (s.cache.drop s.it) ∧
    stackRounds (is.foldl Stack.push s).cache = stackRounds s.cache + stackRounds is := by
  have cut : ∀ (s : Stack α), stackToks I N s.cache = stackToks I N (s.cache.take s.it) ++ stackToks I N (s.cache.drop s.it) := by
    intro s; rw [← stackToks_append, List.take_append_drop]
  have cutr : ∀ (s : Stack α), stackRounds s.cache = stackRounds (s.cache.take s.it) + stackRounds (s.cache.drop s.it) := by
    intro s
    conv => lhs; rw [← List.take_append_drop s.it s.cache]
    simp only [stackRounds, List.map_append, List.sum_append]
  induction is with
  | nil => intro s h; exact ⟨by simp only [List.foldl_nil]; rw [cut s]; simp [stackToks], rfl⟩
  | cons i is ih =>
    intro s h
    obtain ⟨h1, h2, h3, h4⟩ := push_spec I N s i h
    obtain ⟨g1, g2⟩ := ih (s.push i) h1
    simp only [List.foldl_cons]
    refine ⟨?_, ?_⟩
    · rw [g1, h4, h2, stackToks_cons]; simp
    · rw [g2, cutr (s.push i), h3, h4, cutr s]
      simp only [stackRounds, List.map_cons, List.sum_cons]; omega

theorem flush_cache (s : Stack α) : (∃ e rest, s.flush.cache = .node e :: rest) ∨ s.flush.cache = [] := by
  unfold Stack.flush
  split
  · rename_i h; exact .inr h
  · simp only
    generalize hc : s.cache = c
    clear hc
    induction c with
    | nil => exact .inr rfl
    | cons i c ih =>
      cases i with
      | text t => simpa using ih
      | node e => exact .inl ⟨e, c, by simp⟩

theorem flush_spec (I : Interp α) (N : Names) (s : Stack α) :
    s.flush.out ++ stackToks I N s.flush.cache = s.out ++ stackToks I N s.cache ∧ stackRounds s.flush.cache = stackRounds s.cache := by
  unfold Stack.flush
  split
  · exact ⟨rfl, rfl⟩
  · simp only
    generalize s.cache = c
    generalize s.out = o
    induction c generalizing o with
    | nil => simp [stackToks]
    | cons i c ih =>
      cases i with
      | text t =>
        obtain ⟨h1, h2⟩ := ih (o ++ [t])
        simp only [List.takeWhile_cons_of_pos, List.dropWhile_cons_of_pos, List.filterMap_cons, stackToks_cons, itemToks]
        refine ⟨?_, ?_⟩
        · simpa using h1
        · rw [h2]; simp [stackRounds, itemRounds]
      | node e => simp

theorem argItems_rounds (I : Interp α) (N : Names) (e : Expr α) : stackRounds (argItems I N e) ≤ rounds e := by
  have ht : ∀ ts : List (Tok (Lit α)), stackRounds (ts.map Item.text) = 0 := by
    intro ts; induction ts with
    | nil => rfl
    | cons t ts ih => simp only [stackRounds, List.map_cons, List.sum_cons, itemRounds] at ih ⊢; omega
  cases e with
  | const v => simp [argItems, ht]
  | var n => simp [argItems, ht]
  | _ => simp [argItems, stackRounds, itemRounds]

theorem nodeItems_rounds (I : Interp α) (N : Names) (e : Expr α) : stackRounds (nodeItems I N e) < rounds e := by
  have ht : ∀ ts : List (Tok (Lit α)), stackRounds (ts.map Item.text) = 0 := by
    intro ts; induction ts with
    | nil => rfl
    | cons t ts ih => simp only [stackRounds, List.map_cons, List.sum_cons, itemRounds] at ih ⊢; omega
  have ha : ∀ a b : List (Item α), stackRounds (a ++ b) = stackRounds a + stackRounds b := by
    intro a b; simp [stackRounds]
  have hc : ∀ (t : Tok (Lit α)) (b : List (Item α)), stackRounds (.text t :: b) = stackRounds b := by
    intro t b; simp [stackRounds, itemRounds]
  have hn : stackRounds ([] : List (Item α)) = 0 := rfl
  have he : ∀ (b : Bool) (is : List (Item α)), stackRounds (enclosedItems b is) = stackRounds is := by
    intro b is; cases b <;> simp [enclosedItems, ha, hc, hn]
  cases e with
  | add a b =>
    have h1 := argItems_rounds I N a
    have h2 := argItems_rounds I N b
    simp only [nodeItems, rounds]
    cases negParam I b <;> simp only [ha, hc, ht] <;> omega
  | sub a b =>
    have h1 := argItems_rounds I N a
    have h2 := argItems_rounds I N b
    simp only [nodeItems, rounds]
    cases negParam I b <;> simp only [ha, hc, ht, he] <;> omega
  | mul a b =>
    have h1 := argItems_rounds I N a
    have h2 := argItems_rounds I N b
    simp only [nodeItems, rounds, ha, hc, he]; omega
  | div a b =>
    have h1 := argItems_rounds I N a
    have h2 := argItems_rounds I N b
    simp only [nodeItems, rounds, ha, hc, he]; omega
  | pow a b =>
    have h1 := argItems_rounds I N a
    have h2 := argItems_rounds I N b
    simp only [nodeItems, rounds, ha, hc, hn, List.cons_append]; omega
  | un f a => have h1 := argItems_rounds I N a; simp only [nodeItems, rounds, ha, hc, hn, List.cons_append]; omega
  | neg a => have h1 := argItems_rounds I N a; simp only [nodeItems, rounds, hc, he]; omega
  | ali a => have h1 := argItems_rounds I N a; simp only [nodeItems, rounds]; omega
  | asg a => have h1 := argItems_rounds I N a; simp only [nodeItems, rounds]; omega
  | const v => simp [nodeItems, ht, rounds]
  | var n => simp [nodeItems, ht, rounds]
  | sgn n => simp [nodeItems, ht, rounds]

/-- the loop writes the text of everything on the stack, from left to right -/
theorem run_spec (I : Interp α) (N : Names) : ∀ (fuel : Nat) (s : Stack α), stackRounds s.cache < fuel →
    ∃ s', Stack.run I N fuel s = some s' ∧ s'.out = s.out ++ stackToks I N s.cache := by
  intro fuel
  induction fuel with
  | zero => intro s h; omega
  | succ fuel ih =>
    intro s h
    obtain ⟨f1, f2⟩ := flush_spec I N s
    unfold Stack.run
    simp only
    rcases flush_cache s with ⟨e, rest, hc⟩ | hc
    · rw [hc]
      simp only
      obtain ⟨p1, p2⟩ := pushes_spec I N (nodeItems I N e) { s.flush with cache := rest, it := 0 } (by simp)
      have hr := nodeItems_rounds I N e
      rw [hc] at f2
      simp only [stackRounds, List.map_cons, List.sum_cons, itemRounds] at f2
      simp only [stackRounds] at p2 hr h
      obtain ⟨s', g1, g2⟩ := ih _ (by simp only [stackRounds]; rw [p2]; omega)
      refine ⟨s', g1, ?_⟩
      rw [g2, p1, nodeItems_toks, ← f1, hc]
      simp [stackToks, itemToks]
    · rw [hc]
      refine ⟨s.flush, rfl, ?_⟩
      rw [← f1, hc]; simp [stackToks]

end Verif.Print
