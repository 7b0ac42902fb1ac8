import Verif.Print.LemmasEval

/-! Printed statements: how they are read and what they do. -/
namespace Verif.Print

open Verif.CExpr
open Verif.Codegen (Interp Fn Cmp Name Expr Stmt Env execAll)

variable {α : Type} [DecidableEq α]

/-! ### one reading -/

theorem emb_split {a b : List (Tok (Lit α))} {s s' : STok α} {x y : List (STok α)} (hs : ∀ t, s ≠ .tok t) (hs' : ∀ t, s' ≠ .tok t)
    (h : emb a ++ s :: x = emb b ++ s' :: y) : a = b ∧ s = s' ∧ x = y := by
  induction a generalizing b with
  | nil =>
    cases b with
    | nil => simp only [emb, List.map_nil, List.nil_append, List.cons.injEq] at h; exact ⟨rfl, h.1, h.2⟩
    | cons t b => simp only [emb, List.map_nil, List.nil_append, List.map_cons, List.cons_append, List.cons.injEq] at h; exact absurd h.1 (hs t)
  | cons t a ih =>
    cases b with
    | nil => simp only [emb, List.map_nil, List.nil_append, List.map_cons, List.cons_append, List.cons.injEq] at h; exact absurd h.1.symm (hs' t)
    | cons t' b =>
      simp only [emb, List.map_cons, List.cons_append, List.cons.injEq, STok.tok.injEq] at h
      obtain ⟨h1, h2, h3⟩ := ih h.2
      exact ⟨by rw [h.1, h1], h2, h3⟩

theorem emb_append (a b : List (Tok (Lit α))) : emb (a ++ b) = emb a ++ emb b := List.map_append

/-- a text of statements has one reading -/
theorem readsS_unique {ts : List (STok α)} {ss ss' : List (CStmt α)} (h : ReadsS ts ss) (h' : ReadsS ts ss') : ss = ss' := by
  induction h generalizing ss' with
  | nil =>
    generalize e : ([] : List (STok α)) = ts at h'
    cases h' with
    | nil => rfl
    | assign => simp at e
    | ite => simp at e
    | loop => simp at e
  | assign hl hr hrest ih =>
    rename_i tl tr l r rest ss
    generalize e : emb tl ++ .assign :: emb tr ++ .semi :: rest = ts at h'
    cases h' with
    | nil => simp at e
    | assign hl' hr' hrest' =>
      simp only [List.append_assoc, List.cons_append] at e
      obtain ⟨e1, _, e2⟩ := emb_split (by simp) (by simp) e
      obtain ⟨e3, _, e4⟩ := emb_split (by simp) (by simp) e2
      subst e1 e3 e4
      rw [hl.unique hl', hr.unique hr', ih hrest']
    | ite => cases tl <;> simp [emb] at e
    | loop => cases tl <;> simp [emb] at e
  | ite hc hl1 hr1 hl2 hr2 hrest ih =>
    rename_i tc tl1 tr1 tl2 tr2 c l1 r1 l2 r2 rest ss
    generalize e : STok.kwIf :: .tok .lp :: emb tc ++ .tok .rp :: .lbrace :: emb tl1 ++ .assign :: emb tr1 ++ .semi :: .rbrace ::
        .kwElse :: .lbrace :: emb tl2 ++ .assign :: emb tr2 ++ .semi :: .rbrace :: rest = ts at h'
    cases h' with
    | nil => simp at e
    | assign => rename_i tl _ _ _ _ _ _ _ _; cases tl <;> simp [emb] at e
    | loop => simp at e
    | ite hc' hl1' hr1' hl2' hr2' hrest' =>
      rename_i tc' tl1' tr1' tl2' tr2' _ _ _ _ _ rest' _
      simp only [List.append_assoc, List.cons_append, List.cons.injEq, true_and] at e
      have e' : emb (tc ++ [.rp]) ++ .lbrace :: (emb tl1 ++ .assign :: (emb tr1 ++ .semi :: .rbrace ::
          .kwElse :: .lbrace :: (emb tl2 ++ .assign :: (emb tr2 ++ .semi :: .rbrace :: rest))))
        = emb (tc' ++ [.rp]) ++ .lbrace :: (emb tl1' ++ .assign :: (emb tr1' ++ .semi :: .rbrace ::
          .kwElse :: .lbrace :: (emb tl2' ++ .assign :: (emb tr2' ++ .semi :: .rbrace :: rest')))) := by
        simpa [emb_append, emb] using e
      obtain ⟨e1, _, e2⟩ := emb_split (by simp) (by simp) e'
      obtain ⟨e3, _, e4⟩ := emb_split (by simp) (by simp) e2
      obtain ⟨e5, _, e6⟩ := emb_split (by simp) (by simp) e4
      simp only [List.cons.injEq, true_and] at e6
      obtain ⟨e7, _, e8⟩ := emb_split (by simp) (by simp) e6
      obtain ⟨e9, _, e10⟩ := emb_split (by simp) (by simp) e8
      simp only [List.cons.injEq, true_and] at e10
      have e11 : tc = tc' := by simpa using e1
      subst e11 e3 e5 e7 e9 e10
      rw [hc.unique hc', hl1.unique hl1', hr1.unique hr1', hl2.unique hl2', hr2.unique hr2', ih hrest']
  | loop hl hr hrest ih =>
    rename_i i n tl tr l r rest ss
    generalize e : STok.kwFor :: .tok .lp :: .tok (.id i) :: .assign :: .tok (.num (.int 0)) :: .semi :: .tok (.id i) :: .tok (.op .lt) ::
        .tok (.num (.int n)) :: .semi :: .tok (.id i) :: .incr :: .tok .rp :: emb tl ++ .assign :: emb tr ++ .semi :: rest = ts at h'
    cases h' with
    | nil => simp at e
    | assign => rename_i tl' _ _ _ _ _ _ _ _; cases tl' <;> simp [emb] at e
    | ite => simp at e
    | loop hl' hr' hrest' =>
      simp only [List.append_assoc, List.cons_append, List.cons.injEq, true_and, STok.tok.injEq, Tok.id.injEq, Tok.num.injEq, Lit.int.injEq] at e
      obtain ⟨ei, _, en, _, e⟩ := e
      obtain ⟨e1, _, e2⟩ := emb_split (by simp) (by simp) e
      obtain ⟨e3, _, e4⟩ := emb_split (by simp) (by simp) e2
      subst ei en e1 e3 e4
      rw [hl.unique hl', hr.unique hr', ih hrest']

/-! ### the trees of the printed statements -/

/-- the statement which is read -/
def cstmt (I : Interp α) (N : Names) : Stmt α → CStmt α
  | .assign n e => .assign (nameTree N n) (ptree I N e)
  | .ite c l r n t f => .ite (.bin (cmpTok c) (ptree I N l) (ptree I N r)) (nameTree N n) (ptree I N t) (nameTree N n) (ptree I N f)

/-- the loop which is read -/
def zeroStmt (I : Interp α) (N : Names) (n : Nat) : CStmt α :=
  .loop "i" n (.idx (.id N.y) (.id "i")) (paramTree I I.zero)

theorem name_reads (N : Names) (n : Name) : Reads (nameToks N n) (nameTree N n : T α) := by
  rw [← nameTree_toks]
  exact reads_of_ok (Tree.ok_mono (nameTree_ok N n) (by omega))

theorem cond_reads (I : Interp α) (N : Names) (c : Cmp) (l r : Expr α) :
    Reads (exprToks I N l ++ .op (cmpTok c) :: exprToks I N r) (.bin (cmpTok c) (ptree I N l) (ptree I N r)) := by
  have h : (Tree.bin (cmpTok c) (ptree I N l) (ptree I N r)).toks = exprToks I N l ++ .op (cmpTok c) :: exprToks I N r := by
    simp [Tree.toks, ptree_toks]
  rw [← h]
  apply reads_of_ok
  have hl := (ptree_ok I N l).1
  have hr := (ptree_ok I N r).1
  cases c <;> exact ⟨by decide, Tree.ok_mono hl (by decide), Tree.ok_mono hr (by decide)⟩

theorem stmts_reads (I : Interp α) (N : Names) (prog : List (Stmt α)) :
    ReadsS (prog.flatMap (stmtToks I N)) (prog.map (cstmt I N)) := by
  induction prog with
  | nil => exact .nil
  | cons s prog ih =>
    rw [List.flatMap_cons, List.map_cons]
    cases s with
    | assign n e =>
      have := ReadsS.assign (name_reads (α := α) N n) (expr_reads I N e) ih
      simpa [stmtToks, assignToks, cstmt] using this
    | ite c l r n t f =>
      have := ReadsS.ite (cond_reads I N c l r) (name_reads (α := α) N n) (expr_reads I N t) (name_reads (α := α) N n) (expr_reads I N f) ih
      simpa [stmtToks, assignToks, cstmt, emb] using this

theorem zero_reads (I : Interp α) (N : Names) (n : Nat) {rest : List (STok α)} {ss : List (CStmt α)} (h : ReadsS rest ss) :
    ReadsS (zeroToks I N n ++ rest) (zeroStmt I N n :: ss) := by
  have h1 : Reads [.id N.y, .lb, .id "i", .rb] (.idx (.id N.y) (.id "i") : T α) :=
    reads_of_ok (t := (.idx (.id N.y) (.id "i") : T α)) (by simp [Tree.ok])
  have h2 := expr_reads I N (.const I.zero)
  have := ReadsS.loop (i := "i") (n := n) h1 h2 h
  simpa [zeroToks, zeroStmt, emb, exprToks, ptree] using this

/-- the statements which are read from a function body -/
def cbody (I : Interp α) (N : Names) (zeroLoop : Bool) (nDep : Nat) (prog : List (Stmt α)) : List (CStmt α) :=
  if zeroLoop then zeroStmt I N nDep :: (prog.drop nDep).map (cstmt I N) else prog.map (cstmt I N)

theorem body_reads (I : Interp α) (N : Names) (z : Bool) (nDep : Nat) (prog : List (Stmt α)) :
    ReadsS (bodyToks I N z nDep prog) (cbody I N z nDep prog) := by
  cases z with
  | false => exact stmts_reads I N prog
  | true => exact zero_reads I N nDep (stmts_reads I N _)

/-! ### execution -/

/-- arrays with different names -/
structure Names.Distinct (N : Names) : Prop where
  xy : N.x ≠ N.y
  xv : N.x ≠ N.v
  yv : N.y ≠ N.v

variable {A : Arith α} {N : Names}

/-- what is needed of an expression -/
def Good (I : Interp α) (e : Expr α) : Prop := intSafe I e = true ∧ leaves e < 2 ^ 31 ∧ (AssocLaws I ∨ grouped e = true)

theorem expr_value (L : SignLaws A) {env : Env α} {c : CEnv α} (hr : Rel N env c) {e : Expr α} (hg : Good A.I e) {r : α}
    (he : e.eval A.I env = some r) : ∃ v, ceval A c (ptree A.I N e) = some v ∧ v.toD A = r ∧ HasTy (ptree A.I N e) v := by
  obtain ⟨h1, h2, h3⟩ := hg
  exact ceval_rval L c _ r (ptree_fits L N e h1 h2).1 (by rw [rval_ptree L N hr e h3]; exact he)

theorem rel_set (hN : N.Distinct) {env : Env α} {c : CEnv α} (hr : Rel N env c) (n : Name) (r : α) :
    ∀ s k, (nameTree N n : T α) = .idx (.id s) (.num (.int k)) → Rel N (env.set n r) (c.set s k r) := by
  obtain ⟨h1, h2, h3⟩ := hN
  intro s k h
  cases n <;> simp only [nameTree, Tree.idx.injEq, Tree.id.injEq, Tree.num.injEq, Lit.int.injEq] at h <;> obtain ⟨rfl, rfl⟩ := h <;>
    intro i <;> obtain ⟨a, b, d⟩ := hr i <;>
    simp only [CEnv.set, Env.set, Name.x.injEq, Name.y.injEq, Name.v.injEq, reduceCtorEq, if_false, a, b, d, h1, h2, h3,
      h1.symm, h2.symm, h3.symm, false_and, true_and, and_self]

theorem nameTree_form (N : Names) (n : Name) : ∃ s k, (nameTree N n : T α) = .idx (.id s) (.num (.int k)) := by
  cases n <;> exact ⟨_, _, rfl⟩

theorem assign_sim (L : SignLaws A) (hN : N.Distinct) {env env' : Env α} {c : CEnv α} (hr : Rel N env c) {n : Name} {e : Expr α}
    (hg : Good A.I e) (h : (e.eval A.I env).map (env.set n) = some env') :
    ∃ c', assignC A c (nameTree N n) (ptree A.I N e) = some c' ∧ Rel N env' c' := by
  obtain ⟨r, he, rfl⟩ := Option.map_eq_some_iff.mp h
  obtain ⟨v, h1, h2, _⟩ := expr_value L hr hg he
  obtain ⟨s, k, hn⟩ := nameTree_form (α := α) N n
  refine ⟨c.set s k r, ?_, rel_set hN hr n r s k hn⟩
  rw [hn]
  simp only [assignC, CEnv.pos, h1, h2]

theorem cmpOf_cmpTok (c : Cmp) : cmpOf (cmpTok c) = some c := by cases c <;> rfl

theorem stmt_sim (L : SignLaws A) (hN : N.Distinct) {env env' : Env α} {c : CEnv α} (hr : Rel N env c) {s : Stmt α}
    (hg : ∀ e ∈ stmtExprs s, Good A.I e) (h : s.exec A.I env = some env') :
    ∃ c', (cstmt A.I N s).exec A c = some c' ∧ Rel N env' c' := by
  cases s with
  | assign n e => exact assign_sim L hN hr (hg e (by simp [stmtExprs])) h
  | ite k l r n t f =>
    have gl := hg l (by simp [stmtExprs])
    have gr := hg r (by simp [stmtExprs])
    have gt := hg t (by simp [stmtExprs])
    have gf := hg f (by simp [stmtExprs])
    simp only [Stmt.exec] at h
    cases hl : l.eval A.I env with
    | none => rw [hl] at h; cases h
    | some a =>
      cases hrr : r.eval A.I env with
      | none => rw [hl, hrr] at h; cases h
      | some b =>
        rw [hl, hrr] at h
        obtain ⟨v, h1, h2, h3⟩ := expr_value L hr gl hl
        obtain ⟨w, h1', h2', h3'⟩ := expr_value L hr gr hrr
        have hc : ceval A c (.bin (cmpTok k) (ptree A.I N l) (ptree A.I N r)) = some (boolVal (A.I.cmp k a b)) := by
          simp only [ceval, h1, h1']
          rw [cmp_bin L (cmpOf_cmpTok k) h3 h3', h2, h2']
        have h' : (if A.I.cmp k a b = true then (t.eval A.I env).map (env.set n) else (f.eval A.I env).map (env.set n)) = some env' := h
        simp only [cstmt, CStmt.exec, hc, boolVal]
        by_cases hcmp : A.I.cmp k a b = true
        · rw [if_pos hcmp] at h'
          rw [if_pos hcmp, if_pos (by decide)]
          exact assign_sim L hN hr gt h'
        · rw [if_neg hcmp] at h'
          rw [if_neg hcmp, if_neg (by decide)]
          exact assign_sim L hN hr gf h'

theorem stmts_sim (L : SignLaws A) (hN : N.Distinct) {prog : List (Stmt α)} (hg : AllExprs (Good A.I) prog) {env env' : Env α}
    {c : CEnv α} (hr : Rel N env c) (h : execAll A.I env prog = some env') :
    ∃ c', execC A c (prog.map (cstmt A.I N)) = some c' ∧ Rel N env' c' := by
  induction prog generalizing env c with
  | nil => cases h; exact ⟨c, rfl, hr⟩
  | cons s prog ih =>
    simp only [execAll] at h
    cases hs : s.exec A.I env with
    | none => rw [hs] at h; cases h
    | some e1 =>
      rw [hs] at h
      obtain ⟨c1, h1, h2⟩ := stmt_sim L hN hr (hg s (by simp)) hs
      obtain ⟨c2, h3, h4⟩ := ih (fun s hs => hg s (List.mem_cons_of_mem _ hs)) h2 h
      exact ⟨c2, by simp only [List.map_cons, execC, h1, Option.bind_some, h3], h4⟩

theorem zero_value (L : SignLaws A) (c : CEnv α) : ∃ v, ceval A c (paramTree A.I A.I.zero) = some v ∧ v.toD A = A.I.zero := by
  obtain ⟨v, h1, h2, _⟩ := ceval_rval L c _ _ (paramTree_fits A.I A.I.zero) (rval_paramTree L c A.I.zero)
  exact ⟨v, h1, h2⟩

theorem loop_sim (L : SignLaws A) (hN : N.Distinct) (n : Nat) : ∀ (k : Nat) (env env' : Env α) (c : CEnv α), Rel N env c →
    execAll A.I env ((List.range' k n).map fun i => Stmt.assign (.y i) (.const A.I.zero)) = some env' →
    ∃ c', loopC A "i" (.idx (.id N.y) (.id "i")) (paramTree A.I A.I.zero) n k c = some c' ∧ Rel N env' c' := by
  induction n with
  | zero => intro k env env' c hr h; cases h; exact ⟨c, rfl, hr⟩
  | succ n ih =>
    intro k env env' c hr h
    simp only [List.range'_succ, List.map_cons, execAll, Stmt.exec, Expr.eval, Option.map_some, Option.bind_some] at h
    have hr' : Rel N env { c with ind := fun v => if v = "i" then some k else c.ind v } := hr
    obtain ⟨v, h1, h2⟩ := zero_value L { c with ind := fun v => if v = "i" then some k else c.ind v }
    have hs := rel_set hN hr' (.y k) A.I.zero N.y k rfl
    obtain ⟨c', h3, h4⟩ := ih (k + 1) _ _ _ hs h
    refine ⟨c', ?_, h4⟩
    simp only [loopC, assignC, CEnv.pos, if_true, h1, h2, Option.bind_some, h3]

theorem execAll_append' {I : Interp α} (a b : List (Stmt α)) (env : Env α) :
    execAll I env (a ++ b) = (execAll I env a).bind fun e => execAll I e b := by
  induction a generalizing env with
  | nil => rfl
  | cons s a ih =>
    simp only [List.cons_append, execAll]
    cases s.exec I env with
    | none => rfl
    | some e => simp [ih]

/-- execution of the printed function body -/
theorem body_sim (L : SignLaws A) (hN : N.Distinct) (z : Bool) (nDep : Nat) {prog : List (Stmt α)} (hg : AllExprs (Good A.I) prog)
    (hz : z = true → prog.take nDep = (List.range nDep).map fun i => Stmt.assign (.y i) (.const A.I.zero))
    {env env' : Env α} {c : CEnv α} (hr : Rel N env c) (h : execAll A.I env prog = some env') :
    ∃ c', execC A c (cbody A.I N z nDep prog) = some c' ∧ Rel N env' c' := by
  cases z with
  | false => exact stmts_sim L hN hg hr h
  | true =>
    rw [← List.take_append_drop nDep prog, execAll_append', hz rfl] at h
    obtain ⟨e1, h1, h2⟩ := Option.bind_eq_some_iff.mp h
    rw [List.range_eq_range'] at h1
    obtain ⟨c1, h3, h4⟩ := loop_sim L hN nDep 0 env e1 c hr h1
    obtain ⟨c2, h5, h6⟩ := stmts_sim L hN (fun s hs => hg s (List.mem_of_mem_drop hs)) h4 h2
    exact ⟨c2, by simp only [cbody, if_true, execC, zeroStmt, CStmt.exec, h3, Option.bind_some, h5], h6⟩

end Verif.Print
