import Verif.Funcs.Model

/-! Helper lemmas: the text of structured code determines it; the code printed without splitting. -/

namespace Verif.Funcs

variable {τ S : Type}

/-! ### texts -/

/-- empty, or begins with the end of a block -/
def Stop : List (Br τ) → Prop
  | [] => True
  | .forClose :: _ => True
  | .ifClose :: _ => True
  | .elif _ _ :: _ => True
  | .els _ :: _ => True
  | _ => False

/-- empty, or begins with the end of a conditional block -/
def StopIf : List (Br τ) → Prop
  | .ifClose :: _ => True
  | _ => False

theorem alts_stop (a : Alts τ) (x : List (Br τ)) (h : StopIf x) : Stop (a.text ++ x) := by
  cases a with
  | done =>
    match x, h with
    | .ifClose :: _, _ => trivial
  | els s b => trivial
  | elif c s b a => trivial

mutual
theorem Code.text_inj : ∀ (c c' : Code τ) (x y : List (Br τ)), Stop x → Stop y → c.text ++ x = c'.text ++ y → c = c' ∧ x = y
  | .nil, c', x, y, hx, hy, h => by
    cases c' with
    | nil => exact ⟨rfl, h⟩
    | one t r => rw [Code.text, List.nil_append, Code.text] at h; subst h; exact hx.elim
    | loop g s b r => rw [Code.text, List.nil_append, Code.text] at h; subst h; exact hx.elim
    | ifs k s b a r => rw [Code.text, List.nil_append, Code.text] at h; subst h; exact hx.elim
  | .one t r, c', x, y, hx, hy, h => by
    cases c' with
    | nil => rw [Code.text, Code.text, List.nil_append] at h; subst h; exact hy.elim
    | one t' r' =>
      simp only [Code.text, List.cons_append, List.cons.injEq, Br.tok.injEq] at h
      obtain ⟨h1, h2⟩ := Code.text_inj r r' x y hx hy h.2
      exact ⟨by rw [h.1, h1], h2⟩
    | loop g s b r => simp [Code.text] at h
    | ifs k s b a r => simp [Code.text] at h
  | .loop g s b r, c', x, y, hx, hy, h => by
    cases c' with
    | nil => rw [Code.text, Code.text, List.nil_append] at h; subst h; exact hy.elim
    | one t' r' => simp [Code.text] at h
    | loop g' s' b' r' =>
      simp only [Code.text, List.cons_append, List.append_assoc, List.cons.injEq, Br.forOpen.injEq] at h
      obtain ⟨h1, h2⟩ := Code.text_inj b b' (.forClose :: (r.text ++ x)) (.forClose :: (r'.text ++ y)) trivial trivial h.2
      obtain ⟨h3, h4⟩ := Code.text_inj r r' x y hx hy (List.cons.inj h2).2
      exact ⟨by rw [h.1.1, h.1.2, h1, h3], h4⟩
    | ifs k s b a r => simp [Code.text] at h
  | .ifs k s b a r, c', x, y, hx, hy, h => by
    cases c' with
    | nil => rw [Code.text, Code.text, List.nil_append] at h; subst h; exact hy.elim
    | one t' r' => simp [Code.text] at h
    | loop g' s' b' r' => simp [Code.text] at h
    | ifs k' s' b' a' r' =>
      simp only [Code.text, List.cons_append, List.append_assoc, List.cons.injEq, Br.ifOpen.injEq] at h
      obtain ⟨h1, h2⟩ := Code.text_inj b b' (a.text ++ .ifClose :: (r.text ++ x)) (a'.text ++ .ifClose :: (r'.text ++ y))
        (alts_stop _ _ trivial) (alts_stop _ _ trivial) h.2
      obtain ⟨h5, h6⟩ := Alts.text_inj a a' (.ifClose :: (r.text ++ x)) (.ifClose :: (r'.text ++ y)) trivial trivial h2
      obtain ⟨h3, h4⟩ := Code.text_inj r r' x y hx hy (List.cons.inj h6).2
      exact ⟨by rw [h.1.1, h.1.2, h1, h3, h5], h4⟩
theorem Alts.text_inj : ∀ (a a' : Alts τ) (x y : List (Br τ)), StopIf x → StopIf y → a.text ++ x = a'.text ++ y → a = a' ∧ x = y
  | .done, a', x, y, hx, hy, h => by
    cases a' with
    | done => exact ⟨rfl, h⟩
    | els s b => rw [Alts.text, List.nil_append, Alts.text] at h; subst h; exact hx.elim
    | elif k s b a => rw [Alts.text, List.nil_append, Alts.text] at h; subst h; exact hx.elim
  | .els s b, a', x, y, hx, hy, h => by
    cases a' with
    | done => rw [Alts.text, Alts.text, List.nil_append] at h; subst h; exact hy.elim
    | els s' b' =>
      simp only [Alts.text, List.cons_append, List.cons.injEq, Br.els.injEq] at h
      obtain ⟨h1, h2⟩ := Code.text_inj b b' x y (alts_stop .done x hx) (alts_stop .done y hy) h.2
      exact ⟨by rw [h.1, h1], h2⟩
    | elif k s b a => simp [Alts.text] at h
  | .elif k s b a, a', x, y, hx, hy, h => by
    cases a' with
    | done => rw [Alts.text, Alts.text, List.nil_append] at h; subst h; exact hy.elim
    | els s' b' => simp [Alts.text] at h
    | elif k' s' b' a' =>
      simp only [Alts.text, List.cons_append, List.append_assoc, List.cons.injEq, Br.elif.injEq] at h
      obtain ⟨h1, h2⟩ := Code.text_inj b b' (a.text ++ x) (a'.text ++ y) (alts_stop _ _ hx) (alts_stop _ _ hy) h.2
      obtain ⟨h3, h4⟩ := Alts.text_inj a a' x y hx hy h2
      exact ⟨by rw [h.1.1, h.1.2, h1, h3], h4⟩
end

theorem text_inj {c c' : Code τ} (h : c.text = c'.text) : c = c' :=
  (Code.text_inj c c' [] [] trivial trivial (by rw [h])).1

theorem Machine.runs_text (M : Machine τ S) (c : Code τ) (s : S) (r : Option S) : M.Runs c.text s r ↔ r = M.run c s :=
  ⟨fun ⟨_, h1, h2⟩ => by rw [← h2, text_inj h1], fun h => ⟨c, rfl, h.symm⟩⟩

/-! ### sequences -/

theorem Code.append_text : ∀ (c d : Code τ), (c.append d).text = c.text ++ d.text
  | .nil, d => by simp [Code.append, Code.text]
  | .one t r, d => by simp [Code.append, Code.text, Code.append_text r d]
  | .loop h s b r, d => by simp [Code.append, Code.text, Code.append_text r d]
  | .ifs c s b a r, d => by simp [Code.append, Code.text, Code.append_text r d]

theorem Code.append_nil : ∀ (c : Code τ), c.append .nil = c
  | .nil => rfl
  | .one t r => by simp [Code.append, Code.append_nil r]
  | .loop h s b r => by simp [Code.append, Code.append_nil r]
  | .ifs c s b a r => by simp [Code.append, Code.append_nil r]

theorem Code.append_assoc : ∀ (c d e : Code τ), (c.append d).append e = c.append (d.append e)
  | .nil, d, e => rfl
  | .one t r, d, e => by simp [Code.append, Code.append_assoc r d e]
  | .loop h s b r, d, e => by simp [Code.append, Code.append_assoc r d e]
  | .ifs c s b a r, d, e => by simp [Code.append, Code.append_assoc r d e]

theorem Machine.run_append (M : Machine τ S) : ∀ (c d : Code τ) (s : S), M.run (c.append d) s = (M.run c s).bind (M.run d)
  | .nil, d, s => by simp [Code.append, Machine.run]
  | .one t r, d, s => by
    simp only [Code.append, Machine.run, Option.bind_assoc]
    congr 1; funext x; exact Machine.run_append M r d x
  | .loop h s' b r, d, s => by
    simp only [Code.append, Machine.run, Option.bind_assoc]
    congr 1; funext x; exact Machine.run_append M r d x
  | .ifs c s' b a r, d, s => by
    simp only [Code.append, Machine.run, Option.bind_assoc]
    congr 1; funext x; exact Machine.run_append M r d x

/-- a list of statements as code -/
def Code.ofList : List τ → Code τ
  | [] => .nil
  | t :: ts => .one t (Code.ofList ts)

theorem Code.ofList_text : ∀ (ts : List τ), (Code.ofList ts).text = ts.map .tok
  | [] => rfl
  | t :: ts => by simp [Code.ofList, Code.text, Code.ofList_text ts]

theorem Code.ofList_append : ∀ (ts us : List τ), Code.ofList (ts ++ us) = (Code.ofList ts).append (Code.ofList us)
  | [], us => rfl
  | t :: ts, us => by simp [Code.ofList, Code.append, Code.ofList_append ts us]

/-! ### what is printed for structured code -/

/-- statements printed for an operation -/
def opToks (c : Cache) : Op → List Tok × Cache
  | .silent => ([], c)
  | .indexedDep n => ([.text n], c)
  | .plain n _ => ([.text n], c)
  | .forward n tx ty => forwardToks c n tx ty
  | .reverse n tx px py => reverseToks c n tx px py

def opLines : Op → Nat
  | .silent => 0
  | .indexedDep _ => 0
  | .plain _ k => k
  | .forward .. => 1
  | .reverse .. => 1

mutual
def Code.trans : Code Op → Cache → Code Tok × Cache
  | .nil, c => (.nil, c)
  | .one t r, c =>
    let x := opToks c t
    let y := r.trans x.2
    ((Code.ofList x.1).append y.1, y.2)
  | .loop h s b r, c =>
    let x := b.trans c
    let y := r.trans x.2
    (.loop h s x.1 y.1, y.2)
  | .ifs k s b a r, c =>
    let x := b.trans c
    let z := a.trans x.2
    let y := r.trans z.2
    (.ifs k s x.1 z.1 y.1, y.2)
def Alts.trans : Alts Op → Cache → Alts Tok × Cache
  | .done, c => (.done, c)
  | .els s b, c =>
    let x := b.trans c
    (.els s x.1, x.2)
  | .elif k s b a, c =>
    let x := b.trans c
    let z := a.trans x.2
    (.elif k s x.1 z.1, z.2)
end

mutual
def Code.lines : Code Op → Nat
  | .nil => 0
  | .one t r => opLines t + r.lines
  | .loop _ _ b r => 1 + b.lines + 1 + r.lines
  | .ifs _ _ b a r => 1 + b.lines + a.lines + 1 + r.lines
def Alts.lines : Alts Op → Nat
  | .done => 0
  | .els _ b => 1 + b.lines
  | .elif _ _ b a => 1 + b.lines + a.lines
end

theorem GenSt.op_tok (g : GenSt) (t : Op) : g.op (.tok t) =
    { g with code := g.code ++ (opToks g.cache t).1.map .tok, cache := (opToks g.cache t).2, count := g.count + opLines t } := by
  cases t <;> simp [GenSt.op, opToks, opLines, GenSt.print]

/-- no function starts while `P` holds -/
def noSplit (limit : Option Nat) (loops : Nat) : Prop := limit = none ∨ loops > 0

theorem step_noSplit {limit : Option Nat} {g : GenSt} (h : noSplit limit g.loops) (o : Br Op) : g.step limit o = g.op o := by
  rcases h with rfl | h
  · rfl
  · cases limit with
    | none => rfl
    | some k =>
      have : ¬ (g.count ≥ k ∧ g.loops = 0) := fun hh => by omega
      simp only [GenSt.step, if_neg this]

mutual
theorem Code.fold_noSplit (limit : Option Nat) : ∀ (c : Code Op) (g : GenSt), noSplit limit g.loops →
    c.text.foldl (GenSt.step limit) g =
      { g with code := g.code ++ (c.trans g.cache).1.text, cache := (c.trans g.cache).2, count := g.count + c.lines }
  | .nil, g, _ => by simp [Code.text, Code.trans, Code.lines]
  | .one t r, g, h => by
    rw [Code.text, List.foldl_cons, step_noSplit h, GenSt.op_tok, Code.fold_noSplit limit r]
    · simp [Code.trans, Code.lines, Code.append_text, Code.ofList_text, Nat.add_assoc]
    · exact h
  | .loop k s b r, g, h => by
    have h' : noSplit limit (g.loops + 1) := h.imp id fun _ => Nat.succ_pos _
    rw [Code.text, List.foldl_cons, step_noSplit h, List.foldl_append, Code.fold_noSplit limit b, List.foldl_cons,
      step_noSplit, Code.fold_noSplit limit r]
    · simp [GenSt.op, GenSt.print, Code.trans, Code.lines, Code.text, Nat.add_assoc]
    · exact h
    · exact h'
    · exact h'
  | .ifs k s b a r, g, h => by
    rw [Code.text, List.foldl_cons, step_noSplit h, List.foldl_append, Code.fold_noSplit limit b,
      List.foldl_append, Alts.fold_noSplit limit a, List.foldl_cons, step_noSplit, Code.fold_noSplit limit r]
    · simp [GenSt.op, GenSt.print, Code.trans, Code.lines, Code.text, Nat.add_assoc]
    · exact h
    · exact h
    · exact h
    · exact h
theorem Alts.fold_noSplit (limit : Option Nat) : ∀ (a : Alts Op) (g : GenSt), noSplit limit g.loops →
    a.text.foldl (GenSt.step limit) g =
      { g with code := g.code ++ (a.trans g.cache).1.text, cache := (a.trans g.cache).2, count := g.count + a.lines }
  | .done, g, _ => by simp [Alts.text, Alts.trans, Alts.lines]
  | .els s b, g, h => by
    rw [Alts.text, List.foldl_cons, step_noSplit h, Code.fold_noSplit limit b]
    · simp [GenSt.op, GenSt.print, Alts.trans, Alts.lines, Alts.text, Nat.add_assoc]
    · exact h
  | .elif k s b a, g, h => by
    rw [Alts.text, List.foldl_cons, step_noSplit h, List.foldl_append, Code.fold_noSplit limit b, Alts.fold_noSplit limit a]
    · simp [GenSt.op, GenSt.print, Alts.trans, Alts.lines, Alts.text, Nat.add_assoc]
    · exact h
    · exact h
end

end Verif.Funcs
