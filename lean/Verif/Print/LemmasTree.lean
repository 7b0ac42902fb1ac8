import Verif.Print.Model
import Verif.CExpr.Lemmas

/-! The syntax tree of a printed expression. -/
namespace Verif.Print

open Verif.CExpr
open Verif.Codegen (Interp Fn Cmp Name Expr Stmt)

variable {α : Type} [DecidableEq α]

abbrev T (α : Type) := Tree (Lit α)

/-- `a + t` when `t` is written without parentheses -/
def joinAdd (a : T α) : T α → T α
  | .bin .add t1 t2 => .bin .add (joinAdd a t1) t2
  | .bin .sub t1 t2 => .bin .sub (joinAdd a t1) t2
  | t => .bin .add a t

/-- `a * t` when `t` is written without parentheses -/
def joinMul (a : T α) : T α → T α
  | .bin .mul t1 t2 => .bin .mul (joinMul a t1) t2
  | .bin .div t1 t2 => .bin .div (joinMul a t1) t2
  | t => .bin .mul a t

/-- `- t` when `t` is written without parentheses -/
def negT : T α → T α
  | .bin .mul t1 t2 => .bin .mul (negT t1) t2
  | .bin .div t1 t2 => .bin .div (negT t1) t2
  | t => .neg t

theorem joinAdd_toks (a t : T α) : (joinAdd a t).toks = a.toks ++ .op .add :: t.toks := by
  induction t using joinAdd.induct with
  | case1 t1 t2 ih => simp [joinAdd, Tree.toks, ih]
  | case2 t1 t2 ih => simp [joinAdd, Tree.toks, ih]
  | case3 t h1 h2 =>
    unfold joinAdd
    split
    · exact absurd rfl (h1 _ _)
    · exact absurd rfl (h2 _ _)
    · rfl

theorem joinMul_toks (a t : T α) : (joinMul a t).toks = a.toks ++ .op .mul :: t.toks := by
  induction t using joinMul.induct with
  | case1 t1 t2 ih => simp [joinMul, Tree.toks, ih]
  | case2 t1 t2 ih => simp [joinMul, Tree.toks, ih]
  | case3 t h1 h2 =>
    unfold joinMul
    split
    · exact absurd rfl (h1 _ _)
    · exact absurd rfl (h2 _ _)
    · rfl

theorem negT_toks (t : T α) : (negT t).toks = .op .sub :: t.toks := by
  induction t using negT.induct with
  | case1 t1 t2 ih => simp [negT, Tree.toks, ih]
  | case2 t1 t2 ih => simp [negT, Tree.toks, ih]
  | case3 t h1 h2 =>
    unfold negT
    split
    · exact absurd rfl (h1 _ _)
    · exact absurd rfl (h2 _ _)
    · rfl

/-- an operator of level 5 or 6 is one of the four -/
theorem prec5 {o : Op} (h : o.prec = 5) : o = .add ∨ o = .sub := by cases o <;> simp [Op.prec] at h ⊢
theorem prec6 {o : Op} (h : o.prec = 6) : o = .mul ∨ o = .div := by cases o <;> simp [Op.prec] at h ⊢
theorem prec_le6 (o : Op) : o.prec ≤ 6 := by cases o <;> simp [Op.prec]

theorem ok6_of_ok5 {t : T α} (h : t.ok 5) (h1 : ∀ a b, t ≠ .bin .add a b) (h2 : ∀ a b, t ≠ .bin .sub a b) : t.ok 6 := by
  cases t with
  | bin o a b =>
    obtain ⟨p, q⟩ := h
    rcases Nat.lt_or_ge 5 o.prec with h' | h'
    · exact ⟨h', q⟩
    · rcases prec5 (by omega : o.prec = 5) with rfl | rfl
      · exact absurd rfl (h1 _ _)
      · exact absurd rfl (h2 _ _)
  | cond a b c => simp [Tree.ok] at h
  | neg t => exact ⟨by omega, h.2⟩
  | _ => exact h

theorem ok7_of_ok6 {t : T α} (h : t.ok 6) (h1 : ∀ a b, t ≠ .bin .mul a b) (h2 : ∀ a b, t ≠ .bin .div a b) : t.ok 7 := by
  cases t with
  | bin o a b =>
    obtain ⟨p, q⟩ := h
    rcases prec6 (by have := prec_le6 o; omega : o.prec = 6) with rfl | rfl
    · exact absurd rfl (h1 _ _)
    · exact absurd rfl (h2 _ _)
  | cond a b c => simp [Tree.ok] at h
  | neg t => exact ⟨by omega, h.2⟩
  | _ => exact h

theorem joinAdd_ok {a t : T α} (ha : a.ok 5) (ht : t.ok 5) : (joinAdd a t).ok 5 := by
  induction t using joinAdd.induct with
  | case1 t1 t2 ih => exact ⟨by decide, ih (ht.2.1), ht.2.2⟩
  | case2 t1 t2 ih => exact ⟨by decide, ih (ht.2.1), ht.2.2⟩
  | case3 t h1 h2 =>
    unfold joinAdd
    split
    · exact absurd rfl (h1 _ _)
    · exact absurd rfl (h2 _ _)
    · exact ⟨by decide, ha, ok6_of_ok5 ht h1 h2⟩

theorem joinMul_ok {a t : T α} (ha : a.ok 6) (ht : t.ok 6) : (joinMul a t).ok 6 := by
  induction t using joinMul.induct with
  | case1 t1 t2 ih => exact ⟨by decide, ih (ht.2.1), ht.2.2⟩
  | case2 t1 t2 ih => exact ⟨by decide, ih (ht.2.1), ht.2.2⟩
  | case3 t h1 h2 =>
    unfold joinMul
    split
    · exact absurd rfl (h1 _ _)
    · exact absurd rfl (h2 _ _)
    · exact ⟨by decide, ha, ok7_of_ok6 ht h1 h2⟩

theorem negT_ok {t : T α} (ht : t.ok 6) : (negT t).ok 6 := by
  induction t using negT.induct with
  | case1 t1 t2 ih => exact ⟨by decide, ih (ht.2.1), ht.2.2⟩
  | case2 t1 t2 ih => exact ⟨by decide, ih (ht.2.1), ht.2.2⟩
  | case3 t h1 h2 =>
    unfold negT
    split
    · exact absurd rfl (h1 _ _)
    · exact absurd rfl (h2 _ _)
    · exact ⟨by omega, ok7_of_ok6 ht h1 h2⟩

/-- tree of a parameter -/
def paramTree (I : Interp α) (v : α) : T α := if nonneg I v then .num (magLit I v) else .neg (.num (magLit I (I.neg v)))

/-- tree of a variable -/
def nameTree (N : Names) : Name → T α
  | .x i => .idx (.id N.x) (.num (.int i))
  | .y i => .idx (.id N.y) (.num (.int i))
  | .v i => .idx (.id N.v) (.num (.int i))

def enclosedT (b : Bool) (t : T α) : T α := if b then .paren t else t

/-- tree of the sign function -/
def signTree (I : Interp α) (n : T α) : T α :=
  .paren (.cond (.bin .gt n (paramTree I I.zero)) (paramTree I I.one)
    (.paren (.cond (.bin .lt n (paramTree I I.zero)) (paramTree I I.negOne) (paramTree I I.zero))))

/-- tree of a printed expression -/
def ptree (I : Interp α) (N : Names) : Expr α → T α
  | .const v => paramTree I v
  | .var n => nameTree N n
  | .un f a => .call1 (fnName f) (ptree I N a)
  | .pow a b => .call2 "pow" (ptree I N a) (ptree I N b)
  | .add a b => match negParam I b with
    | none => joinAdd (ptree I N a) (ptree I N b)
    | some v => .bin .sub (ptree I N a) (paramTree I (I.neg v))
  | .sub a b => match negParam I b with
    | none => .bin .sub (ptree I N a) (enclosedT (encloseMul b) (ptree I N b))
    | some v => joinAdd (ptree I N a) (paramTree I (I.neg v))
  | .mul a b => joinMul (enclosedT (encloseMul a) (ptree I N a)) (enclosedT (encloseMul b) (ptree I N b))
  | .div a b => .bin .div (enclosedT (encloseDiv a) (ptree I N a)) (enclosedT (encloseDiv b) (ptree I N b))
  | .neg a => negT (enclosedT (encloseMul a) (ptree I N a))
  | .sgn n => signTree I (nameTree N n)
  | .ali a => ptree I N a
  | .asg a => ptree I N a

theorem paramTree_toks (I : Interp α) (v : α) : (paramTree I v).toks = paramToks I v := by
  unfold paramTree paramToks; split <;> rfl

theorem nameTree_toks (N : Names) (n : Name) : (nameTree N n : T α).toks = nameToks N n := by
  cases n <;> rfl

theorem enclosed_toks (b : Bool) (t : T α) : (enclosedT b t).toks = enclosed b t.toks := by
  cases b <;> simp [enclosedT, enclosed, Tree.toks]

theorem signTree_toks (I : Interp α) (n : T α) : (signTree I n).toks = signToks I n.toks := by
  simp [signTree, signToks, Tree.toks, paramTree_toks]

/-- the text of the tree is the printed text -/
theorem ptree_toks (I : Interp α) (N : Names) (e : Expr α) : (ptree I N e).toks = exprToks I N e := by
  induction e with
  | const v => exact paramTree_toks I v
  | var n => exact nameTree_toks N n
  | un f a ih => simp [ptree, exprToks, Tree.toks, ih]
  | pow a b iha ihb => simp [ptree, exprToks, Tree.toks, iha, ihb]
  | add a b iha ihb =>
    simp only [ptree, exprToks]
    cases negParam I b with
    | none => simp [joinAdd_toks, iha, ihb]
    | some v => simp [Tree.toks, paramTree_toks, iha]
  | sub a b iha ihb =>
    simp only [ptree, exprToks]
    cases negParam I b with
    | none => simp [Tree.toks, enclosed_toks, iha, ihb]
    | some v => simp [joinAdd_toks, paramTree_toks, iha]
  | mul a b iha ihb => simp [ptree, exprToks, joinMul_toks, enclosed_toks, iha, ihb]
  | div a b iha ihb => simp [ptree, exprToks, Tree.toks, enclosed_toks, iha, ihb]
  | neg a ih => simp [ptree, exprToks, negT_toks, enclosed_toks, ih]
  | sgn n => simp only [ptree, exprToks, signTree_toks, nameTree_toks]
  | ali a ih => exact ih
  | asg a ih => exact ih

theorem paramTree_ok (I : Interp α) (v : α) : (paramTree I v).ok 7 := by
  unfold paramTree; split <;> simp [Tree.ok]

theorem nameTree_ok (N : Names) (n : Name) : (nameTree N n : T α).ok 8 := by
  cases n <;> simp [nameTree, Tree.ok]

/-- the level of the printed expression -/
theorem ptree_ok (I : Interp α) (N : Names) (e : Expr α) : (ptree I N e).ok 5 ∧
    (encloseMul e = false → (ptree I N e).ok 6) ∧ (encloseDiv e = false → (ptree I N e).ok 7) := by
  have up : ∀ t : T α, t.ok 7 → ∀ b c : Prop, t.ok 5 ∧ (b → t.ok 6) ∧ (c → t.ok 7) := fun t h _ _ =>
    ⟨t.ok_mono h (by omega), fun _ => t.ok_mono h (by omega), fun _ => h⟩
  have enc6 : ∀ e : Expr α, (encloseMul e = false → (ptree I N e).ok 6) → (ptree I N e).ok 5 →
      (enclosedT (encloseMul e) (ptree I N e)).ok 6 := by
    intro e h h5
    cases hb : encloseMul e with
    | false => exact h hb
    | true => exact Tree.ok_mono (m := 0) h5 (by omega)
  have enc7 : ∀ e : Expr α, (encloseDiv e = false → (ptree I N e).ok 7) → (ptree I N e).ok 5 →
      (enclosedT (encloseDiv e) (ptree I N e)).ok 7 := by
    intro e h h5
    cases hb : encloseDiv e with
    | false => exact h hb
    | true => exact Tree.ok_mono (m := 0) h5 (by omega)
  induction e with
  | const v => exact up _ (paramTree_ok I v) _ _
  | var n => exact up _ (Tree.ok_mono (nameTree_ok N n) (by omega)) _ _
  | un f a ih => exact up _ (Tree.ok_mono (m := 0) ih.1 (by omega)) _ _
  | pow a b iha ihb =>
    refine up (ptree I N (.pow a b)) ?_ _ _
    exact ⟨Tree.ok_mono (m := 0) iha.1 (by omega), Tree.ok_mono (m := 0) ihb.1 (by omega)⟩
  | add a b iha ihb =>
    refine ⟨?_, fun h => by simp [encloseMul, strip] at h, fun h => by simp [encloseDiv, strip] at h⟩
    simp only [ptree]
    cases negParam I b with
    | none => exact joinAdd_ok iha.1 ihb.1
    | some v => exact ⟨by decide, iha.1, Tree.ok_mono (paramTree_ok I _) (by decide)⟩
  | sub a b iha ihb =>
    refine ⟨?_, fun h => by simp [encloseMul, strip] at h, fun h => by simp [encloseDiv, strip] at h⟩
    simp only [ptree]
    cases negParam I b with
    | none => exact ⟨by decide, iha.1, enc6 b ihb.2.1 ihb.1⟩
    | some v => exact joinAdd_ok iha.1 (Tree.ok_mono (paramTree_ok I _) (by decide))
  | mul a b iha ihb =>
    have h6 : (ptree I N (.mul a b)).ok 6 := joinMul_ok (enc6 a iha.2.1 iha.1) (enc6 b ihb.2.1 ihb.1)
    exact ⟨Tree.ok_mono h6 (by omega), fun _ => h6, fun h => by simp [encloseDiv, strip] at h⟩
  | div a b iha ihb =>
    have h6 : (ptree I N (.div a b)).ok 6 :=
      ⟨by decide, Tree.ok_mono (enc7 a iha.2.2 iha.1) (by decide), enc7 b ihb.2.2 ihb.1⟩
    exact ⟨Tree.ok_mono h6 (by omega), fun _ => h6, fun h => by simp [encloseDiv, strip] at h⟩
  | neg a ih =>
    have h6 : (ptree I N (.neg a)).ok 6 := negT_ok (enc6 a ih.2.1 ih.1)
    exact ⟨Tree.ok_mono h6 (by omega), fun _ => h6, fun h => by simp [encloseDiv, strip] at h⟩
  | sgn n =>
    refine up _ ?_ _ _
    have hn := nameTree_ok (α := α) N n
    have hp := fun v => paramTree_ok I v
    exact ⟨rfl, ⟨by decide, Tree.ok_mono hn (by decide), Tree.ok_mono (hp _) (by decide)⟩, Tree.ok_mono (hp _) (by omega),
      ⟨rfl, ⟨by decide, Tree.ok_mono hn (by decide), Tree.ok_mono (hp _) (by decide)⟩, Tree.ok_mono (hp _) (by omega),
        Tree.ok_mono (hp _) (by omega)⟩⟩
  | ali a ih =>
    refine ⟨ih.1, ?_, ?_⟩
    · intro h; exact ih.2.1 h
    · intro h; exact ih.2.2 h
  | asg a ih =>
    exact ⟨ih.1, fun h => by simp [encloseMul, strip] at h, fun h => by simp [encloseDiv, strip] at h⟩

/-- the printed text is read as this tree -/
theorem expr_reads (I : Interp α) (N : Names) (e : Expr α) : Reads (exprToks I N e) (ptree I N e) := by
  rw [← ptree_toks]
  exact reads_of_ok (Tree.ok_mono (ptree_ok I N e).1 (by omega))

end Verif.Print
