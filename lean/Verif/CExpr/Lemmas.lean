import Verif.CExpr.Syntax

/-! A tree whose shape respects the levels of the grammar is read back from its text. -/
namespace Verif.CExpr

variable {κ : Type}

/-- the tree may stand where an expression of level `n` is expected -/
def Tree.ok : Tree κ → Nat → Prop
  | .id _, _ => True
  | .num _, _ => True
  | .paren t, _ => t.ok 0
  | .neg t, n => n ≤ 7 ∧ t.ok 7
  | .bin o a b, n => n ≤ o.prec ∧ a.ok o.prec ∧ b.ok (o.prec + 1)
  | .cond a b c, n => n = 0 ∧ a.ok 1 ∧ b.ok 0 ∧ c.ok 0
  | .call1 _ a, _ => a.ok 0
  | .call2 _ a b, _ => a.ok 0 ∧ b.ok 0
  | .idx a i, _ => a.ok 8 ∧ i.ok 0

theorem Tree.ok_mono {t : Tree κ} {n m : Nat} (h : t.ok n) (hm : m ≤ n) : t.ok m := by
  cases t <;> simp only [Tree.ok] at h ⊢ <;> first | exact h | (refine ⟨by omega, ?_⟩; exact h.2)

/-- what may follow an expression of level `n` -/
def Follow (n : Nat) : List (Tok κ) → Prop
  | [] => True
  | .rp :: _ | .rb :: _ | .comma :: _ | .colon :: _ => True
  | .quest :: _ => 1 ≤ n
  | .op o :: _ => o.prec < n
  | .id _ :: _ | .num _ :: _ | .lp :: _ | .lb :: _ => False

theorem Follow.mono {n m : Nat} {rest : List (Tok κ)} (h : Follow n rest) (hm : n ≤ m) : Follow m rest := by
  match rest, h with
  | [], _ => trivial
  | .rp :: _, _ => trivial
  | .rb :: _, _ => trivial
  | .comma :: _, _ => trivial
  | .colon :: _, _ => trivial
  | .quest :: _, h => simp only [Follow] at h ⊢; omega
  | .op o :: _, h => simp only [Follow] at h ⊢; omega

theorem prec_bounds (o : Op) : 1 ≤ o.prec ∧ o.prec ≤ 6 := by cases o <;> simp [Op.prec]

/-- given enough fuel -/
def E (m : Mode κ) (toks : List (Tok κ)) (r : Tree κ × List (Tok κ)) : Prop :=
  ∃ n, ∀ k, n ≤ k → parse k m toks = some r

theorem E.mk {m : Mode κ} {toks : List (Tok κ)} {r} (n : Nat) (h : ∀ k, n ≤ k → parse (k + 1) m toks = some r) : E m toks r := by
  refine ⟨n + 1, ?_⟩
  intro k hk
  obtain ⟨j, rfl⟩ : ∃ j, k = j + 1 := ⟨k - 1, by omega⟩
  exact h j (by omega)

/-- `post` stops -/
theorem post_stop {acc : Tree κ} {rest : List (Tok κ)} (h : ∀ r, rest ≠ .lb :: r) : E (.post acc) rest (acc, rest) := by
  refine E.mk 0 ?_
  intro k _
  unfold parse
  split
  · rename_i r; exact absurd rfl (h r)
  · rfl

theorem Follow.not_lb {n : Nat} {rest : List (Tok κ)} (h : Follow n rest) : ∀ r, rest ≠ .lb :: r := by
  intro r e; subst e; exact h

theorem Follow.not_lp {n : Nat} {rest : List (Tok κ)} (h : Follow n rest) : ∀ r, rest ≠ .lp :: r := by
  intro r e; subst e; exact h

/-- `loop` stops -/
theorem loop_stop {n : Nat} {acc : Tree κ} {rest : List (Tok κ)} (h : Follow n rest) : E (.loop n acc) rest (acc, rest) := by
  refine E.mk 0 ?_
  intro k _
  unfold parse
  split
  · rename_i o r
    have : o.prec < n := h
    rw [if_neg (by omega)]
  · rfl

/-- one step of `loop` -/
theorem loop_step {n : Nat} {acc b : Tree κ} {o : Op} {toks rest : List (Tok κ)} {r} (ho : o.prec = n)
    (h1 : E (.lvl (n + 1)) toks (b, rest)) (h2 : E (.loop n (.bin o acc b)) rest r) : E (.loop n acc) (.op o :: toks) r := by
  obtain ⟨n1, h1⟩ := h1
  obtain ⟨n2, h2⟩ := h2
  refine E.mk (max n1 n2) ?_
  intro k hk
  unfold parse
  simp only [if_pos ho, h1 k (by omega), h2 k (by omega)]

/-- from a level to the next lower one with a chain -/
theorem lvl_loop {n : Nat} (hn : 1 ≤ n ∧ n ≤ 6) {a : Tree κ} {toks rest : List (Tok κ)} {r}
    (h1 : E (.lvl (n + 1)) toks (a, rest)) (h2 : E (.loop n a) rest r) : E (.lvl n) toks r := by
  obtain ⟨n1, h1⟩ := h1
  obtain ⟨n2, h2⟩ := h2
  refine E.mk (max n1 n2) ?_
  intro k hk
  unfold parse
  rw [if_neg (by omega), if_neg (by omega), if_neg (by omega), h1 k (by omega)]
  exact h2 k (by omega)

theorem lvl0_stop {a : Tree κ} {toks rest : List (Tok κ)} (h1 : E (.lvl 1) toks (a, rest)) (h : Follow 0 rest) :
    E (.lvl 0) toks (a, rest) := by
  obtain ⟨n1, h1⟩ := h1
  refine E.mk n1 ?_
  intro k hk
  unfold parse
  rw [if_pos rfl, h1 k (by omega)]
  split
  · rename_i heq
    obtain ⟨rfl, rfl⟩ := Prod.mk.inj (Option.some.inj heq)
    simp [Follow] at h
  · rfl

theorem lvl0_cond {a b c : Tree κ} {toks toks2 toks3 rest : List (Tok κ)} (h1 : E (.lvl 1) toks (a, .quest :: toks2))
    (h2 : E (.lvl 0) toks2 (b, .colon :: toks3)) (h3 : E (.lvl 0) toks3 (c, rest)) :
    E (.lvl 0) toks (.cond a b c, rest) := by
  obtain ⟨n1, h1⟩ := h1
  obtain ⟨n2, h2⟩ := h2
  obtain ⟨n3, h3⟩ := h3
  refine E.mk (max n1 (max n2 n3)) ?_
  intro k hk
  unfold parse
  rw [if_pos rfl]
  simp only [h1 k (by omega), h2 k (by omega), h3 k (by omega)]

theorem lvl7_neg {t : Tree κ} {toks rest : List (Tok κ)} (h : E (.lvl 7) toks (t, rest)) :
    E (.lvl 7) (.op .sub :: toks) (.neg t, rest) := by
  obtain ⟨n1, h1⟩ := h
  refine E.mk n1 ?_
  intro k hk
  unfold parse
  rw [if_neg (by omega), if_pos rfl]
  simp only [h1 k (by omega)]

theorem lvl7_down {toks : List (Tok κ)} {r} (hh : ∀ l, toks ≠ .op .sub :: l) (h : E (.lvl 8) toks r) : E (.lvl 7) toks r := by
  obtain ⟨n1, h1⟩ := h
  refine E.mk n1 ?_
  intro k hk
  unfold parse
  rw [if_neg (by omega), if_pos rfl]
  split
  · rename_i l; exact absurd rfl (hh l)
  · exact h1 k hk

/-- all readings of the tree -/
structure Readable (t : Tree κ) : Prop where
  plain : ∀ n, n ≤ 7 → t.ok n → ∀ rest, Follow n rest → E (.lvl n) (t.toks ++ rest) (t, rest)
  chain : ∀ n, 1 ≤ n → n ≤ 6 → t.ok n → ∀ rest r, Follow (n + 1) rest → E (.loop n t) rest r → E (.lvl n) (t.toks ++ rest) r
  postfix8 : t.ok 8 → ∀ rest r, (∀ l, rest ≠ .lp :: l) → E (.post t) rest r → E (.lvl 8) (t.toks ++ rest) r

/-- a tree readable at level `top` with plain rest is readable below -/
theorem down {t : Tree κ} {top : Nat} (htop : top ≤ 7) (h : ∀ rest, Follow top rest → E (.lvl top) (t.toks ++ rest) (t, rest)) :
    ∀ d n, n + d = top → ∀ rest, Follow n rest → E (.lvl n) (t.toks ++ rest) (t, rest) := by
  intro d
  induction d with
  | zero => intro n hn rest hf; obtain rfl : n = top := by omega
            exact h rest hf
  | succ d ih =>
    intro n hn rest hf
    have h1 := ih (n + 1) (by omega) rest (hf.mono (by omega))
    by_cases h0 : n = 0
    · subst h0; exact lvl0_stop h1 hf
    · exact lvl_loop ⟨by omega, by omega⟩ h1 (loop_stop hf)

theorem chain_of_plain {t : Tree κ} {n : Nat} (hn : 1 ≤ n ∧ n ≤ 6)
    (h : ∀ rest, Follow (n + 1) rest → E (.lvl (n + 1)) (t.toks ++ rest) (t, rest)) :
    ∀ rest r, Follow (n + 1) rest → E (.loop n t) rest r → E (.lvl n) (t.toks ++ rest) r :=
  fun rest _ hf hr => lvl_loop hn (h rest hf) hr

/-- a tree readable at level 7 -/
theorem readable_of_7 {t : Tree κ} (h7 : ∀ rest, Follow 7 rest → E (.lvl 7) (t.toks ++ rest) (t, rest))
    (h8 : t.ok 8 → ∀ rest r, (∀ l, rest ≠ .lp :: l) → E (.post t) rest r → E (.lvl 8) (t.toks ++ rest) r) : Readable t where
  plain n hn _ rest hf := down (Nat.le_refl 7) h7 (7 - n) n (by omega) rest hf
  chain n h1 h6 _ := chain_of_plain ⟨h1, h6⟩ (fun rest hf => down (Nat.le_refl 7) h7 (6 - n) (n + 1) (by omega) rest hf)
  postfix8 := h8

theorem readable_of_8 {t : Tree κ} (hh : ∀ rest l, t.toks ++ rest ≠ .op .sub :: l)
    (h8 : ∀ rest r, (∀ l, rest ≠ .lp :: l) → E (.post t) rest r → E (.lvl 8) (t.toks ++ rest) r) : Readable t :=
  readable_of_7 (fun rest hf => lvl7_down (hh rest) (h8 rest _ hf.not_lp (post_stop hf.not_lb))) (fun _ => h8)

theorem toks_head {t : Tree κ} (h : t.ok 8) : ∀ rest l, t.toks ++ rest ≠ .op .sub :: l := by
  induction t with
  | id s => intro rest l e; simp [Tree.toks] at e
  | num c => intro rest l e; simp [Tree.toks] at e
  | paren t _ => intro rest l e; simp [Tree.toks] at e
  | neg t _ => exact absurd h.1 (by omega)
  | bin o a b _ _ => exact absurd h.1 (by have := prec_bounds o; omega)
  | cond a b c _ _ _ => exact absurd h.1 (by omega)
  | call1 f a _ => intro rest l e; simp [Tree.toks] at e
  | call2 f a b _ _ => intro rest l e; simp [Tree.toks] at e
  | idx a i iha _ =>
    intro rest l e
    simp only [Tree.toks, List.append_assoc] at e
    exact iha h.1 _ _ e

theorem readable (t : Tree κ) : Readable t := by
  induction t with
  | id s =>
    refine readable_of_8 (toks_head trivial) ?_
    rintro rest r hl ⟨n, hp⟩
    refine E.mk n ?_
    intro k hk
    unfold parse
    rw [if_neg (by omega), if_neg (by omega), if_pos rfl]
    match rest, hl, hp with
    | [], _, hp => exact hp k hk
    | .lp :: l, hl, _ => exact absurd rfl (hl l)
    | .id _ :: l, _, hp => exact hp k hk
    | .num _ :: l, _, hp => exact hp k hk
    | .rp :: l, _, hp => exact hp k hk
    | .lb :: l, _, hp => exact hp k hk
    | .rb :: l, _, hp => exact hp k hk
    | .comma :: l, _, hp => exact hp k hk
    | .quest :: l, _, hp => exact hp k hk
    | .colon :: l, _, hp => exact hp k hk
    | .op _ :: l, _, hp => exact hp k hk
  | num c =>
    refine readable_of_8 (toks_head trivial) ?_
    rintro rest r hl ⟨n, hp⟩
    refine E.mk n ?_
    intro k hk
    unfold parse
    rw [if_neg (by omega), if_neg (by omega), if_pos rfl]
    exact hp k hk
  | paren t ih =>
    by_cases hok : t.ok 0
    · refine readable_of_8 (toks_head (by exact hok)) ?_
      rintro rest r hl ⟨n, hp⟩
      obtain ⟨n1, h1⟩ := ih.plain 0 (by omega) hok (.rp :: rest) trivial
      refine E.mk (max n n1) ?_
      intro k hk
      unfold parse
      rw [if_neg (by omega), if_neg (by omega), if_pos rfl]
      simp only [Tree.toks, List.cons_append, List.append_assoc, List.nil_append, h1 k (by omega)]
      exact hp k (by omega)
    · exact ⟨fun n _ h => absurd h hok, fun n _ _ h => absurd h hok, fun h => absurd h hok⟩
  | call1 f a ih =>
    by_cases hok : a.ok 0
    · refine readable_of_8 (toks_head (by exact hok)) ?_
      rintro rest r hl ⟨n, hp⟩
      obtain ⟨n1, h1⟩ := ih.plain 0 (by omega) hok (.rp :: rest) trivial
      refine E.mk (max n n1) ?_
      intro k hk
      unfold parse
      rw [if_neg (by omega), if_neg (by omega), if_pos rfl]
      simp only [Tree.toks, List.cons_append, List.append_assoc, List.nil_append, h1 k (by omega)]
      exact hp k (by omega)
    · exact ⟨fun n _ h => absurd h hok, fun n _ _ h => absurd h hok, fun h => absurd h hok⟩
  | call2 f a b iha ihb =>
    by_cases hok : a.ok 0 ∧ b.ok 0
    · refine readable_of_8 (toks_head (by exact hok)) ?_
      rintro rest r hl ⟨n, hp⟩
      obtain ⟨n1, h1⟩ := iha.plain 0 (by omega) hok.1 (.comma :: (b.toks ++ .rp :: rest)) trivial
      obtain ⟨n2, h2⟩ := ihb.plain 0 (by omega) hok.2 (.rp :: rest) trivial
      refine E.mk (max n (max n1 n2)) ?_
      intro k hk
      unfold parse
      rw [if_neg (by omega), if_neg (by omega), if_pos rfl]
      simp only [Tree.toks, List.cons_append, List.append_assoc, List.nil_append, h1 k (by omega), h2 k (by omega)]
      exact hp k (by omega)
    · exact ⟨fun n _ h => absurd h hok, fun n _ _ h => absurd h hok, fun h => absurd h hok⟩
  | idx a i iha ihi =>
    by_cases hok : a.ok 8 ∧ i.ok 0
    · refine readable_of_8 (toks_head (by exact hok)) ?_
      rintro rest r hl ⟨n, hp⟩
      obtain ⟨n1, h1⟩ := ihi.plain 0 (by omega) hok.2 (.rb :: rest) trivial
      have hpost : E (.post a) (.lb :: (i.toks ++ .rb :: rest)) r := by
        refine E.mk (max n n1) ?_
        intro k hk
        unfold parse
        simp only [h1 k (by omega)]
        exact hp k (by omega)
      have := iha.postfix8 hok.1 (.lb :: (i.toks ++ .rb :: rest)) r (by simp) hpost
      simpa [Tree.toks] using this
    · exact ⟨fun n _ h => absurd h hok, fun n _ _ h => absurd h hok, fun h => absurd h hok⟩
  | neg t ih =>
    by_cases hok : t.ok 7
    · refine readable_of_7 ?_ (fun h => absurd h.1 (by omega))
      intro rest hf
      exact lvl7_neg (ih.plain 7 (by omega) hok rest hf)
    · exact ⟨fun n _ h => absurd h.2 hok, fun n _ _ h => absurd h.2 hok, fun h => absurd h.2 hok⟩
  | cond a b c iha ihb ihc =>
    refine ⟨?_, fun n h1 _ h => absurd h.1 (by omega), fun h => absurd h.1 (by omega)⟩
    rintro n hn ⟨rfl, ha, hb, hc⟩ rest hf
    have h1 := iha.plain 1 (by omega) ha (.quest :: (b.toks ++ .colon :: (c.toks ++ rest))) (Nat.le_refl 1)
    have h2 := ihb.plain 0 (by omega) hb (.colon :: (c.toks ++ rest)) trivial
    have h3 := ihc.plain 0 (by omega) hc rest hf
    have := lvl0_cond h1 h2 h3
    simpa [Tree.toks] using this
  | bin o a b iha ihb =>
    obtain ⟨p1, p6⟩ := prec_bounds o
    by_cases hok : a.ok o.prec ∧ b.ok (o.prec + 1)
    · -- the chain at the level of the operator
      have hchain : ∀ rest r, Follow (o.prec + 1) rest → E (.loop o.prec (.bin o a b)) rest r →
          E (.lvl o.prec) ((Tree.bin o a b).toks ++ rest) r := by
        intro rest r hf hr
        have hb := ihb.plain (o.prec + 1) (by omega) hok.2 rest hf
        have hl := loop_step (acc := a) rfl hb hr
        have := iha.chain o.prec p1 p6 hok.1 (.op o :: (b.toks ++ rest)) r (by simp [Follow]) hl
        simpa [Tree.toks] using this
      have hplain : ∀ rest, Follow o.prec rest → E (.lvl o.prec) ((Tree.bin o a b).toks ++ rest) (.bin o a b, rest) :=
        fun rest hf => hchain rest _ (hf.mono (by omega)) (loop_stop hf)
      refine ⟨?_, ?_, fun h => absurd h.1 (by omega)⟩
      · intro n hn h rest hf
        have hle : n ≤ o.prec := h.1
        exact down (by omega) hplain (o.prec - n) n (by omega) rest hf
      · intro n h1 h6 h
        have hle : n ≤ o.prec := h.1
        by_cases he : n = o.prec
        · subst he; exact hchain
        · exact chain_of_plain ⟨h1, h6⟩ (fun rest hf => down (by omega) hplain (o.prec - (n + 1)) (n + 1) (by omega) rest hf)
    · exact ⟨fun n _ h => absurd h.2 hok, fun n _ _ h => absurd h.2 hok, fun h => absurd h.2 hok⟩

/-- a tree which respects the levels is what its text reads as -/
theorem reads_of_ok {t : Tree κ} (h : t.ok 0) : Reads t.toks t := by
  have := (readable t).plain 0 (by omega) h [] trivial
  simpa [Reads, E] using this

end Verif.CExpr
