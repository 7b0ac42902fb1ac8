import Verif.Patterns.LemmasGroup
/- The independents saved by a comparison. -/
namespace Verif.Patterns

variable {V K : Type}

theorem get_put_self (m : List (Nat × Nat)) (k v : Nat) : get (put m k v) k = some v := by
  simp [get, put]

theorem get_put_ne (m : List (Nat × Nat)) {k k' : Nat} (v : Nat) (h : k' ≠ k) : get (put m k v) k' = get m k' := by
  have hne : (k == k') = false := by simpa using fun h' => h h'.symm
  simp only [get, put, List.find?_cons, hne]
  congr 1
  induction m with
  | nil => rfl
  | cons p m ih =>
    simp only [List.filter_cons]
    by_cases hp : p.1 = k
    · have h1 : (p.1 == k') = false := by rw [hp]; exact hne
      simp [hp, ih, hne]
    · simp only [bne_iff_ne, ne_eq, hp, not_false_eq_true, if_true, List.find?_cons]
      split
      · rfl
      · exact ih

theorem skip_id {G : Graph V} (hA : AliasInv G) (f i : Nat) : skip G (f + 1) i = some i := by
  by_cases h : (G i).op = .alias_
  · obtain ⟨j, h1, h2⟩ := hA i h
    simp [skip, h, h1, h2]
  · simp [skip, h]

theorem AliasInv.ok {G : Graph V} (hA : AliasInv G) : AliasOk G := fun i h => by
  obtain ⟨j, h1, _⟩ := hA i h
  exact ⟨j, h1⟩

/-- every entry of the table has the independent of the reference -/
def TOk (G : Graph V) (ref : Nat) (tbl : Table) : Prop :=
  ∀ o a, tbl o a ≠ [] → ∃ j, (G o).args[a]? = some (.node j) ∧ (G j).op = .inv ∧ get (tbl o a) ref = some j

/-- what all comparisons keep -/
def Ext (G : Graph V) (ref cur : Nat) (t t' : Table) : Prop :=
  (TOk G ref t → TOk G ref t') ∧ ∀ o a k v, k ≠ cur → get (t o a) k = some v → get (t' o a) k = some v

theorem Ext.refl (G : Graph V) (ref cur : Nat) (t : Table) : Ext G ref cur t t := ⟨id, fun _ _ _ _ _ h => h⟩

theorem Ext.trans {G : Graph V} {ref cur : Nat} {t t' t'' : Table} (h : Ext G ref cur t t') (h' : Ext G ref cur t' t'') :
    Ext G ref cur t t'' :=
  ⟨fun x => h'.1 (h.1 x), fun o a k v hk x => h'.2 o a k v hk (h.2 o a k v hk x)⟩

theorem saveIndependent_ext {G : Graph V} (cst : Nat → Nat → Bool) {ref cur : Nat} (hne : cur ≠ ref) {op a j1 : Nat} (j2 : Nat)
    (st : St) (h : (G op).args[a]? = some (.node j1)) :
    Ext G ref cur st.tbl (saveIndependent G cst ref cur op a j1 j2 st).2.tbl := by
  unfold saveIndependent
  split
  · exact Ext.refl ..
  · rename_i hj
    split
    · exact Ext.refl ..
    · simp only [not_or, ne_eq, not_not] at hj
      constructor
      · intro hT o b hob
        simp only at hob ⊢
        by_cases ho : o = op ∧ b = a
        · obtain ⟨rfl, rfl⟩ := ho
          simp only [and_self, if_true]
          rw [get_put_ne _ _ (Ne.symm hne)]
          by_cases he : st.tbl o b = []
          · exact ⟨j1, h, hj.1, by simp [he, get_put_self]⟩
          · obtain ⟨j, h1, h2, h3⟩ := hT o b he
            rw [h] at h1
            cases h1
            refine ⟨j1, h, h2, ?_⟩
            rw [if_neg (by simpa using he)]
            exact h3
        · rw [if_neg ho] at hob ⊢
          exact hT o b hob
      · intro o b k v hk hg
        simp only
        by_cases ho : o = op ∧ b = a
        · obtain ⟨rfl, rfl⟩ := ho
          simp only [and_self, if_true]
          rw [get_put_ne _ _ hk]
          by_cases he : st.tbl o b = []
          · rw [he] at hg; simp [get] at hg
          · rw [if_neg (by simpa using he)]
            exact hg
        · rw [if_neg ho]
          exact hg

variable [DecidableEq K]

theorem compareArgs_ext (key : V → K) {G : Graph V} (cst : Nat → Nat → Bool) {ref cur : Nat} (hne : cur ≠ ref)
    (cmpNode : Nat → Nat → St → Option (Bool × St)) (r : Nat)
    (hrec : ∀ j j' st b st', cmpNode j j' st = some (b, st') → Ext G ref cur st.tbl st'.tbl) :
    ∀ (as bs : List (Arg V)) (a : Nat) (st : St) (b : Bool) (st' : St),
    (∀ i x, as[i]? = some x → (G r).args[a + i]? = some x) →
    compareArgs key G cst ref cur cmpNode r a as bs st = some (b, st') → Ext G ref cur st.tbl st'.tbl
  | [], [], a, st, b, st', _, h => by
    simp only [compareArgs, Option.some.injEq, Prod.mk.injEq] at h
    rw [← h.2]; exact Ext.refl ..
  | [], _ :: _, a, st, b, st', _, h => by
    simp only [compareArgs, Option.some.injEq, Prod.mk.injEq] at h
    rw [← h.2]; exact Ext.refl ..
  | x :: as, [], a, st, b, st', _, h => by
    cases x <;> simp only [compareArgs, Option.some.injEq, Prod.mk.injEq] at h <;> (rw [← h.2]; exact Ext.refl ..)
  | x :: as, y :: bs, a, st, b, st', hp, h => by
    have ih := fun st b st' => compareArgs_ext key cst hne cmpNode r hrec as bs (a + 1) st b st'
      (fun i x hi => by have := hp (i + 1) x (by simpa using hi); rw [show a + 1 + i = a + (i + 1) by omega]; exact this)
    have hfalse : ∀ {st2 : St}, some (false, st2) = some (b, st') → Ext G ref cur st.tbl st2.tbl → Ext G ref cur st.tbl st'.tbl := by
      intro st2 h h'
      simp only [Option.some.injEq, Prod.mk.injEq] at h
      rw [← h.2]; exact h'
    cases x with
    | par c =>
      cases y with
      | par c' =>
        simp only [compareArgs] at h
        by_cases hc : key c = key c'
        · rw [if_pos hc] at h; exact ih st b st' h
        · rw [if_neg hc] at h; exact hfalse h (Ext.refl ..)
      | node j' => exact hfalse h (Ext.refl ..)
    | node j =>
      cases y with
      | par c' => exact hfalse h (Ext.refl ..)
      | node j' =>
        simp only [compareArgs] at h
        have hstep : ∀ b2 st2, (if (G j).op = .inv then some (saveIndependent G cst ref cur r a j j' st) else cmpNode j j' st)
            = some (b2, st2) → Ext G ref cur st.tbl st2.tbl := by
          intro b2 st2 h2
          by_cases hj : (G j).op = .inv
          · rw [if_pos hj] at h2
            simp only [Option.some.injEq] at h2
            have := saveIndependent_ext cst hne j' st (hp 0 (.node j) (by simp))
            simp only [Nat.add_zero] at this
            rw [h2] at this
            exact this
          · rw [if_neg hj] at h2
            exact hrec j j' st b2 st2 h2
        generalize (if (G j).op = .inv then some (saveIndependent G cst ref cur r a j j' st) else cmpNode j j' st) = q at *
        cases q with
        | none => cases h
        | some q =>
          obtain ⟨b2, st2⟩ := q
          cases b2 with
          | false => exact hfalse h (hstep _ _ rfl)
          | true => exact (hstep _ _ rfl).trans (ih st2 b st' h)

theorem comparePath_ext (key : V → K) {G : Graph V} (cst : Nat → Nat → Bool) {ref cur : Nat} (hne : cur ≠ ref) (min : Nat) :
    ∀ (f r s : Nat) (st : St) (b : Bool) (st' : St),
    comparePath key G cst ref cur min f r s st = some (b, st') → Ext G ref cur st.tbl st'.tbl
  | 0, _, _, _, _, _, h => by cases h
  | f + 1, r, s, st, b, st', h => by
    simp only [comparePath] at h
    split at h
    · rename_i r' s' _ _
      have hfalse : ∀ {b2 : Bool} {st2 : St}, some (b2, st2) = some (b, st') → st2.tbl = st.tbl → Ext G ref cur st.tbl st'.tbl := by
        intro b2 st2 h h'
        simp only [Option.some.injEq, Prod.mk.injEq] at h
        rw [← h.2, h']; exact Ext.refl ..
      split at h
      · exact hfalse h rfl
      split at h
      · exact hfalse h rfl
      split at h
      · exact hfalse h rfl
      split at h
      · exact hfalse h rfl
      have := compareArgs_ext key cst hne (comparePath key G cst ref cur min f) r' (comparePath_ext key cst hne min f)
        (G r').args (G s').args 0 _ b st' (fun i x h => by simpa using h) h
      exact this
    · cases h

/-! ### what is saved -/

/-- arguments in the same place, and the independent is in the table -/
def LArg (key : V → K) (G : Graph V) (cur : Nat) (tbl : Table) (r a : Nat) : Arg V → Arg V → Prop
  | .par c, .par c' => key c = key c'
  | .node j, .node j' => ((G j).op = .inv → (G j').op = .inv ∧ get (tbl r a) cur = some j') ∧
      ((G j).op ≠ .inv → (G j').op ≠ .inv)
  | _, _ => False

def Local (key : V → K) (G : Graph V) (cur : Nat) (tbl : Table) (r s : Nat) : Prop :=
  (G r).op = (G s).op ∧ (G r).info = (G s).info ∧ (G r).args.length = (G s).args.length ∧
  ∀ (a : Nat) x y, (G r).args[a]? = some x → (G s).args[a]? = some y → LArg key G cur tbl r a x y

/-- the comparison of `p` and `q` was done -/
def Done (key : V → K) (G : Graph V) (cur : Nat) (tbl : Table) (p q : Nat) : Prop :=
  ∀ u v, Corr G p q u v → Local key G cur tbl u v

theorem Corr.trans {G : Graph V} {r0 s0 p q u v : Nat} (h : Corr G r0 s0 p q) (h' : Corr G p q u v) : Corr G r0 s0 u v := by
  induction h' with
  | root => exact h
  | arg _ h2 h3 h4 h5 ih => exact .arg ih h2 h3 h4 h5

theorem Corr.nonInv {G : Graph V} {r0 s0 p q : Nat} (hr : (G r0).op ≠ .inv) (hs : (G s0).op ≠ .inv) (h : Corr G r0 s0 p q) :
    (G p).op ≠ .inv ∧ (G q).op ≠ .inv := by
  cases h with
  | root => exact ⟨hr, hs⟩
  | arg _ _ _ h4 h5 => exact ⟨h4, h5⟩

theorem Corr.head {G : Graph V} {p q u v : Nat} (h : Corr G p q u v) :
    (u = p ∧ v = q) ∨ ∃ (a j j' : Nat), (G p).args[a]? = some (.node j) ∧ (G q).args[a]? = some (.node j') ∧
      (G j).op ≠ .inv ∧ (G j').op ≠ .inv ∧ Corr G j j' u v := by
  induction h with
  | root => exact .inl ⟨rfl, rfl⟩
  | arg h1 h2 h3 h4 h5 ih =>
    rename_i r s j j' k
    rcases ih with ⟨rfl, rfl⟩ | ⟨a, i, i', g1, g2, g3, g4, g5⟩
    · exact .inr ⟨k, j, j', h2, h3, h4, h5, .root⟩
    · exact .inr ⟨a, i, i', g1, g2, g3, g4, .arg g5 h2 h3 h4 h5⟩

theorem Done.mk' {key : V → K} {G : Graph V} {cur : Nat} {tbl : Table} {p q : Nat} (h : Local key G cur tbl p q)
    (hc : ∀ (a j j' : Nat), (G p).args[a]? = some (.node j) → (G q).args[a]? = some (.node j') → (G j).op ≠ .inv →
      (G j').op ≠ .inv → Done key G cur tbl j j') : Done key G cur tbl p q := by
  intro u v hc'
  rcases hc'.head with ⟨rfl, rfl⟩ | ⟨a, j, j', h1, h2, h3, h4, h5⟩
  · exact h
  · exact hc a j j' h1 h2 h3 h4 u v h5

/-- entries of the iteration which remain -/
def Keep (G : Graph V) (r0 s0 cur : Nat) (t t' : Table) : Prop :=
  ∀ (u v a j' : Nat), Corr G r0 s0 u v → (G v).args[a]? = some (.node j') → get (t u a) cur = some j' → get (t' u a) cur = some j'

theorem Keep.refl (G : Graph V) (r0 s0 cur : Nat) (t : Table) : Keep G r0 s0 cur t t := fun _ _ _ _ _ _ h => h

theorem Keep.trans {G : Graph V} {r0 s0 cur : Nat} {t t' t'' : Table} (h : Keep G r0 s0 cur t t') (h' : Keep G r0 s0 cur t' t'') :
    Keep G r0 s0 cur t t'' :=
  fun u v a j' h1 h2 h3 => h' u v a j' h1 h2 (h u v a j' h1 h2 h3)

theorem Keep.larg {key : V → K} {G : Graph V} {r0 s0 cur : Nat} {t t' : Table} (h : Keep G r0 s0 cur t t') {r s a : Nat}
    {x y : Arg V} (hc : Corr G r0 s0 r s) (hy : (G s).args[a]? = some y) (hl : LArg key G cur t r a x y) :
    LArg key G cur t' r a x y := by
  cases x <;> cases y
  · exact hl
  · exact hl
  · exact hl
  · rename_i j j'
    exact ⟨fun hj => ⟨(hl.1 hj).1, h r s a j' hc hy (hl.1 hj).2⟩, hl.2⟩

theorem Keep.done {key : V → K} {G : Graph V} {r0 s0 cur : Nat} {t t' : Table} (h : Keep G r0 s0 cur t t') {p q : Nat}
    (hc : Corr G r0 s0 p q) (hd : Done key G cur t p q) : Done key G cur t' p q := by
  intro u v huv
  obtain ⟨h1, h2, h3, h4⟩ := hd u v huv
  exact ⟨h1, h2, h3, fun a x y hx hy => h.larg (hc.trans huv) hy (h4 a x y hx hy)⟩

/-- nodes with the same color were compared, or their comparison is not finished -/
structure TInv (key : V → K) (G : Graph V) (r0 s0 cur min : Nat) (E : Nat → Nat → Prop) (st : St) : Prop where
  lt : ∀ i, st.color i < st.cmp
  le : min ≤ st.cmp
  same : ∀ i j, min ≤ st.color i → st.color i = st.color j →
    ∃ p q, Corr G r0 s0 p q ∧ (Done key G cur st.tbl p q ∨ E p q) ∧ (i = p ∨ i = q) ∧ (j = p ∨ j = q)

theorem saveIndependent_keep {G : Graph V} {r0 s0 : Nat} (hR : Regular G r0 s0) (cst : Nat → Nat → Bool) {ref cur op s a j1 j2 : Nat}
    (st : St) (hc : Corr G r0 s0 op s) (hy : (G s).args[a]? = some (.node j2)) :
    Keep G r0 s0 cur st.tbl (saveIndependent G cst ref cur op a j1 j2 st).2.tbl := by
  unfold saveIndependent
  split
  · exact Keep.refl _ _ _ _ _
  split
  · exact Keep.refl _ _ _ _ _
  intro u v b j' h1 h2 h3
  simp only
  by_cases ho : u = op ∧ b = a
  · obtain ⟨rfl, rfl⟩ := ho
    simp only [and_self, if_true]
    have := hR.fn u v s h1 hc
    subst this
    rw [hy] at h2
    cases h2
    exact get_put_self ..
  · rw [if_neg ho]
    exact h3

theorem saveIndependent_true {G : Graph V} (cst : Nat → Nat → Bool) {ref cur op a j1 j2 : Nat} {st st' : St}
    (h : saveIndependent G cst ref cur op a j1 j2 st = (true, st')) :
    (G j2).op = .inv ∧ get (st'.tbl op a) cur = some j2 := by
  unfold saveIndependent at h
  split at h
  · simp at h
  · rename_i hj
    split at h
    · simp at h
    · simp only [not_or, ne_eq, not_not] at hj
      simp only [Prod.mk.injEq, true_and] at h
      refine ⟨hj.2, ?_⟩
      rw [← h]
      simp [get_put_self]

/-- what a successful comparison guarantees -/
def TGood (key : V → K) (G : Graph V) (r0 s0 cur min : Nat) (E : Nat → Nat → Prop) (P : Table → Prop) (st : St)
    (r : Option (Bool × St)) : Prop :=
  ∀ st', r = some (true, st') → P st'.tbl ∧ TInv key G r0 s0 cur min E st' ∧ Keep G r0 s0 cur st.tbl st'.tbl

theorem compareArgs_saves (key : V → K) {G : Graph V} {r0 s0 : Nat} (hR : Regular G r0 s0) (cst : Nat → Nat → Bool)
    (ref cur min : Nat) {E : Nat → Nat → Prop} (cmpNode : Nat → Nat → St → Option (Bool × St)) (r s : Nat)
    (hc : Corr G r0 s0 r s) :
    ∀ (as bs : List (Arg V)) (a : Nat) (st : St),
    (∀ i x, as[i]? = some x → (G r).args[a + i]? = some x) → (∀ i x, bs[i]? = some x → (G s).args[a + i]? = some x) →
    TInv key G r0 s0 cur min E st →
    (∀ (a j j' : Nat), (G r).args[a]? = some (.node j) → (G s).args[a]? = some (.node j') → (G j).op ≠ .inv →
      ∀ st, TInv key G r0 s0 cur min E st →
      TGood key G r0 s0 cur min E (fun t => (G j').op ≠ .inv ∧ Done key G cur t j j') st (cmpNode j j' st)) →
    TGood key G r0 s0 cur min E (fun t => ∀ (i : Nat) x y, as[i]? = some x → bs[i]? = some y → LArg key G cur t r (a + i) x y ∧
      ∀ j j', x = .node j → y = .node j' → (G j).op ≠ .inv → Done key G cur t j j') st
      (compareArgs key G cst ref cur cmpNode r a as bs st)
  | [], [], a, st, _, _, hst, _ => by
    intro st' h
    simp only [compareArgs, Option.some.injEq, Prod.mk.injEq, true_and] at h
    subst h
    exact ⟨by simp, hst, Keep.refl _ _ _ _ _⟩
  | [], _ :: _, a, st, _, _, _, _ => by
    intro st' h
    simp [compareArgs] at h
  | x :: _, [], a, st, _, _, _, _ => by
    intro st' h
    cases x <;> simp [compareArgs] at h
  | x :: as, y :: bs, a, st, hp, hq, hst, hrec => by
    have ih := fun st (hst : TInv key G r0 s0 cur min E st) =>
      compareArgs_saves key hR cst ref cur min cmpNode r s hc as bs (a + 1) st
        (fun i x hi => by have := hp (i + 1) x (by simpa using hi); rw [show a + 1 + i = a + (i + 1) by omega]; exact this)
        (fun i x hi => by have := hq (i + 1) x (by simpa using hi); rw [show a + 1 + i = a + (i + 1) by omega]; exact this)
        hst hrec
    have hx := hp 0 x (by simp)
    have hy := hq 0 y (by simp)
    simp only [Nat.add_zero] at hx hy
    -- the first argument, then the rest
    have hcons : ∀ {st2 : St}, TInv key G r0 s0 cur min E st2 → Keep G r0 s0 cur st.tbl st2.tbl →
        LArg key G cur st2.tbl r a x y → (∀ j j', x = .node j → y = .node j' → (G j).op ≠ .inv → Done key G cur st2.tbl j j') →
        TGood key G r0 s0 cur min E (fun t => ∀ (i : Nat) x' y', (x :: as)[i]? = some x' → (y :: bs)[i]? = some y' →
          LArg key G cur t r (a + i) x' y' ∧ ∀ j j', x' = .node j → y' = .node j' → (G j).op ≠ .inv → Done key G cur t j j') st
          (compareArgs key G cst ref cur cmpNode r (a + 1) as bs st2) := by
      intro st2 h1 h2 h3 h4 st' h
      obtain ⟨g1, g2, g3⟩ := ih st2 h1 st' h
      refine ⟨fun i x' y' hx' hy' => ?_, g2, h2.trans g3⟩
      cases i with
      | zero =>
        simp only [List.getElem?_cons_zero, Option.some.injEq] at hx' hy'
        subst hx'; subst hy'
        refine ⟨g3.larg hc hy h3, fun j j' e1 e2 e3 => ?_⟩
        subst e1; subst e2
        exact g3.done (.arg hc hx hy e3 (h3.2 e3)) (h4 j j' rfl rfl e3)
      | succ i =>
        simp only [List.getElem?_cons_succ] at hx' hy'
        have := g1 i x' y' hx' hy'
        rwa [show a + 1 + i = a + (i + 1) by omega] at this
    cases x with
    | par c =>
      cases y with
      | par c' =>
        simp only [compareArgs]
        by_cases hk : key c = key c'
        · rw [if_pos hk]
          exact hcons hst (Keep.refl _ _ _ _ _) hk (by simp)
        · rw [if_neg hk]
          intro st' h
          simp at h
      | node j' =>
        intro st' h
        simp [compareArgs] at h
    | node j =>
      cases y with
      | par c' =>
        intro st' h
        simp [compareArgs] at h
      | node j' =>
        simp only [compareArgs]
        by_cases hj : (G j).op = .inv
        · rw [if_pos hj]
          have hk := saveIndependent_keep hR cst (ref := ref) (cur := cur) (j1 := j) st hc hy
          have hcol := saveIndependent_colors G cst ref cur r a j j' st
          cases hsv : saveIndependent G cst ref cur r a j j' st with
          | mk b st2 =>
            rw [hsv] at hk hcol
            cases b with
            | false => intro st' h; simp at h
            | true =>
              obtain ⟨g1, g2⟩ := saveIndependent_true cst hsv
              refine hcons ⟨?_, ?_, ?_⟩ hk ⟨fun _ => ⟨g1, g2⟩, fun h => absurd hj h⟩ ?_
              · rw [hcol.1, hcol.2]; exact hst.lt
              · rw [hcol.2]; exact hst.le
              · rw [hcol.1]
                intro i i' h1 h2
                obtain ⟨p, q, k1, k2, k3⟩ := hst.same i i' h1 h2
                exact ⟨p, q, k1, k2.imp (fun h => hk.done k1 h) id, k3⟩
              · intro i i' e1 _ e3
                cases e1
                exact absurd hj e3
        · rw [if_neg hj]
          have hg := hrec a j j' hx hy hj st hst
          cases hcm : cmpNode j j' st with
          | none => intro st' h; simp at h
          | some q =>
            obtain ⟨b, st2⟩ := q
            cases b with
            | false => intro st' h; simp at h
            | true =>
              obtain ⟨g1, g2, g3⟩ := hg st2 hcm
              refine hcons g2 g3 ⟨fun h => absurd h hj, fun _ => g1.1⟩ ?_
              intro i i' e1 e2 _
              cases e1; cases e2
              exact g1.2

theorem comparePath_saves (key : V → K) {G : Graph V} (hG : Acyclic G) (hA : AliasInv G) {r0 s0 : Nat} (hR : Regular G r0 s0)
    (hr0 : (G r0).op ≠ .inv) (hs0 : (G s0).op ≠ .inv) (cst : Nat → Nat → Bool) (ref cur min : Nat) :
    ∀ (f r s : Nat) (E : Nat → Nat → Prop) (st : St), (G r).op ≠ .inv → ((G s).op ≠ .inv → Corr G r0 s0 r s) →
    TInv key G r0 s0 cur min E st → (∀ p q, E p q → r < p ∧ s < q) →
    TGood key G r0 s0 cur min E (fun t => (G s).op ≠ .inv ∧ Done key G cur t r s) st
      (comparePath key G cst ref cur min f r s st)
  | 0, _, _, _, _, _, _, _, _ => by
    intro st' h
    simp [comparePath] at h
  | f + 1, r, s, E, st, hr, hc, hst, hE => by
    intro st' h
    simp only [comparePath, skip_id hA] at h
    split at h
    · rename_i hcol
      simp only [Option.some.injEq, Prod.mk.injEq, true_and] at h
      subst h
      obtain ⟨p, q, h1, h2, h3, h4⟩ := hst.same r s hcol.2.1 hcol.2.2.symm
      have hpq := h1.nonInv hr0 hs0
      have hs : (G s).op ≠ .inv := by
        rcases h4 with rfl | rfl
        · exact hpq.1
        · exact hpq.2
      have hrs := hc hs
      have heq : r = p ∧ s = q := by
        rcases h3 with rfl | rfl <;> rcases h4 with rfl | rfl
        · exact ⟨rfl, hR.fn s s q hrs h1⟩
        · exact ⟨rfl, rfl⟩
        · have := hR.sep s r s h1 hrs
          exact ⟨this.symm, this⟩
        · exact ⟨(hR.sep p s s h1 hrs).symm, rfl⟩
      obtain ⟨rfl, rfl⟩ := heq
      rcases h2 with h2 | h2
      · exact ⟨⟨hs, h2⟩, hst, Keep.refl _ _ _ _ _⟩
      · have := hE r s h2
        omega
    · split at h
      · simp at h
      rename_i hop
      split at h
      · simp at h
      rename_i hinfo
      split at h
      · simp at h
      rename_i hlen
      simp only [ne_eq, not_not] at hop hinfo hlen
      have hs : (G s).op ≠ .inv := by rw [← hop]; exact hr
      have hrs := hc hs
      have hst2 : TInv key G r0 s0 cur min (fun p q => E p q ∨ (p = r ∧ q = s))
          { st with color := setColor (setColor st.color r st.cmp) s st.cmp, cmp := st.cmp + 1 } := by
        have hnew : ∀ i, i = r ∨ i = s → setColor (setColor st.color r st.cmp) s st.cmp i = st.cmp := by
          intro i hi
          simp only [setColor]
          rcases hi with h | h
          · rw [if_pos h, ite_self]
          · rw [if_pos h]
        have hold : ∀ i, ¬(i = r ∨ i = s) → setColor (setColor st.color r st.cmp) s st.cmp i = st.color i := by
          intro i hi
          simp only [setColor]
          rw [if_neg (fun h => hi (.inr h)), if_neg (fun h => hi (.inl h))]
        refine ⟨fun i => ?_, by have := hst.le; simp only; omega, fun i j h1 h2 => ?_⟩
        · simp only
          by_cases hi : i = r ∨ i = s
          · rw [hnew i hi]; omega
          · rw [hold i hi]
            have := hst.lt i
            omega
        · simp only at h1 h2
          by_cases hi : i = r ∨ i = s <;> by_cases hj : j = r ∨ j = s
          · exact ⟨r, s, hrs, .inr (.inr ⟨rfl, rfl⟩), hi, hj⟩
          · rw [hnew i hi, hold j hj] at h2
            have := hst.lt j
            omega
          · rw [hold i hi, hnew j hj] at h2
            have := hst.lt i
            omega
          · rw [hold i hi] at h1
            rw [hold i hi, hold j hj] at h2
            obtain ⟨p, q, k1, k2, k3⟩ := hst.same i j h1 h2
            exact ⟨p, q, k1, k2.imp id .inl, k3⟩
      obtain ⟨g1, g2, g3⟩ := compareArgs_saves key hR cst ref cur min (comparePath key G cst ref cur min f) r s hrs
        (G r).args (G s).args 0 _ (fun i x h => by simpa using h) (fun i x h => by simpa using h) hst2
        (fun a j j' hj hj' hjv st3 hst3 => comparePath_saves key hG hA hR hr0 hs0 cst ref cur min f j j' _ st3 hjv
          (fun hjv' => .arg hrs hj hj' hjv hjv') hst3 (fun p q h => by
            have h1 := hG r j (List.mem_of_getElem? hj)
            have h2 := hG s j' (List.mem_of_getElem? hj')
            rcases h with h | ⟨h4, h5⟩
            · have := hE p q h; omega
            · omega)) st' h
      simp only [Nat.zero_add] at g1
      have hd : Done key G cur st'.tbl r s := Done.mk' ⟨hop, hinfo, hlen, fun a x y hx hy => (g1 a x y hx hy).1⟩
        (fun a j j' hj hj' hjv _ => (g1 a _ _ hj hj').2 j j' rfl rfl hjv)
      refine ⟨⟨hs, hd⟩, ⟨g2.lt, g2.le, fun i j h1 h2 => ?_⟩, g3⟩
      obtain ⟨p, q, k1, k2, k3⟩ := g2.same i j h1 h2
      refine ⟨p, q, k1, ?_, k3⟩
      rcases k2 with k2 | k2 | ⟨rfl, rfl⟩
      · exact .inl k2
      · exact .inr k2
      · exact .inl hd

end Verif.Patterns
