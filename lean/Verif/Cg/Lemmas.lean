import Verif.Cg.Model
namespace Verif.Cg
open Verif.Codegen
variable {α : Type}

/-! ### worlds only grow -/

def Ext (w w' : World α) : Prop :=
  (∃ s, w'.nodes = w.nodes ++ s) ∧ (∃ t, w'.indeps = w.indeps ++ t)

theorem Ext.refl (w : World α) : Ext w w := ⟨⟨[], by simp⟩, ⟨[], by simp⟩⟩

theorem Ext.trans {a b c : World α} (h : Ext a b) (h' : Ext b c) : Ext a c := by
  obtain ⟨⟨s, hs⟩, ⟨t, ht⟩⟩ := h
  obtain ⟨⟨s', hs'⟩, ⟨t', ht'⟩⟩ := h'
  exact ⟨⟨s ++ s', by rw [hs', hs, List.append_assoc]⟩, ⟨t ++ t', by rw [ht', ht, List.append_assoc]⟩⟩

theorem ext_add (w : World α) (h : Nat) (op : Op) (args : List (Arg α)) : Ext w (w.add h op args).1 :=
  ⟨⟨_, rfl⟩, ⟨[], by simp [World.add]⟩⟩

theorem getElem?_append_some {β : Type} {l : List β} {n : Nat} {a : β} (s : List β)
    (h : l[n]? = some a) : (l ++ s)[n]? = some a := by
  rw [List.getElem?_append_left (List.getElem?_eq_some_iff.1 h).1, h]

theorem Ext.val {I : Interp α} {w w' : World α} {x val : Nat → α} (h : Ext w w')
    (hv : w'.Val I x val) : w.Val I x val := by
  obtain ⟨⟨s, hs⟩, ⟨t, ht⟩⟩ := h
  refine ⟨fun j n hj => hv.1 j n ?_, fun n nd h hn => hv.2 n nd h ?_⟩
  · rw [ht]; exact getElem?_append_some _ hj
  · rw [hs]; exact getElem?_append_some _ hn

/-! ### meaning of one object -/

/-- `c` denotes `p` under `val`, and (if `K`) its known value is `p` -/
structure Good (K : Prop) (val : Nat → α) (c : Cg α) (p : α) : Prop where
  den : match c.node with | some n => val n = p | none => c.value = some p
  known : K → ∀ v, c.value = some v → v = p

variable {K : Prop} {val : Nat → α}

theorem Good.par {c : Cg α} {p : α} (h : Good K val c p) (hp : c.isPar = true) :
    c.value = some p := by
  have := h.den
  unfold Cg.isPar at hp
  cases hn : c.node with
  | none => rw [hn] at this; exact this
  | some n => rw [hn] at hp; simp at hp

theorem good_const (v : α) : Good K val (Cg.const v) v :=
  ⟨rfl, fun _ u h => by simp only [Cg.const, Option.some.injEq] at h; exact h.symm⟩

theorem Good.arg {c : Cg α} {p : α} (h : Good K val c p) :
    ∃ a, c.argument = .ok a ∧ argVal val a = p := by
  have := h.den
  unfold Cg.argument
  cases hn : c.node with
  | some n => rw [hn] at this; exact ⟨_, rfl, this⟩
  | none => rw [hn] at this; simp only at this; rw [this]; exact ⟨_, rfl, rfl⟩

theorem Good.getValue {c : Cg α} {p : α} (h : Good K val c p) (hp : c.isPar = true) :
    c.getValue = .ok p := by unfold Cg.getValue; rw [h.par hp]

theorem Good.zero {I : Interp α} (L : Laws I) {c : Cg α} {p : α} (h : Good K val c p)
    (hz : c.isZero I = true) : p = I.zero := by
  unfold Cg.isZero at hz
  rw [Bool.and_eq_true] at hz
  rw [h.par hz.1] at hz
  exact (L.eq_iff _ _).1 hz.2

theorem Good.one {I : Interp α} (L : Laws I) {c : Cg α} {p : α} (h : Good K val c p)
    (hz : c.isOne I = true) : p = I.one := by
  unfold Cg.isOne at hz
  rw [Bool.and_eq_true] at hz
  rw [h.par hz.1] at hz
  exact (L.eq_iff _ _).1 hz.2

theorem Good.congr {c : Cg α} {p q : α} (h : Good K val c p) (e : p = q) : Good K val c q := e ▸ h

/-- a freshly added node denotes its operation -/
theorem val_add {I : Interp α} {w : World α} {x : Nat → α} {h : Nat} {op : Op} {args : List (Arg α)}
    (hv : (w.add h op args).1.Val I x val) (hop : op ≠ .inv) :
    opSem I op (args.map (argVal val)) = some (val w.nodes.length) := by
  have := hv.2 w.nodes.length ⟨op, args⟩ h (by simp [World.add])
  exact this hop

theorem op_base (I : Interp α) (o : Bin) (a b : α) : opSem I o.op [a, b] = some (o.base I a b) := by
  cases o <;> rfl

theorem binNode_good {I : Interp α} {o : Bin} {w w' : World α} {x : Nat → α} {h : Nat} {a b r : Cg α}
    {pa pb : α} (ha : Good K val a pa) (hb : Good K val b pb) (e : binNode I o w h a b = .ok (r, w'))
    (hv : w'.Val I x val) : Good K val r (o.base I pa pb) := by
  obtain ⟨u, hu, hua⟩ := ha.arg
  obtain ⟨v, hw, hvb⟩ := hb.arg
  unfold binNode at e
  rw [hu, hw] at e
  simp only [bind, Except.bind, pure, Except.pure, Except.ok.injEq, Prod.mk.injEq] at e
  obtain ⟨rfl, rfl⟩ := e
  have hs := val_add hv (by cases o <;> simp [Bin.op])
  simp only [List.map_cons, List.map_nil, hua, hvb, op_base, Option.some.injEq] at hs
  refine ⟨hs.symm, ?_⟩
  intro hk z hz
  simp only [bothKnown] at hz
  cases h1 : a.value with
  | none => rw [h1] at hz; cases hz
  | some p =>
    cases h2 : b.value with
    | none => rw [h1, h2] at hz; cases hz
    | some q =>
      rw [h1, h2] at hz
      simp only [Option.some.injEq] at hz
      rw [← hz, ha.known hk p h1, hb.known hk q h2]

theorem binNode_ext {I : Interp α} {o : Bin} {w w' : World α} {h : Nat} {a b r : Cg α}
    (e : binNode I o w h a b = .ok (r, w')) : Ext w w' := by
  unfold binNode at e
  cases h1 : a.argument with
  | error x => rw [h1] at e; cases e
  | ok u =>
    cases h2 : b.argument with
    | error x => rw [h1, h2] at e; cases e
    | ok v =>
      rw [h1, h2] at e
      cases e
      exact ext_add _ _ _ _

theorem fold_good {I : Interp α} {o : Bin} {w w' : World α} {a b r : Cg α} {pa pb : α}
    (ha : Good K val a pa) (hb : Good K val b pb) (hp : (a.isPar && b.isPar) = true)
    (e : fold I o w a b = .ok (r, w')) : Good K val r (o.base I pa pb) ∧ w' = w := by
  rw [Bool.and_eq_true] at hp
  unfold fold at e
  rw [ha.getValue hp.1, hb.getValue hp.2] at e
  cases e
  exact ⟨good_const _, rfl⟩

theorem bind_ok {ε β γ : Type} {x : Except ε β} {f : β → Except ε γ} {r : γ}
    (h : (x >>= f) = .ok r) : ∃ y, x = .ok y ∧ f y = .ok r := by
  cases x with
  | error e => cases h
  | ok y => exact ⟨y, rfl, h⟩

theorem direct_base [DecidableEq α] {I : Interp α} {o : Bin} {a b p : α} (h : o.direct I a b = some p) :
    p = o.base I a b ∧ (o = .div → b ≠ I.zero) := by
  cases o <;> simp only [Bin.direct] at h
  case div =>
    split at h
    · cases h
    · rename_i hb
      cases h
      exact ⟨rfl, fun _ => hb⟩
  all_goals
    cases h
    exact ⟨rfl, by simp⟩

/-- C01 for the binary operators -/
theorem binary_good [DecidableEq α] {I : Interp α} (L : Laws I) {o : Bin} {w w' : World α} {x : Nat → α}
    {a b r : Cg α} {pa pb p : α} (ha : Good K val a pa) (hb : Good K val b pb)
    (e : binary I o w a b = .ok (r, w')) (hv : w'.Val I x val) (hd : o.direct I pa pb = some p) :
    Good K val r p := by
  obtain ⟨rfl, hz⟩ := direct_base hd
  unfold binary at e
  split at e
  · rename_i hp
    exact (fold_good ha hb hp e).1
  · cases o <;> simp only at e
    case add =>
      split at e
      · rename_i h
        rw [Bool.and_eq_true] at h
        cases e
        exact hb.congr (by rw [ha.zero L h.2]; exact (L.zero_add _).symm)
      · split at e
        · rename_i h
          simp only [Bool.and_eq_true] at h
          cases e
          exact ha.congr (by rw [hb.zero L h.2]; exact (L.add_zero _).symm)
        · obtain ⟨h, _, e⟩ := bind_ok e
          exact binNode_good ha hb e hv
    case sub =>
      split at e
      · rename_i h
        rw [Bool.and_eq_true] at h
        cases e
        exact ha.congr (by rw [hb.zero L h.2]; exact (L.sub_zero _).symm)
      · obtain ⟨h, _, e⟩ := bind_ok e
        exact binNode_good ha hb e hv
    case mul =>
      split at e
      · rename_i h
        rw [Bool.and_eq_true] at h
        cases e
        exact (good_const _).congr (by rw [ha.zero L h.2]; exact (L.zero_mul _).symm)
      · split at e
        · rename_i h
          rw [Bool.and_eq_true] at h
          cases e
          exact hb.congr (by rw [ha.one L h.2]; exact (L.one_mul _).symm)
        · split at e
          · rename_i h
            simp only [Bool.and_eq_true] at h
            cases e
            exact (good_const _).congr (by rw [hb.zero L h.2]; exact (L.mul_zero _).symm)
          · split at e
            · rename_i h
              simp only [Bool.and_eq_true] at h
              cases e
              exact ha.congr (by rw [hb.one L h.2]; exact (L.mul_one _).symm)
            · obtain ⟨h, _, e⟩ := bind_ok e
              exact binNode_good ha hb e hv
    case div =>
      split at e
      · rename_i h
        rw [Bool.and_eq_true] at h
        cases e
        exact (good_const _).congr (by rw [ha.zero L h.2]; exact (L.zero_div _ (hz rfl)).symm)
      · split at e
        · rename_i h
          simp only [Bool.and_eq_true] at h
          cases e
          exact ha.congr (by rw [hb.one L h.2]; exact (L.div_one _).symm)
        · split at e
          · rename_i h
            simp only [Bool.and_eq_true, Bool.not_eq_true', beq_iff_eq] at h
            cases e
            have hab : pa = pb := by
              have h1 := ha.den
              have h2 := hb.den
              have hn := h.1.1
              unfold Cg.isPar at hn
              cases hc : a.node with
              | none => rw [hc] at hn; simp at hn
              | some n =>
                rw [← h.2, hc] at h2
                rw [hc] at h1
                exact h1.symm.trans h2
            exact (good_const _).congr (by rw [hab]; exact (L.div_self _ (hz rfl)).symm)
          · obtain ⟨h, _, e⟩ := bind_ok e
            exact binNode_good ha hb e hv
    case pow =>
      split at e
      · rename_i h
        rw [Bool.and_eq_true] at h
        cases e
        exact (good_const _).congr (by rw [hb.zero L h.2]; exact (L.pow_zero _).symm)
      · split at e
        · rename_i h
          rw [Bool.and_eq_true] at h
          cases e
          exact ha.congr (by rw [hb.one L h.2]; exact (L.pow_one _).symm)
        · split at e
          · cases e
          · exact binNode_good ha hb e hv

/-- C01 for the compound assignments -/
theorem compound_good [DecidableEq α] {I : Interp α} (L : Laws I) {o : Bin} {w w' : World α} {x : Nat → α}
    {a b r : Cg α} {pa pb p : α} (ha : Good K val a pa) (hb : Good K val b pb)
    (e : compound I o w a b = .ok (r, w')) (hv : w'.Val I x val) (hd : o.direct I pa pb = some p) :
    Good K val r p := by
  obtain ⟨rfl, hz⟩ := direct_base hd
  unfold compound at e
  split at e
  · cases e
  split at e
  · rename_i hp
    exact (fold_good ha hb hp e).1
  · cases o <;> simp only at e
    case add =>
      split at e
      · rename_i h
        rw [Bool.and_eq_true] at h
        cases e
        exact hb.congr (by rw [ha.zero L h.2]; exact (L.zero_add _).symm)
      · split at e
        · rename_i h
          simp only [Bool.and_eq_true] at h
          cases e
          exact ha.congr (by rw [hb.zero L h.2]; exact (L.add_zero _).symm)
        · obtain ⟨h, _, e⟩ := bind_ok e
          exact binNode_good ha hb e hv
    case sub =>
      split at e
      · rename_i h
        simp only [Bool.and_eq_true] at h
        cases e
        exact ha.congr (by rw [hb.zero L h.2]; exact (L.sub_zero _).symm)
      · obtain ⟨h, _, e⟩ := bind_ok e
        exact binNode_good ha hb e hv
    case mul =>
      split at e
      · rename_i h
        rw [Bool.and_eq_true] at h
        cases e
        exact ha.congr (by rw [ha.zero L h.2]; exact (L.zero_mul _).symm)
      · split at e
        · rename_i h
          rw [Bool.and_eq_true] at h
          cases e
          exact hb.congr (by rw [ha.one L h.2]; exact (L.one_mul _).symm)
        · split at e
          · rename_i h
            simp only [Bool.and_eq_true] at h
            cases e
            exact (good_const _).congr (by rw [hb.zero L h.2]; exact (L.mul_zero _).symm)
          · split at e
            · rename_i h
              simp only [Bool.and_eq_true] at h
              cases e
              exact ha.congr (by rw [hb.one L h.2]; exact (L.mul_one _).symm)
            · obtain ⟨h, _, e⟩ := bind_ok e
              exact binNode_good ha hb e hv
    case div =>
      split at e
      · rename_i h
        rw [Bool.and_eq_true] at h
        cases e
        exact ha.congr (by rw [ha.zero L h.2]; exact (L.zero_div _ (hz rfl)).symm)
      · split at e
        · rename_i h
          simp only [Bool.and_eq_true] at h
          cases e
          exact ha.congr (by rw [hb.one L h.2]; exact (L.div_one _).symm)
        · obtain ⟨h, _, e⟩ := bind_ok e
          exact binNode_good ha hb e hv
    case pow => cases e

theorem unary_good {I : Interp α} {op : Op} {g : α → α} {w w' : World α} {x : Nat → α} {a r : Cg α} {pa : α}
    (hop : op ≠ .inv) (hs : ∀ v, opSem I op [v] = some (g v)) (ha : Good K val a pa)
    (e : unary op g w a = .ok (r, w')) (hv : w'.Val I x val) : Good K val r (g pa) := by
  unfold unary at e
  split at e
  · rename_i hp
    rw [ha.getValue hp] at e
    cases e
    exact good_const _
  · split at e
    · cases e
    · obtain ⟨u, hu, e⟩ := bind_ok e
      cases e
      obtain ⟨u', hu', hua⟩ := ha.arg
      rw [hu] at hu'
      cases hu'
      have := val_add hv hop
      simp only [List.map_cons, List.map_nil, hua, hs, Option.some.injEq] at this
      refine ⟨this.symm, ?_⟩
      intro hk z hz
      cases h1 : a.value with
      | none => rw [h1] at hz; cases hz
      | some p =>
        rw [h1] at hz
        simp only [Option.map_some, Option.some.injEq] at hz
        rw [← hz, ha.known hk p h1]

theorem signValue_eq {I : Interp α} (L : Laws I) (v : α) : signValue I v = I.sign v := by
  unfold signValue Interp.sign
  split
  · rfl
  · rename_i h
    simp only [Bool.not_eq_true] at h
    by_cases he : v = I.zero
    · rw [if_pos ((L.eq_iff _ _).2 he), he, L.zero_not_lt]
      rfl
    · rw [if_neg (fun hc => he ((L.eq_iff _ _).1 hc)), if_pos (L.trichotomy v h he)]

/-- C04 -/
theorem condExp_good {I : Interp α} (heq : ∀ a b, I.cmp .eq a b = true → a = b) {c : Cmp}
    {w w' : World α} {x : Nat → α} {l r t f q : Cg α} {pl pr pt pf : α} (hl : Good K val l pl)
    (hr : Good K val r pr) (ht : Good K val t pt) (hf : Good K val f pf)
    (e : condExp I c w l r t f = .ok (q, w')) (hv : w'.Val I x val) :
    Good K val q (if I.cmp c pl pr then pt else pf) := by
  unfold condExp at e
  split at e
  · rename_i hp
    rw [Bool.and_eq_true] at hp
    rw [hl.getValue hp.1, hr.getValue hp.2] at e
    simp only [bind, Except.bind] at e
    split at e
    · rename_i hc
      cases e
      rw [if_pos hc]
      exact ht
    · rename_i hc
      cases e
      rw [if_neg hc]
      exact hf
  · split at e
    · rename_i hsame
      cases e
      have htf : pt = pf := by
        unfold sameExpression at hsame
        rw [Bool.or_eq_true] at hsame
        rcases hsame with h | h
        · simp only [Bool.and_eq_true] at h
          rw [ht.par h.1.1, hf.par h.1.2] at h
          exact heq _ _ h.2
        · simp only [Bool.and_eq_true, Bool.not_eq_true', beq_iff_eq] at h
          have h1 := ht.den
          have h2 := hf.den
          have hn := h.1.1
          unfold Cg.isPar at hn
          cases hc : t.node with
          | none => rw [hc] at hn; simp at hn
          | some n =>
            rw [← h.2, hc] at h2
            rw [hc] at h1
            exact h1.symm.trans h2
      rw [htf, ite_self]
      exact htf ▸ ht
    · obtain ⟨h, _, e⟩ := bind_ok e
      obtain ⟨u1, e1, e⟩ := bind_ok e
      obtain ⟨u2, e2, e⟩ := bind_ok e
      obtain ⟨u3, e3, e⟩ := bind_ok e
      obtain ⟨u4, e4, e⟩ := bind_ok e
      cases e
      obtain ⟨_, g1, k1⟩ := hl.arg
      obtain ⟨_, g2, k2⟩ := hr.arg
      obtain ⟨_, g3, k3⟩ := ht.arg
      obtain ⟨_, g4, k4⟩ := hf.arg
      rw [e1] at g1; rw [e2] at g2; rw [e3] at g3; rw [e4] at g4
      cases g1; cases g2; cases g3; cases g4
      have := val_add hv (by simp)
      simp only [List.map_cons, List.map_nil, k1, k2, k3, k4, opSem, Option.some.injEq] at this
      refine ⟨this.symm, ?_⟩
      intro hk z hz
      simp only at hz
      cases h1 : l.value with
      | none => rw [h1] at hz; cases hz
      | some p =>
        cases h2 : r.value with
        | none => rw [h1, h2] at hz; cases hz
        | some p' =>
          rw [h1, h2] at hz
          simp only at hz
          rw [hl.known hk p h1, hr.known hk p' h2] at hz
          split at hz
          · rename_i hc
            rw [if_pos hc]
            exact ht.known hk z hz
          · rename_i hc
            rw [if_neg hc]
            exact hf.known hk z hz

end Verif.Cg
