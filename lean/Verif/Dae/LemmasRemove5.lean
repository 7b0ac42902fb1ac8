import Verif.Dae.LemmasRemove4
/-
Helper lemmas C77: the information about variables.
-/
namespace Verif.Dae.Remove
open Verif.Dae.Soares

variable {info : List VarInfo} {m : Nat} {inc : Nat → Nat → Bool} {g G : BG} {R : List Nat} {M : Mem}

/-- what is known about variable `j`, when the new variables of `P` were added -/
structure Entry (info : List VarInfo) (G : BG) (M : Mem) (P : List Nat) (j : Nat) (y : VarOut) : Prop where
  id : y.id = M.vt j
  anti : y.anti = (G.v j).anti.map M.vt
  dep : y.dep = true
  orig : y.orig = if j < (tapeOf info).length then some (M.vt j) else none
  given : j < (tapeOf info).length → ∃ x, info[M.vt j]? = some x ∧ y.integrated = x.integrated
  added : (tapeOf info).length ≤ j → y.integrated = false
  der : ∀ u, y.der = some u ↔ ∃ k, (M.g.v j).deriv = some k ∧ ((tapeOf info).length ≤ j ∨ k < (tapeOf info).length ∨ k ∈ P) ∧ u = M.vt k
  ord : ∃ n b, up (dV G) n b = some j ∧ (G.v b).anti = none ∧ y.order = n ∧ y.root = if n = 0 then none else some (M.vt b)

/-- the list when the new variables of `P` were added -/
structure Gen (info : List VarInfo) (G : BG) (R : List Nat) (M : Mem) (P : List Nat) (vs : List VarOut) : Prop where
  len : vs.length = info.length + P.length
  vars : ∀ j, Left info G R j → j < (tapeOf info).length ∨ j ∈ P → ∃ y, vs[M.vt j]? = some y ∧ Entry info G M P j y
  const : ∀ (t : Nat) x, info[t]? = some x → x.timeDep = false → ∃ y, vs[t]? = some y ∧ y.id = t ∧ y.anti = none ∧ y.der = none ∧
    y.dep = false ∧ y.integrated = x.integrated ∧ y.orig = some t ∧ y.order = -1 ∧ y.root = none

/-! ### given variables -/

theorem mapM_of_ok {α β : Type} {f : α → Except Err β} : ∀ {l : List α}, (∀ a ∈ l, ∃ b, f a = .ok b) → ∃ r, l.mapM f = .ok r := by
  intro l
  induction l with
  | nil => intro _; exact ⟨[], rfl⟩
  | cons a l ih =>
    intro h
    obtain ⟨b, hb⟩ := h a List.mem_cons_self
    obtain ⟨r, hr⟩ := ih fun x hx => h x (List.mem_cons_of_mem _ hx)
    exact ⟨b :: r, by rw [List.mapM_cons, hb, hr]; rfl⟩

theorem Ctx.anti_given (h : Ctx info m inc g G R M) {j t : Nat} (ht : (tapeOf info)[j]? = some t) :
    (info[t]?).bind VarInfo.anti = (G.v j).anti.map M.vt := by
  have hj := Ctx.lt_tape ht
  rw [h.ext.anti j (h.built.nv.symm ▸ hj)]
  cases hi : (info[t]?).bind VarInfo.anti with
  | some a =>
    obtain ⟨p, hp⟩ := h.built.closed j t a ht hi
    rw [(h.built.anti j p).mpr ⟨t, a, ht, hp, hi⟩, Option.map_some, h.vt_given hp]
  | none =>
    cases ha : (g.v j).anti with
    | none => rfl
    | some p =>
      obtain ⟨t', a, h1, _, h3⟩ := (h.built.anti j p).mp ha
      rw [ht] at h1
      cases h1
      rw [hi] at h3
      cases h3

theorem Ctx.node (h : Ctx info m inc g G R M) {t : Nat} {x : VarInfo} (hx : info[t]? = some x) (hd : x.timeDep = true) :
    ∃ j : Nat, (tapeOf info)[j]? = some t := List.mem_iff_getElem?.mp ((h.built.mem t).mpr ⟨x, hx, hd⟩)

theorem Ctx.order_given (h : Ctx info m inc g G R M) : ∀ (fuel k j t : Nat), (tapeOf info)[j]? = some t → antiCount info fuel t = .ok k →
    ∃ b, up (dV G) k b = some j ∧ (G.v b).anti = none ∧ orderRoot info fuel t = .ok (k, if k = 0 then none else some (M.vt b)) := by
  intro fuel
  induction fuel with
  | zero => intro k j t _ hk; cases hk
  | succ fuel ih =>
    intro k j t ht hk
    obtain ⟨x, hx, hd⟩ := (h.built.mem t).mp (List.mem_of_getElem? ht)
    have han := h.anti_given ht
    rw [hx, Option.bind_some] at han
    unfold antiCount at hk
    unfold orderRoot
    rw [hx] at hk ⊢
    simp only at hk ⊢
    cases ha : x.anti with
    | none =>
      rw [ha] at hk han
      cases hk
      refine ⟨j, rfl, ?_, by simp only [hd, if_true]; rfl⟩
      cases hy : (G.v j).anti with
      | none => rfl
      | some _ => rw [hy] at han; cases han
    | some a =>
      rw [ha] at hk han
      simp only at hk ⊢
      cases hc : antiCount info fuel a with
      | error e => rw [hc] at hk; cases hk
      | ok k' =>
        rw [hc] at hk
        cases hk
        cases hy : (G.v j).anti with
        | none => rw [hy] at han; cases han
        | some p =>
          rw [hy, Option.map_some] at han
          have hp := h.basis.low j p (Ctx.lt_tape ht) hy
          have hpa := List.getElem?_eq_getElem hp
          have e1 := h.vt_given hpa
          have e2 : (tapeOf info)[p]? = some a := by rw [hpa, ← e1, ← Option.some.inj han]
          obtain ⟨b, h1, h2, h3⟩ := ih k' p a e2 hc
          refine ⟨b, ?_, h2, ?_⟩
          · simp only [up, h1, Option.bind_some]
            exact h.basis.w.unlink p j (Nat.lt_of_lt_of_le (Ctx.lt_tape ht) h.basis.le) hy
          · rw [h3]
            simp only
            by_cases hk0 : k' = 0
            · subst hk0
              cases h1
              rw [Option.some.inj han]
              simp
            · rw [if_neg hk0, if_neg (Nat.succ_ne_zero _), if_neg]
              · push_cast; rfl
              · omega

theorem Ctx.der_given (h : Ctx info m inc g G R M) {t u : Nat} : givenDer info t = some u ↔
    ∃ x, info[u]? = some x ∧ x.anti = some t ∧ x.timeDep = true := by
  unfold givenDer
  constructor
  · intro hu
    have h1 := List.find?_some hu
    rw [beq_iff_eq, Option.bind_eq_some_iff] at h1
    obtain ⟨x, h2, h3⟩ := h1
    refine ⟨x, h2, h3, ?_⟩
    cases hd : x.timeDep with
    | true => rfl
    | false => rw [h.const x (List.mem_of_getElem? h2) hd] at h3; cases h3
  · rintro ⟨x, h1, h2, h3⟩
    cases hf : (List.range info.length).reverse.find? fun d => (info[d]?).bind VarInfo.anti == some t with
    | none =>
      have := List.find?_eq_none.mp hf u (by
        rw [List.mem_reverse, List.mem_range]; exact (List.getElem?_eq_some_iff.mp h1).1)
      rw [h1, Option.bind_some, h2] at this
      simp at this
    | some u' =>
      have h4 := List.find?_some hf
      rw [beq_iff_eq, Option.bind_eq_some_iff] at h4
      obtain ⟨x', h5, h6⟩ := h4
      have hd' : x'.timeDep = true := by
        cases hd : x'.timeDep with
        | true => rfl
        | false => rw [h.const x' (List.mem_of_getElem? h5) hd] at h6; cases h6
      rw [h.one u u' t x x' h1 h5 h3 hd' h2 h6]

theorem Ctx.given_vars (h : Ctx info m inc g G R M) : ∃ vs, (List.range info.length).mapM (givenVar info) = .ok vs ∧ Gen info G R M [] vs := by
  have hok : ∀ t ∈ List.range info.length, ∃ b, givenVar info t = .ok b := by
    intro t ht
    rw [List.mem_range] at ht
    have hx := List.getElem?_eq_getElem ht
    unfold givenVar
    rw [hx]
    simp only
    cases hd : (info[t]).timeDep with
    | true =>
      obtain ⟨j, hj⟩ := h.node hx hd
      obtain ⟨k, hk⟩ := h.counts t _ hx hd
      obtain ⟨b, _, _, h3⟩ := h.order_given _ k j t hj hk
      rw [h3]
      exact ⟨_, rfl⟩
    | false =>
      have := h.const _ (List.mem_of_getElem? hx) hd
      unfold orderRoot
      rw [hx]
      simp only [this]
      exact ⟨_, rfl⟩
  obtain ⟨vs, hvs⟩ := mapM_of_ok hok
  obtain ⟨hlen, hget⟩ := mapM_ok hvs
  rw [List.length_range] at hlen
  refine ⟨vs, hvs, ⟨by simpa using hlen, fun j hj hjn => ?_, fun t x hx hd => ?_⟩⟩
  · have hjn : j < (tapeOf info).length := hjn.resolve_right (by simp)
    have hjt := List.getElem?_eq_getElem hjn
    generalize (tapeOf info)[j] = t at hjt
    obtain ⟨x, hx, hd⟩ := (h.built.mem t).mp (List.mem_of_getElem? hjt)
    have hlt := (List.getElem?_eq_some_iff.mp hx).1
    obtain ⟨y, hy, hy'⟩ := hget t t (by rw [List.getElem?_range hlt])
    have hvt := h.vt_given hjt
    obtain ⟨k, hk⟩ := h.counts t _ hx hd
    obtain ⟨b, h1, h2, h3⟩ := h.order_given _ k j t hjt hk
    unfold givenVar at hy
    rw [hx] at hy
    simp only [h3] at hy
    cases hy
    refine ⟨_, by rw [hvt]; exact hy', ⟨hvt.symm, ?_, hd, ?_, fun _ => ⟨x, by rw [hvt]; exact hx, rfl⟩, fun hh => absurd hjn (by omega), fun u => ?_,
      k, b, h1, h2, rfl, rfl⟩⟩
    · have := h.anti_given hjt
      rw [hx] at this
      exact this
    · rw [if_pos hjn, hvt]
    · simp only
      rw [h.der_given]
      constructor
      · rintro ⟨z, h4, h5, h6⟩
        obtain ⟨q, hq⟩ := h.node h4 h6
        have hqn := Ctx.lt_tape hq
        have ha := h.anti_given hq
        rw [h4, Option.bind_some, h5] at ha
        cases hy : (G.v q).anti with
        | none => rw [hy] at ha; cases ha
        | some p =>
          rw [hy, Option.map_some] at ha
          have hp := h.basis.low q p hqn hy
          have := h.vt_inj (h.left_lt hp) hj ((Option.some.inj ha).symm.trans hvt.symm)
          subst this
          refine ⟨q, ?_, .inr (.inl hqn), (h.vt_given hq).symm⟩
          exact (h.v.deriv p hj q).mpr ⟨h.basis.w.unlink p q (Nat.lt_of_lt_of_le hqn h.basis.le) hy, h.left_lt hqn⟩
      · rintro ⟨q, h4, h5, rfl⟩
        have hqn : q < (tapeOf info).length := by
          rcases h5 with h5 | h5 | h5
          · omega
          · exact h5
          · cases h5
        have hq := List.getElem?_eq_getElem hqn
        generalize (tapeOf info)[q] = s at hq
        obtain ⟨z, hz, hzd⟩ := (h.built.mem s).mp (List.mem_of_getElem? hq)
        have hl := h.basis.w.link j q ((h.v.deriv j hj q).mp h4).1
        have ha := h.anti_given hq
        rw [hl.2.2, Option.map_some, hz, Option.bind_some, hvt] at ha
        exact ⟨z, by rw [h.vt_given hq]; exact hz, ha, hzd⟩
  · have hlt := (List.getElem?_eq_some_iff.mp hx).1
    obtain ⟨y, hy, hy'⟩ := hget t t (by rw [List.getElem?_range hlt])
    have hn := h.const _ (List.mem_of_getElem? hx) hd
    unfold givenVar orderRoot at hy
    rw [hx] at hy
    simp only [hn] at hy
    cases hy
    refine ⟨_, hy', rfl, rfl, ?_, hd, rfl, rfl, by simp only [hd]; rfl, rfl⟩
    simp only
    cases hg : givenDer info t with
    | none => rfl
    | some u =>
      obtain ⟨z, h4, h5, h6⟩ := h.der_given.mp hg
      obtain ⟨q, hq⟩ := h.node h4 h6
      obtain ⟨p, hp⟩ := h.built.closed q u t hq (by rw [h4]; exact h5)
      obtain ⟨x', hx', hd'⟩ := (h.built.mem t).mp (List.mem_of_getElem? hp)
      rw [hx] at hx'
      cases hx'
      rw [hd] at hd'
      cases hd'

/-! ### new variables -/

theorem get_added {vs : List VarOut} {n x : VarOut} {f : VarOut → VarOut} {a t : Nat} (ha : a < vs.length) :
    (((vs ++ [n]).set a x).modify vs.length f)[t]? = if t = vs.length then some (f n) else if t = a then some x else vs[t]? := by
  by_cases h1 : t = vs.length
  · subst h1
    rw [if_pos rfl, List.getElem?_modify, List.getElem?_set_ne (by omega), List.getElem?_append_right (Nat.le_refl _), Nat.sub_self]
    simp
  · rw [if_neg h1, List.getElem?_modify]
    simp only [show ¬ vs.length = t from fun e => h1 e.symm, if_false]
    by_cases h2 : t = a
    · subst h2
      rw [if_pos rfl, List.getElem?_set_self (by rw [List.length_append]; omega)]
      rfl
    · rw [if_neg h2, List.getElem?_set_ne (fun e => h2 e.symm)]
      by_cases h3 : t < vs.length
      · rw [List.getElem?_append_left h3]; simp
      · rw [List.getElem?_eq_none (by rw [List.length_append, List.length_singleton]; omega), List.getElem?_eq_none (by omega)]
        rfl

theorem Ctx.add_var (h : Ctx info m inc g G R M) {P Q : List Nat} {j : Nat} {vs : List VarOut}
    (hr : M.vl = List.range (tapeOf info).length ++ (P ++ j :: Q)) (hG : Gen info G R M P vs) :
    ∃ vs', addVar M vs j = .ok vs' ∧ Gen info G R M (P ++ [j]) vs' := by
  have hjl : j ∈ M.vl := by rw [hr]; simp
  have hj : Left info G R j := (h.v.mem j).mp hjl
  have hpos : M.vl[(tapeOf info).length + P.length]? = some j := by
    rw [hr, List.getElem?_append_right (by rw [List.length_range]; omega), List.length_range,
      List.getElem?_append_right (by omega)]
    simp
  have hjn : ¬ j < (tapeOf info).length := fun x => absurd ((h.v.pos hpos).mpr x) (by omega)
  have hvt : M.vt j = vs.length := by
    rw [h.v.vt j hj, if_neg hjn, h.v.vi _ j hpos, hG.len]
    omega
  have hsort := h.v.sorted
  rw [hr] at hsort
  have hjP : j ∉ P := by
    intro x
    have := (List.pairwise_append.mp (List.pairwise_append.mp hsort).2.1).2.2 j x j List.mem_cons_self
    omega
  obtain ⟨⟨o, ho1, ho2⟩, _⟩ := h.basis.kept.new j (by omega) hj.1
  have hoL := h.left_anti hj ho2
  have hoP : o < (tapeOf info).length ∨ o ∈ P := by
    have := (h.v.mem o).mpr hoL
    rw [hr, List.mem_append, List.mem_range, List.mem_append] at this
    rcases this with x | x | x
    · exact .inl x
    · exact .inr x
    · exfalso
      rcases List.mem_cons.mp x with x | x
      · omega
      · have := (List.pairwise_cons.mp (List.pairwise_append.mp (List.pairwise_append.mp hsort).2.1).2.1).1 o x
        omega
  obtain ⟨x, hx, hxE⟩ := hG.vars o hoL hoP
  have hlt := (List.getElem?_eq_some_iff.mp hx).1
  have hoj : (G.v o).deriv = some j := h.basis.w.unlink o j hj.1 ho2
  have hMoj : (M.g.v o).deriv = some j := (h.v.deriv o hoL j).mpr ⟨hoj, hj⟩
  unfold addVar
  rw [h.v.anti, ho2]
  simp only
  rw [List.getElem?_append_left hlt, hx]
  simp only
  refine ⟨_, rfl, ?_⟩
  generalize hvs' : (((vs ++ [(⟨vs.length, some (M.vt o), none, true, false, none, 0, none⟩ : VarOut)]).set (M.vt o)
    { x with der := some (M.vt j) }).modify vs.length fun y => { y with
        order := x.order + 1
        root := if x.order + 1 = 1 then x.orig else x.root
        der := match (M.g.v j).deriv with
          | some k => some (M.vt k)
          | none => y.der }) = vs'
  have hget : ∀ t, vs'[t]? = if t = vs.length then some ⟨vs.length, some (M.vt o), (match (M.g.v j).deriv with
          | some k => some (M.vt k)
          | none => none), true, false, none, x.order + 1, if x.order + 1 = 1 then x.orig else x.root⟩
      else if t = M.vt o then some { x with der := some (M.vt j) } else vs[t]? := by
    intro t
    rw [← hvs', get_added hlt]
  have hlen : vs'.length = vs.length + 1 := by
    rw [← hvs', List.length_modify, List.length_set, List.length_append]
    rfl
  refine ⟨by rw [hlen, hG.len, List.length_append]; rfl, fun k hk hkP => ?_, fun t z hz hd => ?_⟩
  · rw [hget]
    by_cases h1 : k = j
    · subst h1
      rw [if_pos hvt]
      refine ⟨_, rfl, ⟨hvt.symm, by rw [ho2]; rfl, rfl, by rw [if_neg hjn], fun hh => absurd hh hjn, fun _ => rfl, fun u => ?_, ?_⟩⟩
      · simp only
        cases hd : (M.g.v k).deriv with
        | none => simp
        | some q =>
          simp only [Option.some.injEq]
          constructor
          · rintro rfl; exact ⟨q, rfl, .inl (by omega), rfl⟩
          · rintro ⟨q', rfl, _, rfl⟩; rfl
      · obtain ⟨n, b, c1, c2, c3, c4⟩ := hxE.ord
        refine ⟨n + 1, b, by simp only [up, c1, Option.bind_some]; exact hoj, c2, by rw [c3]; push_cast; rfl, ?_⟩
        simp only
        rw [if_neg (Nat.succ_ne_zero n)]
        by_cases hn : n = 0
        · subst hn
          cases c1
          have hon : o < (tapeOf info).length := by
            by_contra hc
            obtain ⟨⟨_, _, d2⟩, _⟩ := h.basis.kept.new o (by omega) hoL.1
            rw [c2] at d2
            cases d2
          rw [if_pos (by rw [c3]; rfl), hxE.orig, if_pos hon]
        · rw [if_neg (by rw [c3]; omega), c4, if_neg hn]
    · have hkP' : k < (tapeOf info).length ∨ k ∈ P := by
        rcases hkP with hkP | hkP
        · exact .inl hkP
        · rw [List.mem_append, List.mem_singleton] at hkP
          exact .inr (hkP.resolve_right h1)
      obtain ⟨y, hy, hyE⟩ := hG.vars k hk hkP'
      have hylt := (List.getElem?_eq_some_iff.mp hy).1
      rw [if_neg (by omega)]
      by_cases h2 : k = o
      · subst h2
        rw [if_pos rfl]
        refine ⟨_, rfl, ⟨hxE.id, hxE.anti, hxE.dep, hxE.orig, hxE.given, hxE.added, fun u => ?_, hxE.ord⟩⟩
        simp only [Option.some.injEq]
        constructor
        · rintro rfl; exact ⟨j, hMoj, .inr (.inr (by simp)), rfl⟩
        · rintro ⟨q, hq, _, rfl⟩
          rw [hMoj] at hq
          cases hq
          rfl
      · rw [if_neg (fun e => h2 (h.vt_inj hk hoL e))]
        refine ⟨y, hy, ⟨hyE.id, hyE.anti, hyE.dep, hyE.orig, hyE.given, hyE.added, fun u => ?_, hyE.ord⟩⟩
        rw [hyE.der]
        refine exists_congr fun q => and_congr_right fun hq => and_congr_left fun _ => ?_
        have hqj : q ≠ j := by
          rintro rfl
          have := (h.basis.w.link k q ((h.v.deriv k hk q).mp hq).1).2.2
          rw [ho2] at this
          cases this
          exact h2 rfl
        simp [hqj]
  · obtain ⟨y, hy, hrest⟩ := hG.const t z hz hd
    have ht := (List.getElem?_eq_some_iff.mp hz).1
    refine ⟨y, ?_, hrest⟩
    rw [hget, if_neg (by rw [hG.len]; omega), if_neg]
    · exact hy
    · rintro rfl
      have hon := (h.vt_lt hoL).mpr ht
      have hot := List.getElem?_eq_getElem hon
      obtain ⟨z', hz', hd'⟩ := (h.built.mem _).mp (List.mem_of_getElem? hot)
      rw [← h.vt_given hot, hz] at hz'
      cases hz'
      rw [hd] at hd'
      cases hd'

theorem Ctx.add_vars (h : Ctx info m inc g G R M) : ∀ (Q P : List Nat) (vs : List VarOut),
    M.vl = List.range (tapeOf info).length ++ (P ++ Q) → Gen info G R M P vs →
    ∃ vs', Q.foldlM (addVar M) vs = .ok vs' ∧ Gen info G R M (P ++ Q) vs' := by
  intro Q
  induction Q with
  | nil => intro P vs _ hG; exact ⟨vs, rfl, by simpa using hG⟩
  | cons j Q ih =>
    intro P vs hr hG
    obtain ⟨vs1, e1, g1⟩ := h.add_var hr hG
    have e : P ++ j :: Q = (P ++ [j]) ++ Q := by simp
    rw [e] at hr ⊢
    obtain ⟨vs2, e2, g2⟩ := ih _ _ hr g1
    exact ⟨vs2, by rw [List.foldlM_cons, e1]; exact e2, g2⟩

end Verif.Dae.Remove
