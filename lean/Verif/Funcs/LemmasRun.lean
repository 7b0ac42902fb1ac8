import Verif.Funcs.LemmasStruct

/-! Helper lemmas: running the code of one function does what the operations mean. -/

namespace Verif.Funcs

variable {M L : Type}

/-- filled in one of the scopes `T` -/
def Touched (T : List Nat) (c : Cache) (s : Slot) : Prop := ∃ e, c s = some e ∧ e.scope ∈ T

theorem Touched.mono {T T' : List Nat} {c : Cache} {s : Slot} (h : Touched T c s) (hs : ∀ x ∈ T, x ∈ T') : Touched T' c s :=
  let ⟨e, h1, h2⟩ := h
  ⟨e, h1, hs _ h2⟩

/-- the arrays of a call, with their structs, in the order in which these are filled -/
def opSlots : Op → List (Slot × Arr)
  | .forward _ tx ty => slots .tx tx ++ [(.ty, ty)]
  | .reverse _ tx px py => slots .tx tx ++ slots .py py ++ [(.px, px)]
  | _ => []

theorem tx_kind {tx : List Arr} (h1 : ∀ a ∈ tx.head?, a.sparse = false) (h2 : ∀ a ∈ tx.tail, a.sparse = true) :
    ∀ p ∈ slots .tx tx, p.2.sparse = p.1.kind := by
  intro p hp
  obtain ⟨k, a, hk, rfl⟩ := mem_slots hp
  cases k with
  | zero => exact h1 a (by rw [List.head?_eq_getElem?]; exact hk)
  | succ k => exact h2 a (by rw [List.mem_iff_getElem?]; exact ⟨k, by rw [List.getElem?_tail]; exact hk⟩)

theorem py_kind {py : List Arr} (h1 : ∀ a ∈ py.head?, a.sparse = true) (h2 : ∀ a ∈ py.tail, a.sparse = false) :
    ∀ p ∈ slots .py py, p.2.sparse = p.1.kind := by
  intro p hp
  obtain ⟨k, a, hk, rfl⟩ := mem_slots hp
  cases k with
  | zero => exact h1 a (by rw [List.head?_eq_getElem?]; exact hk)
  | succ k => exact h2 a (by rw [List.mem_iff_getElem?]; exact ⟨k, by rw [List.getElem?_tail]; exact hk⟩)

theorem slots_scope {mk : Nat → Slot} {as : List Arr} {sc : Nat} (h : ∀ a ∈ as, a.scope = sc) :
    ∀ p ∈ slots mk as, p.2.scope = sc := by
  intro p hp
  obtain ⟨k, a, hk, rfl⟩ := mem_slots hp
  exact h a (List.mem_of_getElem? hk)

theorem opSlots_kind {t : Op} (h : t.Kinds) : ∀ p ∈ opSlots t, p.2.sparse = p.1.kind := by
  match t, h with
  | .forward n tx ty, h =>
    intro p hp
    rw [opSlots, List.mem_append, List.mem_singleton] at hp
    rcases hp with hp | rfl
    · exact tx_kind h.1 h.2.1 p hp
    · exact h.2.2
  | .reverse n tx px py, h =>
    intro p hp
    rw [opSlots, List.mem_append, List.mem_append, List.mem_singleton] at hp
    rcases hp with (hp | hp) | rfl
    · exact tx_kind h.1 h.2.1 p hp
    · exact py_kind h.2.2.2.1 h.2.2.2.2 p hp
    · exact h.2.2.1
  | .silent, _ => intro p hp; cases hp
  | .indexedDep _, _ => intro p hp; cases hp
  | .plain _ _, _ => intro p hp; cases hp

theorem opSlots_scope {t : Op} {sc : Nat} (h : t.InScope sc) : ∀ p ∈ opSlots t, p.2.scope = sc := by
  match t, h with
  | .forward n tx ty, h =>
    intro p hp
    rw [opSlots, List.mem_append, List.mem_singleton] at hp
    rcases hp with hp | rfl
    · exact slots_scope h.1 p hp
    · exact h.2
  | .reverse n tx px py, h =>
    intro p hp
    rw [opSlots, List.mem_append, List.mem_append, List.mem_singleton] at hp
    rcases hp with (hp | hp) | rfl
    · exact slots_scope h.1 p hp
    · exact slots_scope h.2.2 p hp
    · exact h.2.1
  | .silent, _ => intro p hp; cases hp
  | .indexedDep _, _ => intro p hp; cases hp
  | .plain _ _, _ => intro p hp; cases hp

theorem opSlots_nodup (t : Op) : ((opSlots t).map (·.1)).Nodup := by
  cases t with
  | forward n tx ty =>
    rw [opSlots, List.map_append, List.nodup_append]
    refine ⟨slots_fst_nodup (by intro i j h; injection h) _, by simp, ?_⟩
    intro a ha b hb e
    obtain ⟨k, rfl⟩ := slots_fst_mem ha
    simp only [List.map_cons, List.map_nil, List.mem_singleton] at hb
    rw [hb] at e; cases e
  | reverse n tx px py =>
    rw [opSlots, List.map_append, List.map_append, List.nodup_append, List.nodup_append]
    refine ⟨⟨slots_fst_nodup (by intro i j h; injection h) _, slots_fst_nodup (by intro i j h; injection h) _, ?_⟩, by simp, ?_⟩
    · intro a ha b hb e
      obtain ⟨k, rfl⟩ := slots_fst_mem ha
      obtain ⟨k', rfl⟩ := slots_fst_mem hb
      cases e
    · intro a ha b hb e
      simp only [List.map_cons, List.map_nil, List.mem_singleton] at hb
      rw [List.mem_append] at ha
      rcases ha with ha | ha <;> obtain ⟨k, rfl⟩ := slots_fst_mem ha <;> rw [hb] at e <;> cases e
  | _ => simp [opSlots]

theorem op_cache (c : Cache) (t : Op) : (opToks c t).2 = (structInits c (opSlots t)).2 := by
  cases t <;> rfl

/-- one operation -/
theorem op_ok (σ : Sem M L) (t : Op) (sc : Nat) (hk : t.Kinds) (hs : t.InScope sc) (c : Cache) (A : Structs)
    (h : Match sc c A) (m : M) (l : L) (x : M × L) (hx : σ.spec.step t (m, l) = some x) :
    ∃ A', σ.gen.run (Code.ofList (opToks c t).1) (m, l, A) = some (x.1, x.2, A') ∧ Match sc (opToks c t).2 A' ∧
      ∀ s, ¬ Touched [sc] (opToks c t).2 s → A' s = A s := by
  obtain ⟨A', h1, h2, h3, h4⟩ := structInits_ok σ sc m l (opSlots t) c A (opSlots_nodup t) (opSlots_kind hk) (opSlots_scope hs) h
  have h5 : ∀ s, ¬ Touched [sc] (opToks c t).2 s → A' s = A s := by
    intro s hn
    apply h4
    intro hm
    obtain ⟨e, he, hes⟩ := (structInits_cache sc (opSlots t) c (opSlots_scope hs)).2 s hm
    exact hn ⟨e, by rw [op_cache]; exact he, by simp [hes]⟩
  match t, hx, h1, h2, h3, h5 with
  | .silent, hx, h1, h2, h3, h5 =>
    obtain rfl := Option.some.inj hx
    exact ⟨A', h1, h2, h5⟩
  | .indexedDep n, hx, h1, h2, h3, h5 =>
    obtain rfl := Option.some.inj hx
    refine ⟨A, rfl, h, fun _ _ => rfl⟩
  | .plain n k, hx, h1, h2, h3, h5 =>
    obtain rfl := Option.some.inj hx
    refine ⟨A, rfl, h, fun _ _ => rfl⟩
  | .forward n tx ty, hx, h1, h2, h3, h5 =>
    obtain rfl := Option.some.inj hx
    refine ⟨A', ?_, h2, h5⟩
    simp only [opToks, forwardToks]
    simp only [opSlots] at h1
    rw [run_ofList_append, h1, Option.bind_some]
    have hv := mapM_views (opSlots (.forward n tx ty)) A' h3
    simp only [opSlots, List.map_append, List.map_cons, List.map_nil, slots_snd] at hv
    simp only [Code.ofList, Machine.run, Sem.gen, hv, Option.map_some, Option.bind_some]
  | .reverse n tx px py, hx, h1, h2, h3, h5 =>
    obtain rfl := Option.some.inj hx
    refine ⟨A', ?_, h2, h5⟩
    simp only [opToks, reverseToks]
    simp only [opSlots] at h1
    rw [run_ofList_append, h1, Option.bind_some]
    have hv := mapM_views (slots .tx tx ++ [(.px, px)] ++ slots .py py) A' (by
      intro p hp
      apply h3
      simp only [opSlots, List.mem_append, List.mem_singleton] at hp ⊢
      rcases hp with (h | h) | h
      · exact .inl (.inl h)
      · exact .inr h
      · exact .inl (.inr h))
    simp only [List.map_append, List.map_cons, List.map_nil, slots_snd] at hv
    simp only [Code.ofList, Machine.run, Sem.gen, hv, Option.map_some, Option.bind_some]

/-- the cache changes only for structs filled in the scopes of the code -/
def Fill (T : List Nat) (c c' : Cache) : Prop := ∀ s, ¬ Touched T c' s → c' s = c s

theorem Fill.refl (T : List Nat) (c : Cache) : Fill T c c := fun _ _ => rfl

theorem Fill.trans {T U V : List Nat} {c d e : Cache} (h : Fill T c d) (h' : Fill U d e) (hT : ∀ x ∈ T, x ∈ V)
    (hU : ∀ x ∈ U, x ∈ V) : Fill V c e := by
  intro s hn
  have h1 := h' s (fun ht => hn (ht.mono hU))
  rw [h1]
  apply h
  rintro ⟨x, hx, hxs⟩
  exact hn ⟨x, by rw [h1]; exact hx, hT _ hxs⟩

theorem op_fill (c : Cache) (t : Op) (sc : Nat) (hs : t.InScope sc) : Fill [sc] c (opToks c t).2 := by
  intro s hn
  rw [op_cache] at hn ⊢
  obtain ⟨g1, g2⟩ := structInits_cache sc (opSlots t) c (opSlots_scope hs)
  by_cases hm : s ∈ (opSlots t).map (·.1)
  · obtain ⟨e, he, hes⟩ := g2 s hm
    exact absurd ⟨e, he, by simp [hes]⟩ hn
  · exact g1 s hm

mutual
theorem Code.fill : ∀ (d : Code Op) (sc : Nat) (c : Cache), d.All Op.Placed sc →
    Fill (sc :: d.scopes) c (d.trans c).2
  | .nil, sc, c, _ => Fill.refl _ _
  | .one t r, sc, c, h => by
    rw [Code.trans]
    exact (op_fill c t sc h.1.1).trans (Code.fill r sc _ h.2) (by simp [Code.scopes]) (by simp [Code.scopes])
  | .loop k s b r, sc, c, h => by
    rw [Code.trans]
    refine (Code.fill b s c h.1).trans (Code.fill r sc _ h.2) ?_ ?_
    · intro x hx
      simp only [Code.scopes, List.mem_cons, List.mem_append] at hx ⊢
      rcases hx with rfl | hx
      · simp
      · simp [hx]
    · intro x hx
      simp only [Code.scopes, List.mem_cons, List.mem_append] at hx ⊢
      rcases hx with rfl | hx
      · simp
      · simp [hx]
  | .ifs k s b a r, sc, c, h => by
    rw [Code.trans]
    have h1 := (Code.fill b s c h.1).trans (V := s :: (b.scopes ++ a.scopes)) (Alts.fill a _ h.2.1) (by
      intro x hx
      simp only [List.mem_cons, List.mem_append] at hx ⊢
      rcases hx with rfl | hx
      · simp
      · simp [hx]) (by intro x hx; simp [hx])
    refine h1.trans (Code.fill r sc _ h.2.2) ?_ ?_
    · intro x hx
      simp only [Code.scopes, List.mem_cons, List.mem_append] at hx ⊢
      rcases hx with rfl | hx | hx
      · simp
      · simp [hx]
      · simp [hx]
    · intro x hx
      simp only [Code.scopes, List.mem_cons, List.mem_append] at hx ⊢
      rcases hx with rfl | hx
      · simp
      · simp [hx]
theorem Alts.fill : ∀ (d : Alts Op) (c : Cache), d.All Op.Placed → Fill d.scopes c (d.trans c).2
  | .done, c, _ => Fill.refl _ _
  | .els s b, c, h => Code.fill b s c h
  | .elif k s b a, c, h => by
    rw [Alts.trans]
    exact (Code.fill b s c h.1).trans (Alts.fill a _ h.2) (by
      intro x hx
      simp only [Alts.scopes, List.mem_cons, List.mem_append] at hx ⊢
      rcases hx with rfl | hx
      · simp
      · simp [hx]) (by intro x hx; simp [Alts.scopes, hx])
end

/-- nothing was filled in the scopes `T` yet -/
def Fresh (T : List Nat) (c : Cache) : Prop := ∀ s e, c s = some e → e.scope ∉ T

theorem Fresh.after {T U : List Nat} {c c' : Cache} (h : Fresh U c) (hf : Fill T c c') (hd : ∀ x ∈ T, x ∉ U) : Fresh U c' := by
  intro s e he hU
  by_cases ht : Touched T c' s
  · obtain ⟨e', he', hT⟩ := ht
    rw [he, Option.some.injEq] at he'
    subst he'
    exact hd _ hT hU
  · rw [hf s ht] at he
    exact h s e he hU

theorem Fresh.match {T : List Nat} {c : Cache} (h : Fresh T c) {sc : Nat} (hs : sc ∈ T) (A : Structs) : Match sc c A :=
  fun s e he hsc => absurd (hsc ▸ hs) (h s e he)

theorem Match.after {T : List Nat} {c c' : Cache} {A A' : Structs} {sc : Nat} (h : Match sc c A) (hf : Fill T c c')
    (hs : sc ∉ T) (hA : ∀ s, ¬ Touched T c' s → A' s = A s) : Match sc c' A' := by
  intro s e he hsc
  have ht : ¬ Touched T c' s := by
    rintro ⟨e', he', hT⟩
    rw [he, Option.some.injEq] at he'
    subst he'
    exact hs (hsc ▸ hT)
  rw [hA s ht]
  exact h s e (by rw [← hf s ht]; exact he) hsc

theorem iter_ok (σ : Sem M L) (h : Nat) (body : Code Op) (gbody : Code Tok) (Q : Slot → Prop)
    (hb : ∀ (A : Structs) m l, ∃ x A', σ.spec.run body (m, l) = some x ∧ σ.gen.run gbody (m, l, A) = some (x.1, x.2, A') ∧
      ∀ s, Q s → A' s = A s) :
    ∀ (n k : Nat) (A : Structs) (m : M) (l : L), ∃ x A',
      iter (σ.spec.index h) (σ.spec.run body) n k (m, l) = some x ∧
      iter (σ.gen.index h) (σ.gen.run gbody) n k (m, l, A) = some (x.1, x.2, A') ∧ ∀ s, Q s → A' s = A s
  | 0, k, A, m, l => ⟨_, A, rfl, rfl, fun _ _ => rfl⟩
  | n + 1, k, A, m, l => by
    obtain ⟨⟨m1, l1⟩, A1, h1, h2, h3⟩ := hb A m (σ.index h k l)
    obtain ⟨x2, A2, g1, g2, g3⟩ := iter_ok σ h body gbody Q hb n (k + 1) A1 m1 l1
    refine ⟨x2, A2, ?_, ?_, fun s hs => (g3 s hs).trans (h3 s hs)⟩
    · rw [iter]
      show (σ.spec.run body (m, σ.index h k l)).bind _ = _
      rw [h1, Option.bind_some, g1]
    · rw [iter]
      show (σ.gen.run gbody (m, σ.index h k l, A)).bind _ = _
      rw [h2, Option.bind_some, g2]

mutual
theorem Code.run_ok (σ : Sem M L) : ∀ (d : Code Op) (sc : Nat) (c : Cache), d.All Op.Placed sc → (sc :: d.scopes).Nodup →
    Fresh d.scopes c → ∀ (A : Structs), Match sc c A → ∀ (m : M) (l : L), ∃ x A', σ.spec.run d (m, l) = some x ∧
      σ.gen.run (d.trans c).1 (m, l, A) = some (x.1, x.2, A') ∧ Match sc (d.trans c).2 A' ∧
      ∀ s, ¬ Touched (sc :: d.scopes) (d.trans c).2 s → A' s = A s
  | .nil, sc, c, _, _, _, A, h, m, l => ⟨(m, l), A, rfl, rfl, h, fun _ _ => rfl⟩
  | .one t r, sc, c, hp, hn, hf, A, h, m, l => by
    have hstep : ∃ x, σ.spec.step t (m, l) = some x := by cases t <;> exact ⟨_, rfl⟩
    obtain ⟨⟨m1, l1⟩, hx⟩ := hstep
    obtain ⟨A1, a1, a2, a3⟩ := op_ok σ t sc hp.1.2 hp.1.1 c A h m l _ hx
    have hfill := op_fill c t sc hp.1.1
    simp only [Code.scopes] at hn hf
    have hsc : sc ∉ r.scopes := (List.nodup_cons.mp hn).1
    obtain ⟨x2, A2, b1, b2, b3, b4⟩ := Code.run_ok σ r sc (opToks c t).2 hp.2 hn
      (hf.after hfill (by intro x hx; rw [List.mem_singleton] at hx; subst hx; exact hsc)) A1 a2 m1 l1
    refine ⟨x2, A2, ?_, ?_, b3, ?_⟩
    · rw [Machine.run, hx, Option.bind_some, b1]
    · rw [Code.trans, Machine.run_append, a1, Option.bind_some, b2]
    · intro s hs
      rw [Code.trans] at hs
      have h1 := b4 s hs
      have h2 : (r.trans (opToks c t).2).2 s = (opToks c t).2 s := Code.fill r sc _ hp.2 s hs
      rw [h1]
      apply a3
      rintro ⟨e, he, hes⟩
      rw [List.mem_singleton] at hes
      exact hs ⟨e, by rw [h2]; exact he, by simp [hes]⟩
  | .loop k s b r, sc, c, hp, hn, hf, A, h, m, l => by
    simp only [Code.scopes, List.nodup_cons, List.mem_cons, List.mem_append, not_or, List.nodup_append] at hn
    obtain ⟨⟨n1, n2, n3⟩, ⟨n4, n5⟩, n6, n7, n8⟩ := hn
    have hbT : Fresh (s :: b.scopes) c := fun t e he hm => hf t e he (by
      simp only [Code.scopes, List.mem_cons, List.mem_append] at hm ⊢
      rcases hm with hm | hm
      · exact .inl hm
      · exact .inr (.inl hm))
    have hfill := Code.fill b s c hp.1
    obtain ⟨⟨m1, l1⟩, A1, a1, a2, a3⟩ := iter_ok σ k b (b.trans c).1 (fun t => ¬ Touched (s :: b.scopes) (b.trans c).2 t)
      (fun A m l => by
        obtain ⟨x, A', g1, g2, g3, g4⟩ := Code.run_ok σ b s c hp.1 (List.nodup_cons.mpr ⟨n4, n6⟩)
          (fun t e he hm => hbT t e he (List.mem_cons_of_mem _ hm)) A (hbT.match List.mem_cons_self A) m l
        exact ⟨x, A', g1, g2, g4⟩) (σ.count k m l) 0 A m l
    have hm1 : Match sc (b.trans c).2 A1 := h.after hfill (by simp [n1, n2]) a3
    have hf1 : Fresh r.scopes (b.trans c).2 := Fresh.after (fun t e he hm => hf t e he (by
        simp only [Code.scopes, List.mem_cons, List.mem_append]; exact .inr (.inr hm))) hfill (by
      intro x hx hr
      rw [List.mem_cons] at hx
      rcases hx with rfl | hx
      · exact n5 hr
      · exact n8 _ hx _ hr rfl)
    obtain ⟨x2, A2, b1, b2, b3, b4⟩ := Code.run_ok σ r sc (b.trans c).2 hp.2 (List.nodup_cons.mpr ⟨n3, n7⟩) hf1 A1 hm1 m1 l1
    refine ⟨x2, A2, ?_, ?_, b3, ?_⟩
    · rw [Machine.run]
      show (iter _ _ (σ.count k m l) 0 (m, l)).bind _ = _
      rw [a1, Option.bind_some, b1]
    · rw [Code.trans, Machine.run]
      show (iter _ _ (σ.count k m l) 0 (m, l, A)).bind _ = _
      rw [a2, Option.bind_some, b2]
    · intro t ht
      rw [Code.trans] at ht
      have hr : ¬ Touched (sc :: r.scopes) (r.trans (b.trans c).2).2 t := fun hh => ht (hh.mono (by
        intro x hx
        simp only [Code.scopes, List.mem_cons, List.mem_append] at hx ⊢
        rcases hx with rfl | hx
        · simp
        · simp [hx]))
      have h1 := b4 t hr
      have h2 : (r.trans (b.trans c).2).2 t = (b.trans c).2 t := Code.fill r sc _ hp.2 t hr
      rw [h1]
      apply a3
      rintro ⟨e, he, hes⟩
      refine ht ⟨e, by rw [h2]; exact he, ?_⟩
      simp only [Code.scopes, List.mem_cons, List.mem_append] at hes ⊢
      rcases hes with hes | hes
      · simp [hes]
      · simp [hes]
  | .ifs k s b a r, sc, c, hp, hn, hf, A, h, m, l => by
    simp only [Code.scopes, List.nodup_cons, List.mem_cons, List.mem_append, not_or, List.nodup_append] at hn
    obtain ⟨⟨n1, n2, n2', n3⟩, ⟨n4, n4', n5⟩, n6, ⟨n7, n8, n9⟩, n10⟩ := hn
    have hbT : Fresh (s :: b.scopes) c := fun t e he hm => hf t e he (by
      simp only [Code.scopes, List.mem_cons, List.mem_append] at hm ⊢
      rcases hm with hm | hm
      · exact .inl hm
      · exact .inr (.inl hm))
    have hfb := Code.fill b s c hp.1
    have hfa := Alts.fill a (b.trans c).2 hp.2.1
    have haT : Fresh a.scopes (b.trans c).2 := Fresh.after (fun t e he hm => hf t e he (by
        simp only [Code.scopes, List.mem_cons, List.mem_append]; exact .inr (.inr (.inl hm)))) hfb (by
      intro x hx hr
      rw [List.mem_cons] at hx
      rcases hx with rfl | hx
      · exact n4' hr
      · exact n10 _ hx _ (.inl hr) rfl)
    have hfill : Fill (s :: (b.scopes ++ a.scopes)) c (a.trans (b.trans c).2).2 := hfb.trans hfa (by
      intro x hx
      simp only [List.mem_cons, List.mem_append] at hx ⊢
      rcases hx with rfl | hx
      · simp
      · simp [hx]) (by intro x hx; simp [hx])
    have hblock : ∃ x A1, (if σ.spec.cond k (m, l) then σ.spec.run b (m, l) else σ.spec.runAlts a (m, l)) = some x ∧
        (if σ.gen.cond k (m, l, A) then σ.gen.run (b.trans c).1 (m, l, A) else
          σ.gen.runAlts (a.trans (b.trans c).2).1 (m, l, A)) = some (x.1, x.2, A1) ∧
        ∀ t, ¬ Touched (s :: (b.scopes ++ a.scopes)) (a.trans (b.trans c).2).2 t → A1 t = A t := by
      have hcond : σ.gen.cond k (m, l, A) = σ.spec.cond k (m, l) := rfl
      rw [hcond]
      by_cases hc : σ.spec.cond k (m, l) = true
      · obtain ⟨x, A', g1, g2, g3, g4⟩ := Code.run_ok σ b s c hp.1 (List.nodup_cons.mpr ⟨n4, n6⟩)
          (fun t e he hm => hbT t e he (List.mem_cons_of_mem _ hm)) A (hbT.match List.mem_cons_self A) m l
        refine ⟨x, A', by rw [if_pos hc, g1], by rw [if_pos hc, g2], fun t ht => g4 t ?_⟩
        rintro ⟨e, he, hes⟩
        have h2 : (a.trans (b.trans c).2).2 t = (b.trans c).2 t := hfa t (fun hh => ht (hh.mono (by intro x hx; simp [hx])))
        refine ht ⟨e, by rw [h2]; exact he, ?_⟩
        simp only [List.mem_cons, List.mem_append] at hes ⊢
        rcases hes with hes | hes
        · simp [hes]
        · simp [hes]
      · obtain ⟨x, A', g1, g2, g4⟩ := Alts.run_ok σ a (b.trans c).2 hp.2.1 n7 haT A m l
        refine ⟨x, A', by rw [if_neg hc, g1], by rw [if_neg hc, g2], fun t ht => g4 t ?_⟩
        exact fun hh => ht (hh.mono (by intro x hx; simp [hx]))
    obtain ⟨⟨m1, l1⟩, A1, a1, a2, a3⟩ := hblock
    have hm1 : Match sc (a.trans (b.trans c).2).2 A1 := h.after hfill (by simp [n1, n2, n2']) a3
    have hf1 : Fresh r.scopes (a.trans (b.trans c).2).2 := Fresh.after (fun t e he hm => hf t e he (by
        simp only [Code.scopes, List.mem_cons, List.mem_append]; exact .inr (.inr (.inr hm)))) hfill (by
      intro x hx hr
      rw [List.mem_cons, List.mem_append] at hx
      rcases hx with rfl | hx | hx
      · exact n5 hr
      · exact n10 _ hx _ (.inr hr) rfl
      · exact n9 _ hx _ hr rfl)
    obtain ⟨x2, A2, b1, b2, b3, b4⟩ := Code.run_ok σ r sc _ hp.2.2 (List.nodup_cons.mpr ⟨n3, n8⟩) hf1 A1 hm1 m1 l1
    refine ⟨x2, A2, ?_, ?_, b3, ?_⟩
    · rw [Machine.run, a1, Option.bind_some, b1]
    · rw [Code.trans, Machine.run, a2, Option.bind_some, b2]
    · intro t ht
      rw [Code.trans] at ht
      have hr : ¬ Touched (sc :: r.scopes) (r.trans (a.trans (b.trans c).2).2).2 t := fun hh => ht (hh.mono (by
        intro x hx
        simp only [Code.scopes, List.mem_cons, List.mem_append] at hx ⊢
        rcases hx with rfl | hx
        · simp
        · simp [hx]))
      have h1 := b4 t hr
      have h2 : (r.trans (a.trans (b.trans c).2).2).2 t = (a.trans (b.trans c).2).2 t := Code.fill r sc _ hp.2.2 t hr
      rw [h1]
      apply a3
      rintro ⟨e, he, hes⟩
      refine ht ⟨e, by rw [h2]; exact he, ?_⟩
      simp only [Code.scopes, List.mem_cons, List.mem_append] at hes ⊢
      rcases hes with hes | hes | hes <;> simp [hes]
theorem Alts.run_ok (σ : Sem M L) : ∀ (d : Alts Op) (c : Cache), d.All Op.Placed → d.scopes.Nodup →
    Fresh d.scopes c → ∀ (A : Structs) (m : M) (l : L), ∃ x A', σ.spec.runAlts d (m, l) = some x ∧
      σ.gen.runAlts (d.trans c).1 (m, l, A) = some (x.1, x.2, A') ∧
      ∀ s, ¬ Touched d.scopes (d.trans c).2 s → A' s = A s
  | .done, c, _, _, _, A, m, l => ⟨(m, l), A, rfl, rfl, fun _ _ => rfl⟩
  | .els s b, c, hp, hn, hf, A, m, l => by
    obtain ⟨x, A', g1, g2, g3, g4⟩ := Code.run_ok σ b s c hp hn (fun t e he hm => hf t e he (List.mem_cons_of_mem _ hm)) A
      (hf.match List.mem_cons_self A) m l
    exact ⟨x, A', by rw [Machine.runAlts, g1], by rw [Alts.trans, Machine.runAlts, g2], g4⟩
  | .elif k s b a, c, hp, hn, hf, A, m, l => by
    simp only [Alts.scopes, List.nodup_cons, List.mem_append, not_or, List.nodup_append] at hn
    obtain ⟨⟨n4, n4'⟩, n6, n7, n10⟩ := hn
    have hbT : Fresh (s :: b.scopes) c := fun t e he hm => hf t e he (by
      simp only [Alts.scopes, List.mem_cons, List.mem_append] at hm ⊢
      rcases hm with hm | hm
      · exact .inl hm
      · exact .inr (.inl hm))
    have hfb := Code.fill b s c hp.1
    have hfa := Alts.fill a (b.trans c).2 hp.2
    have haT : Fresh a.scopes (b.trans c).2 := Fresh.after (fun t e he hm => hf t e he (by
        simp only [Alts.scopes, List.mem_cons, List.mem_append]; exact .inr (.inr hm))) hfb (by
      intro x hx hr
      rw [List.mem_cons] at hx
      rcases hx with rfl | hx
      · exact n4' hr
      · exact n10 _ hx _ hr rfl)
    have hcond : σ.gen.cond k (m, l, A) = σ.spec.cond k (m, l) := rfl
    rw [Alts.trans, Machine.runAlts, Machine.runAlts, hcond]
    by_cases hc : σ.spec.cond k (m, l) = true
    · obtain ⟨x, A', g1, g2, g3, g4⟩ := Code.run_ok σ b s c hp.1 (List.nodup_cons.mpr ⟨n4, n6⟩)
        (fun t e he hm => hbT t e he (List.mem_cons_of_mem _ hm)) A (hbT.match List.mem_cons_self A) m l
      refine ⟨x, A', by rw [if_pos hc, g1], by rw [if_pos hc, g2], fun t ht => g4 t ?_⟩
      rintro ⟨e, he, hes⟩
      have h2 : (a.trans (b.trans c).2).2 t = (b.trans c).2 t :=
        hfa t (fun hh => ht (hh.mono (by intro x hx; simp [Alts.scopes, hx])))
      refine ht ⟨e, by rw [h2]; exact he, ?_⟩
      simp only [Alts.scopes, List.mem_cons, List.mem_append] at hes ⊢
      rcases hes with hes | hes
      · simp [hes]
      · simp [hes]
    · obtain ⟨x, A', g1, g2, g4⟩ := Alts.run_ok σ a (b.trans c).2 hp.2 n7 haT A m l
      refine ⟨x, A', by rw [if_neg hc, g1], by rw [if_neg hc, g2], fun t ht => g4 t ?_⟩
      exact fun hh => ht (hh.mono (by intro x hx; simp [Alts.scopes, hx]))
end

end Verif.Funcs
