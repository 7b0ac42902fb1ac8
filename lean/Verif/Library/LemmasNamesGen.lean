import Verif.Library.LemmasNames

/-
Lemmas on the generation of source code with calls of atomic functions.
-/
namespace Verif.Library.Names

structure TabOk (t : Tab) : Prop where
  nodup : t.order.Nodup
  index : ∀ nm i, find t.index nm = some i ↔ t.order[i]? = some nm
  lenF : t.maxF.length = t.order.length
  lenR : t.maxR.length = t.order.length

theorem tabOk_start {l : List Name} (h : l.Nodup) : TabOk (Tab.start l) :=
  ⟨h, start_index h, by simp [Tab.start], by simp [Tab.start]⟩

/-! ### highest orders -/

theorem foldl_max_ge (l : List Int) (a : Int) : a ≤ l.foldl max a := by
  induction l generalizing a with
  | nil => exact Int.le_refl _
  | cons x l ih => exact Int.le_trans (by omega) (ih (max a x))

theorem foldl_max_mem (l : List Int) (a : Int) {x : Int} (h : x ∈ l) : x ≤ l.foldl max a := by
  induction l generalizing a with
  | nil => cases h
  | cons y l ih =>
    rcases List.mem_cons.1 h with rfl | h
    · exact Int.le_trans (by omega) (foldl_max_ge l (max a x))
    · exact ih (max a y) h

theorem foldl_max_le (l : List Int) (a b : Int) (ha : a ≤ b) (h : ∀ x ∈ l, x ≤ b) : l.foldl max a ≤ b := by
  induction l generalizing a with
  | nil => exact ha
  | cons y l ih => exact ih (max a y) (by have := h y (by simp); omega) fun x hx => h x (by simp [hx])

theorem highest_mono {l l' : List Int} (h : ∀ x ∈ l, ∃ y ∈ l', x ≤ y) : highest l ≤ highest l' :=
  foldl_max_le l _ _ (foldl_max_ge l' _) fun x hx => by
    obtain ⟨y, hy, hle⟩ := h x hx
    exact Int.le_trans hle (foldl_max_mem l' _ hy)

theorem highest_append (l : List Int) : highest (l ++ [-1]) = highest l := by
  have h := foldl_max_ge l (-1)
  simp only [highest, List.foldl_append, List.foldl_cons, List.foldl_nil]
  omega

theorem highest_modify_ge (l : List Int) (i : Nat) (p : Int) : highest l ≤ highest (l.modify i (max · p)) := by
  apply highest_mono
  intro x hx
  obtain ⟨j, hj, rfl⟩ := List.getElem_of_mem hx
  refine ⟨(l.modify i (max · p))[j]'(by simpa using hj), List.getElem_mem _, ?_⟩
  rw [List.getElem_modify]
  split <;> omega

theorem highest_modify_new (l : List Int) (i : Nat) (p : Int) (hi : i < l.length) : p ≤ highest (l.modify i (max · p)) := by
  have : (l.modify i (max · p))[i]'(by simpa using hi) ∈ l.modify i (max · p) := List.getElem_mem _
  refine Int.le_trans ?_ (foldl_max_mem _ _ this)
  rw [List.getElem_modify]
  simp only [if_true]
  omega

/-! ### calls found in the graph -/

/-- what happened between two tables -/
structure Grow (m : List Fun) (t t' : Tab) (cs : List Call) : Prop where
  pre : t.order <+: t'.order
  mem : ∀ nm, nm ∈ t'.order ↔ nm ∈ t.order ∨ ∃ c ∈ cs, ∃ f ∈ m, f.id = c.id ∧ f.name = nm
  fwd : highest t.maxF ≤ highest t'.maxF
  rev : highest t.maxR ≤ highest t'.maxR
  fwdNew : ∀ c ∈ cs, c.reverse = false → (c.p : Int) ≤ highest t'.maxF
  revNew : ∀ c ∈ cs, c.reverse = true → (c.p : Int) ≤ highest t'.maxR

theorem visit_some {m : List Fun} (hs : Sorted m) {t t' : Tab} {c : Call} (ht : TabOk t) (h : t.visit m c = some t') :
    TabOk t' ∧ Grow m t t' [c] := by
  unfold Tab.visit at h
  rcases hf : atId m c.id with _ | f
  · rw [hf] at h; cases h
  · obtain ⟨hfm, hfi⟩ := (atId_some hs).1 hf
    have huniq : ∀ nm, (∃ c' ∈ [c], ∃ f' ∈ m, f'.id = c'.id ∧ f'.name = nm) ↔ f.name = nm := by
      intro nm
      constructor
      · rintro ⟨c', hc', f', hf', e, rfl⟩
        obtain rfl : c' = c := by simpa using hc'
        rw [sorted_unique hs hf' hfm (e.trans hfi.symm)]
      · rintro rfl; exact ⟨c, by simp, f, hfm, hfi, rfl⟩
    rw [hf] at h
    simp only at h
    -- the table with the name in it
    have key : ∀ (t1 : Tab) (pos : Nat), TabOk t1 → t.order <+: t1.order → (∀ nm, nm ∈ t1.order ↔ nm ∈ t.order ∨ f.name = nm) →
        highest t.maxF = highest t1.maxF → highest t.maxR = highest t1.maxR → pos < t1.order.length →
        (if c.reverse then some { t1 with maxR := t1.maxR.modify pos (max · c.p) }
          else some { t1 with maxF := t1.maxF.modify pos (max · c.p) }) = some t' → TabOk t' ∧ Grow m t t' [c] := by
      intro t1 pos h1 hpre hmem hF hR hpos he
      split at he
      · rename_i hr
        cases he
        refine ⟨⟨h1.nodup, h1.index, h1.lenF, by simp [h1.lenR]⟩, hpre, fun nm => by rw [huniq]; exact hmem nm, Int.le_of_eq hF, ?_, ?_, ?_⟩
        · have := highest_modify_ge t1.maxR pos c.p; simp only; omega
        · intro c' hc' hr'
          obtain rfl : c' = c := by simpa using hc'
          rw [hr] at hr'; cases hr'
        · intro c' hc' _
          obtain rfl : c' = c := by simpa using hc'
          exact highest_modify_new _ _ _ (by rw [h1.lenR]; exact hpos)
      · rename_i hr
        cases he
        refine ⟨⟨h1.nodup, h1.index, by simp [h1.lenF], h1.lenR⟩, hpre, fun nm => by rw [huniq]; exact hmem nm, ?_, Int.le_of_eq hR, ?_, ?_⟩
        · have := highest_modify_ge t1.maxF pos c.p; simp only; omega
        · intro c' hc' _
          obtain rfl : c' = c := by simpa using hc'
          exact highest_modify_new _ _ _ (by rw [h1.lenF]; exact hpos)
        · intro c' hc' hr'
          obtain rfl : c' = c := by simpa using hc'
          exact absurd hr' hr
    rcases hi : find t.index f.name with _ | pos
    · rw [hi] at h
      simp only at h
      have hnot : f.name ∉ t.order := by
        intro hin
        obtain ⟨i, hlt, e⟩ := List.getElem_of_mem hin
        have := (ht.index f.name i).2 (by rw [List.getElem?_eq_some_iff]; exact ⟨hlt, e⟩)
        rw [hi] at this; cases this
      refine key { order := t.order ++ [f.name], index := (f.name, t.order.length) :: t.index, maxF := t.maxF ++ [-1], maxR := t.maxR ++ [-1] }
        t.order.length ⟨?_, ?_, ?_, ?_⟩ (List.prefix_append _ _) ?_ (highest_append _).symm (highest_append _).symm ?_ h
      · rw [List.nodup_append]
        refine ⟨ht.nodup, by simp, ?_⟩
        intro a ha b hb
        obtain rfl : b = f.name := by simpa using hb
        rintro rfl
        exact hnot ha
      · intro nm i
        simp only [find_cons]
        split
        · rename_i e
          subst e
          rw [Option.some_inj]
          constructor
          · rintro rfl; simp
          · intro hh
            rcases Nat.lt_or_ge i t.order.length with hlt | hge
            · rw [List.getElem?_append_left hlt] at hh
              exact absurd (List.mem_of_getElem? hh) hnot
            · have := (List.getElem?_eq_some_iff.1 hh).1
              simp at this
              omega
        · rename_i hne
          rw [ht.index]
          constructor
          · intro hh
            rw [List.getElem?_append_left (List.getElem?_eq_some_iff.1 hh).1, hh]
          · intro hh
            rcases Nat.lt_or_ge i t.order.length with hlt | hge
            · rwa [List.getElem?_append_left hlt] at hh
            · have h1 := (List.getElem?_eq_some_iff.1 hh).1
              simp at h1
              obtain rfl : i = t.order.length := by omega
              simp at hh
              exact absurd hh hne
      · simp [ht.lenF]
      · simp [ht.lenR]
      · intro nm; simp [eq_comm]
      · simp
    · rw [hi] at h
      simp only at h
      have hg := (ht.index _ _).1 hi
      refine key t pos ht (List.prefix_refl _) ?_ rfl rfl (List.getElem?_eq_some_iff.1 hg).1 h
      intro nm
      constructor
      · exact Or.inl
      · rintro (h | rfl)
        · exact h
        · exact List.mem_of_getElem? hg

theorem visitAll_some {m : List Fun} (hs : Sorted m) {t t' : Tab} {cs : List Call} (ht : TabOk t) (h : t.visitAll m cs = some t') :
    TabOk t' ∧ Grow m t t' cs := by
  induction cs generalizing t with
  | nil =>
    cases h
    exact ⟨ht, List.prefix_refl _, by simp, Int.le_refl _, Int.le_refl _, by simp, by simp⟩
  | cons c cs ih =>
    simp only [Tab.visitAll] at h
    rcases h1 : t.visit m c with _ | t1
    · rw [h1] at h; cases h
    · rw [h1] at h
      obtain ⟨ht1, g1⟩ := visit_some hs ht h1
      obtain ⟨ht', g2⟩ := ih ht1 h
      refine ⟨ht', g1.pre.trans g2.pre, ?_, Int.le_trans g1.fwd g2.fwd, Int.le_trans g1.rev g2.rev, ?_, ?_⟩
      · intro nm
        rw [g2.mem, g1.mem]
        simp only [List.mem_cons, List.not_mem_nil, or_false, exists_eq_left, exists_eq_or_imp, or_assoc]
      · intro c' hc' hr
        rcases List.mem_cons.1 hc' with rfl | hc'
        · exact Int.le_trans (g1.fwdNew _ (by simp) hr) g2.fwd
        · exact g2.fwdNew c' hc' hr
      · intro c' hc' hr
        rcases List.mem_cons.1 hc' with rfl | hc'
        · exact Int.le_trans (g1.revNew _ (by simp) hr) g2.rev
        · exact g2.revNew c' hc' hr

theorem visit_isSome (m : List Fun) (hs : Sorted m) (t : Tab) (c : Call) : (t.visit m c).isSome = true ↔ ∃ f ∈ m, f.id = c.id := by
  unfold Tab.visit
  rcases hf : atId m c.id with _ | f
  · simp only [Option.isSome_none, Bool.false_eq_true, false_iff]
    rintro ⟨f, hm, e⟩
    rw [(atId_some hs).2 ⟨hm, e⟩] at hf
    cases hf
  · obtain ⟨hfm, hfi⟩ := (atId_some hs).1 hf
    simp only
    constructor
    · intro _; exact ⟨f, hfm, hfi⟩
    · intro _; split <;> rfl

theorem visitAll_isSome (m : List Fun) (hs : Sorted m) (t : Tab) (cs : List Call) :
    (t.visitAll m cs).isSome = true ↔ ∀ c ∈ cs, ∃ f ∈ m, f.id = c.id := by
  induction cs generalizing t with
  | nil => simp [Tab.visitAll]
  | cons c cs ih =>
    simp only [Tab.visitAll, List.mem_cons, forall_eq_or_imp]
    have h1 := visit_isSome m hs t c
    rcases h : t.visit m c with _ | t1
    · rw [h] at h1
      simp only [Option.bind_none, Option.isSome_none, Bool.false_eq_true, false_iff] at h1 ⊢
      exact fun hh => h1 hh.1
    · rw [h] at h1
      rw [Option.bind_some, ih]
      exact ⟨fun hh => ⟨h1.1 rfl, hh⟩, fun hh => hh.2⟩

/-! ### printed calls -/

theorem printCalls_some {ix : List (Nat × Nat)} {cs : List Call} {l : List (Nat × Call)} (h : printCalls ix cs = some l) :
    l.map (·.2) = cs ∧ ∀ x ∈ l, find ix x.2.id = some x.1 := by
  induction cs generalizing l with
  | nil => cases h; simp
  | cons c cs ih =>
    simp only [printCalls] at h
    rcases hi : find ix c.id with _ | i
    · simp [hi] at h
    · rcases hl : printCalls ix cs with _ | l'
      · simp [hi, hl] at h
      · simp [hi, hl] at h
        subst h
        obtain ⟨h1, h2⟩ := ih hl
        refine ⟨by simp [h1], ?_⟩
        intro x hx
        rcases List.mem_cons.1 hx with rfl | hx
        · exact hi
        · exact h2 x hx

theorem printCalls_isSome (ix : List (Nat × Nat)) (cs : List Call) :
    (printCalls ix cs).isSome = true ↔ ∀ c ∈ cs, ∃ i, find ix c.id = some i := by
  induction cs with
  | nil => simp [printCalls]
  | cons c cs ih =>
    simp only [printCalls, List.mem_cons, forall_eq_or_imp, ← ih]
    rcases hi : find ix c.id with _ | i <;> rcases hl : printCalls ix cs with _ | l' <;> simp

/-! ### one function -/

theorem declare_enough {m : List Fun} {t t' : Tab} {cs : List Call} (g : Grow m t t' cs) {c : Call} (hc : c ∈ cs) : (declare t').Enough c := by
  have hf := g.fwdNew c hc
  have hr := g.revNew c hc
  have hp : (0 : Int) ≤ c.p := Int.natCast_nonneg _
  simp only [declare]
  rcases hrev : c.reverse with _ | _
  · have hf := hf hrev
    have : highest t'.maxF ≥ 0 := by omega
    rw [if_pos (Or.inl this)]
    refine ⟨fun k hk => ?_, fun _ => by simpa using this, fun h => by rw [hrev] at h; cases h⟩
    simp only
    omega
  · have hr := hr hrev
    have : highest t'.maxR ≥ 0 := by omega
    rw [if_pos (Or.inr this)]
    refine ⟨fun k hk => ?_, (fun h => by rw [hrev] at h; cases h), fun _ => ⟨by simpa using this, fun k hk => ?_⟩⟩
    · simp only
      omega
    · simp only [if_pos this]
      omega

/-- what the source of a function has to do with a table of names -/
structure SrcOk (names : List Name) (g : Gen) (src : Source) : Prop where
  printed : src.calls.map (·.2) = g.printed
  names : ∀ x ∈ src.calls, ∃ nm, names[x.1]? = some nm ∧ g.CallsName x.2 nm
  decls : ∀ c ∈ g.printed, src.decls.Enough c

theorem generate_some {order o : List Name} {g : Gen} {src : Source} (hn : order.Nodup) (hg : g.Ok) (h : generate order g = some (o, src)) :
    o.Nodup ∧ order <+: o ∧ (∀ nm, nm ∈ o ↔ nm ∈ order ∨ ∃ c ∈ g.found, g.CallsName c nm) ∧ SrcOk o g src := by
  simp only [generate] at h
  rcases hm : registerAll [] g.funs with _ | m
  · simp [hm] at h
  rcases hv : (Tab.start order).visitAll m g.found with _ | t
  · simp [hm, hv] at h
  rcases hc : printCalls (id2Index m t.order) g.printed with _ | l
  · simp [hm, hv, hc] at h
  simp only [hm, hv, hc, Option.bind_eq_bind, Option.bind_some, Option.pure_def, Option.some_inj, Prod.mk.injEq] at h
  obtain ⟨rfl, rfl⟩ := h
  have hs : Sorted m := registerAll_sorted List.Pairwise.nil hm
  have hmem := registerAll_mem (by simpa using hg.objects) hm
  obtain ⟨ht, gr⟩ := visitAll_some hs (tabOk_start hn) hv
  have hcn : ∀ c nm, (∃ f ∈ m, f.id = c.id ∧ f.name = nm) ↔ g.CallsName c nm := by
    intro c nm; simp [Gen.CallsName, hmem]
  obtain ⟨h1, h2⟩ := printCalls_some hc
  refine ⟨ht.nodup, gr.pre, ?_, h1, ?_, fun c hc => declare_enough gr (hg.found c hc)⟩
  · intro nm
    rw [gr.mem]
    simp only [hcn]
    rfl
  · intro x hx
    obtain ⟨nm, hnm, hid⟩ := (find_id2Index hs ht.nodup _ _).1 (h2 x hx)
    obtain ⟨f, hf, e, e', -⟩ := (find_name2Id hs _ _).1 hid
    exact ⟨nm, hnm, (hcn _ _).1 ⟨f, hf, e', e⟩⟩

theorem generate_isSome {order : List Name} {g : Gen} (hn : order.Nodup) (hg : g.Ok) : (generate order g).isSome = true ↔ g.Possible := by
  simp only [generate]
  have hr := registerAll_isSome (m := []) (fs := g.funs) List.Pairwise.nil (by simpa using hg.objects)
  simp only [List.nil_append] at hr
  rcases hm : registerAll [] g.funs with _ | m
  · rw [hm] at hr
    simp only [Option.bind_eq_bind, Option.bind_none, Option.isSome_none, Bool.false_eq_true, false_iff] at hr ⊢
    exact fun h => hr h.1
  have hs : Sorted m := registerAll_sorted List.Pairwise.nil hm
  have hmem := registerAll_mem (by simpa using hg.objects) hm
  simp only [List.not_mem_nil, false_or] at hmem
  rw [hm] at hr
  have hids := hr.1 rfl
  have hv' := visitAll_isSome m hs (Tab.start order) g.found
  rcases hv : (Tab.start order).visitAll m g.found with _ | t
  · rw [hv] at hv'
    simp only [Option.isSome_none, Bool.false_eq_true, false_iff, hmem] at hv'
    simp only [Option.bind_eq_bind, Option.bind_some, hv, Option.bind_none, Option.isSome_none, Bool.false_eq_true, false_iff]
    exact fun h => hv' h.2.1
  rw [hv] at hv'
  have hfound := hv'.1 rfl
  obtain ⟨ht, gr⟩ := visitAll_some hs (tabOk_start hn) hv
  have hp := printCalls_isSome (id2Index m t.order) g.printed
  have hlast : (∀ c ∈ g.printed, ∃ i, find (id2Index m t.order) c.id = some i) ↔
      ∀ c ∈ g.printed, ∀ f ∈ g.funs, f.id = c.id → ∀ f' ∈ g.funs, f'.name = f.name → f'.id ≤ f.id := by
    constructor
    · intro h c hc f hf e f' hf' e'
      obtain ⟨i, hi⟩ := h c hc
      obtain ⟨nm, -, hid⟩ := (find_id2Index hs ht.nodup _ _).1 hi
      obtain ⟨f2, hf2, e2, e3, hmax⟩ := (find_name2Id hs _ _).1 hid
      have : f2 = f := sorted_unique hs hf2 ((hmem f).2 hf) (e3.trans e.symm)
      subst this
      have := hmax f' ((hmem f').2 hf') (e'.trans e2)
      omega
    · intro h c hc
      obtain ⟨f, hf, e⟩ := hfound c (hg.found c hc)
      have hin : f.name ∈ t.order := (gr.mem _).2 (Or.inr ⟨c, hg.found c hc, f, hf, e, rfl⟩)
      obtain ⟨i, hlt, hi⟩ := List.getElem_of_mem hin
      refine ⟨i, (find_id2Index hs ht.nodup _ _).2 ⟨f.name, by rw [List.getElem?_eq_some_iff]; exact ⟨hlt, hi⟩, ?_⟩⟩
      refine (find_name2Id hs _ _).2 ⟨f, hf, rfl, e, fun g' hg' e' => ?_⟩
      have := h c hc f ((hmem f).1 hf) e g' ((hmem g').1 hg') e'
      omega
  rcases hc : printCalls (id2Index m t.order) g.printed with _ | l
  · rw [hc] at hp
    simp only [Option.isSome_none, Bool.false_eq_true, false_iff, hlast] at hp
    simp only [Option.bind_eq_bind, Option.bind_some, hv, hc, Option.bind_none, Option.isSome_none, Bool.false_eq_true, false_iff]
    exact fun h => hp h.2.2
  · rw [hc] at hp
    simp only [Option.bind_eq_bind, Option.bind_some, hv, hc, Option.pure_def, Option.isSome_some, true_iff]
    exact ⟨hids, by simpa [hmem] using hfound, hlast.1 (hp.1 rfl)⟩

/-! ### all functions -/

theorem srcOk_prefix {o o' : List Name} {g : Gen} {src : Source} (hp : o <+: o') (h : SrcOk o g src) : SrcOk o' g src := by
  refine ⟨h.printed, fun x hx => ?_, h.decls⟩
  obtain ⟨nm, hnm, hc⟩ := h.names x hx
  obtain ⟨r, rfl⟩ := hp
  exact ⟨nm, by rw [List.getElem?_append_left (List.getElem?_eq_some_iff.1 hnm).1, hnm], hc⟩

theorem generateAll_some {order o : List Name} {gs : List Gen} {ss : List Source} (hn : order.Nodup) (hg : ∀ g ∈ gs, g.Ok)
    (h : generateAll order gs = some (o, ss)) :
    o.Nodup ∧ order <+: o ∧ (∀ nm, nm ∈ o ↔ nm ∈ order ∨ Uses gs nm) ∧ List.Forall₂ (SrcOk o) gs ss := by
  induction gs generalizing order ss with
  | nil =>
    cases h
    exact ⟨hn, List.prefix_refl _, by simp [Uses], .nil⟩
  | cons g gs ih =>
    simp only [generateAll] at h
    rcases h1 : generate order g with _ | ⟨o1, s1⟩
    · simp [h1] at h
    rcases h2 : generateAll o1 gs with _ | ⟨o2, s2⟩
    · simp [h1, h2] at h
    simp only [h1, h2, Option.bind_eq_bind, Option.bind_some, Option.pure_def, Option.some_inj, Prod.mk.injEq] at h
    obtain ⟨rfl, rfl⟩ := h
    obtain ⟨n1, p1, m1, k1⟩ := generate_some hn (hg g (by simp)) h1
    obtain ⟨n2, p2, m2, k2⟩ := ih n1 (fun g hg' => hg g (by simp [hg'])) h2
    refine ⟨n2, p1.trans p2, ?_, .cons (srcOk_prefix p2 k1) k2⟩
    intro nm
    rw [m2, m1, or_assoc]
    simp only [Uses, List.mem_cons, exists_eq_or_imp]

theorem generateAll_isSome {order : List Name} {gs : List Gen} (hn : order.Nodup) (hg : ∀ g ∈ gs, g.Ok) :
    (generateAll order gs).isSome = true ↔ ∀ g ∈ gs, g.Possible := by
  induction gs generalizing order with
  | nil => simp [generateAll]
  | cons g gs ih =>
    simp only [generateAll, List.mem_cons, forall_eq_or_imp]
    have hh := generate_isSome hn (hg g (by simp))
    rcases h1 : generate order g with _ | ⟨o1, s1⟩
    · rw [h1] at hh
      simp only [Option.isSome_none, Bool.false_eq_true, false_iff] at hh
      simp only [Option.bind_eq_bind, Option.bind_none, Option.isSome_none, Bool.false_eq_true, false_iff]
      exact fun h => hh h.1
    · obtain ⟨n1, -, -, -⟩ := generate_some hn (hg g (by simp)) h1
      have := ih n1 (fun g hg' => hg g (by simp [hg']))
      rw [h1] at hh
      rcases h2 : generateAll o1 gs with _ | ⟨o2, s2⟩
      · rw [h2] at this
        simp only [Option.bind_eq_bind, Option.bind_some, h2, Option.bind_none, Option.isSome_none, Bool.false_eq_true, false_iff] at this ⊢
        exact fun h => this h.2
      · rw [h2] at this
        simp only [Option.bind_eq_bind, Option.bind_some, h2, Option.pure_def, Option.isSome_some, true_iff] at this ⊢
        exact ⟨hh.1 rfl, this⟩

/-! ### the text -/

theorem readNames_str {nm : Name} (hp : Plain nm) (r : List Char) (acc : List Name) (cs : List Char) :
    readNames (.str r) acc (nm ++ '"' :: cs) = readNames .after ((r.reverse ++ nm) :: acc) cs := by
  induction nm generalizing r with
  | nil => simp [readNames]
  | cons c nm ih =>
    have hc := hp c (by simp)
    simp only [List.cons_append, readNames, hc.1, hc.2.1, hc.2.2, if_false]
    rw [ih fun c hc => hp c (by simp [hc])]
    simp

theorem readNames_items {l : List Name} (hp : ∀ nm ∈ l, Plain nm) (acc : List Name) :
    readNames .after acc (printNames.items false l ++ ['}']) = some (acc.reverse ++ l) := by
  induction l generalizing acc with
  | nil => simp [printNames.items, readNames]
  | cons nm l ih =>
    simp only [printNames.items, Bool.false_eq_true, if_false, List.cons_append, List.nil_append, List.append_assoc]
    simp only [readNames]
    simp only [show (',' : Char) = ',' from rfl, show ((' ' : Char) = '"') = False by decide, if_true, if_false]
    rw [readNames_str (hp nm (by simp)), ih fun n hn => hp n (by simp [hn])]
    simp

theorem readNames_printNames {l : List Name} (hp : ∀ nm ∈ l, Plain nm) : readNames .begin [] (printNames l) = some l := by
  rcases l with _ | ⟨nm, l⟩
  · decide
  · simp only [printNames, printNames.items, if_true, List.cons_append, List.nil_append, List.append_assoc, readNames]
    rw [readNames_str (hp nm (by simp)), readNames_items fun n hn => hp n (by simp [hn])]
    simp

theorem compile_some {gs : List Gen} {lib : Lib} (hg : ∀ g ∈ gs, g.Ok) (hp : ∀ nm, Uses gs nm → Plain nm) (h : compile gs = some lib) :
    lib.names.Nodup ∧ (∀ nm, nm ∈ lib.names ↔ Uses gs nm) ∧ List.Forall₂ (SrcOk lib.names) gs lib.code := by
  simp only [compile] at h
  rcases ha : generateAll [] gs with _ | ⟨o, ss⟩
  · simp [ha] at h
  obtain ⟨h1, -, h3, h4⟩ := generateAll_some List.nodup_nil hg ha
  simp only [List.not_mem_nil, false_or] at h3
  simp only [ha, Option.bind_eq_bind, Option.bind_some, readNames_printNames fun nm hnm => hp nm ((h3 nm).1 hnm), Option.pure_def,
    Option.some_inj] at h
  subst h
  exact ⟨h1, h3, h4⟩

theorem compile_isSome {gs : List Gen} (hg : ∀ g ∈ gs, g.Ok) (hp : ∀ nm, Uses gs nm → Plain nm) :
    (compile gs).isSome = true ↔ ∀ g ∈ gs, g.Possible := by
  rw [← generateAll_isSome List.nodup_nil hg]
  simp only [compile]
  rcases ha : generateAll [] gs with _ | ⟨o, ss⟩
  · simp
  · obtain ⟨h1, -, h3, h4⟩ := generateAll_some List.nodup_nil hg ha
    simp only [List.not_mem_nil, false_or] at h3
    simp [readNames_printNames fun nm hnm => hp nm ((h3 nm).1 hnm)]

end Verif.Library.Names
