import Verif.Patterns.Lemmas
import Mathlib.Data.List.Forall2
/- The loops over the candidates. -/
namespace Verif.Patterns

variable {V K : Type} [DecidableEq K]

/-- the colors before a comparison -/
def Colors.Ok (c : Colors) : Prop := ∀ i, c.color i < c.min

/-- the dependent is not an independent variable -/
def Fine (G : Graph V) (deps : Nat → Dep V) (d : Nat) : Prop := ∀ i, deps d = .node i → (G i).op ≠ .inv

theorem shape_node_ne_par (key : V → K) {G : Graph V} (hG : Acyclic G) (hA : AliasOk G) (i : Nat) (k : K) :
    shape key G i ≠ .par k := by
  intro he
  by_cases hj : (G i).op = .inv
  · rw [shape_inv key hj] at he; cases he
  · obtain ⟨i', _, _, h3, h4⟩ := skip_ok key hG hA (i + 1) i (by omega) hj
    rw [← h4, shape_bare key hG h3] at he
    cases he

theorem testAdd_ok (key : V → K) {G : Graph V} (hG : Acyclic G) (hA : AliasOk G) (deps : Nat → Dep V) (e : Eqn)
    (c : Colors) (d : Nat) (hc : c.Ok) (he : e.cst = fun _ _ => false) (hf : Fine G deps e.ref) :
    ∃ b e' c', testAdd key G deps e c d = some (b, e', c') ∧ c'.Ok ∧ e'.cst = e.cst ∧ e'.ref = e.ref ∧
      (b = true ↔ depShape key G (deps d) = depShape key G (deps e.ref)) ∧
      e'.deps = (if b then e.deps ++ [d] else e.deps) := by
  cases hr : deps e.ref with
  | par v =>
    cases hs : deps d with
    | par v' =>
      by_cases hv : key v = key v'
      · exact ⟨true, { e with deps := e.deps ++ [d] }, c, by simp [testAdd, hr, hs, hv], hc, rfl, rfl, by simp [depShape, hv], rfl⟩
      · exact ⟨false, e, c, by simp [testAdd, hr, hs, hv], hc, rfl, rfl, by
          simp only [Bool.false_eq_true, depShape, Shape.par.injEq, false_iff]
          exact fun h => hv h.symm, rfl⟩
    | node s =>
      exact ⟨false, e, c, by simp [testAdd, hr, hs], hc, rfl, rfl, by
        simp only [Bool.false_eq_true, depShape, false_iff]
        exact shape_node_ne_par key hG hA s _, rfl⟩
  | node r =>
    cases hs : deps d with
    | par v' =>
      exact ⟨false, e, c, by simp [testAdd, hr, hs], hc, rfl, rfl, by
        simp only [Bool.false_eq_true, depShape, false_iff]
        exact fun h => shape_node_ne_par key hG hA r _ h.symm, rfl⟩
    | node s =>
      obtain ⟨b, st, h1, h2, h3, h4, _⟩ := comparePath_ok key hG hA e.ref d c.min (r + 1) r s (fun _ _ => False)
        ⟨c.color, c.min, e.tbl⟩ (by omega) (hf r hr)
        ⟨hc, Nat.le_refl _, fun i j h => by have := hc i; simp only at h; omega⟩ (fun _ _ h => h.elim)
      cases b with
      | true =>
        refine ⟨true, { e with deps := e.deps ++ [d], tbl := st.tbl }, ⟨st.color, st.cmp⟩, ?_, h4, rfl, rfl, ?_, rfl⟩
        · simp only [testAdd, hr, hs, he, h1]
        · simp only [depShape, true_iff]
          exact (h2.1 rfl).symm
      | false =>
        refine ⟨false, e, ⟨st.color, st.cmp⟩, ?_, h4, rfl, rfl, ?_, rfl⟩
        · simp only [testAdd, hr, hs, he, h1]
        · simp only [depShape]
          rw [h2]
          exact eq_comm

theorem addAll_ok (key : V → K) {G : Graph V} (hG : Acyclic G) (hA : AliasOk G) (deps : Nat → Dep V) :
    ∀ (ds : List Nat) (e : Eqn) (used : List Nat) (c : Colors), ds.Nodup → c.Ok → e.cst = (fun _ _ => false) →
    Fine G deps e.ref →
    ∃ e' used' c' new, addAll key G deps ds e used c = some (e', used', c') ∧ c'.Ok ∧ e'.cst = (fun _ _ => false) ∧
      e'.ref = e.ref ∧ e'.deps = e.deps ++ new ∧ new.Sublist ds ∧
      (∀ x, x ∈ new ↔ x ∈ ds ∧ x ∉ used ∧ depShape key G (deps x) = depShape key G (deps e.ref)) ∧
      (∀ x, x ∈ used' ↔ x ∈ used ∨ x ∈ new)
  | [], e, used, c, _, hc, he, _ => ⟨e, used, c, [], rfl, hc, he, rfl, by simp, by simp, by simp, by simp⟩
  | d :: ds, e, used, c, hn, hc, he, hf => by
    rw [List.nodup_cons] at hn
    by_cases hd : d ∈ used
    · obtain ⟨e', used', c', new, h1, h2, h3, h4, h5, h6, h7, h8⟩ := addAll_ok key hG hA deps ds e used c hn.2 hc he hf
      refine ⟨e', used', c', new, by simp [addAll, hd, h1], h2, h3, h4, h5, h6.cons _, fun x => ?_, h8⟩
      rw [h7, List.mem_cons]
      constructor
      · exact fun h => ⟨.inr h.1, h.2⟩
      · rintro ⟨rfl | h, h'⟩
        · exact absurd hd h'.1
        · exact ⟨h, h'⟩
    · obtain ⟨b, e1, c1, g1, g2, g3, g4, g5, g6⟩ := testAdd_ok key hG hA deps e c d hc he hf
      cases b with
      | false =>
        obtain ⟨e', used', c', new, h1, h2, h3, h4, h5, h6, h7, h8⟩ := addAll_ok key hG hA deps ds e1 used c1 hn.2 g2
          (by rw [g3, he]) (by rw [g4]; exact hf)
        refine ⟨e', used', c', new, by simp [addAll, hd, g1, h1], h2, h3, by rw [h4, g4], by rw [h5, g6]; rfl, h6.cons _,
          fun x => ?_, h8⟩
        rw [h7, List.mem_cons, g4]
        constructor
        · exact fun h => ⟨.inr h.1, h.2⟩
        · rintro ⟨rfl | h, h'⟩
          · exact absurd (g5.2 h'.2) (by simp)
          · exact ⟨h, h'⟩
      | true =>
        obtain ⟨e', used', c', new, h1, h2, h3, h4, h5, h6, h7, h8⟩ := addAll_ok key hG hA deps ds e1 (d :: used) c1 hn.2 g2
          (by rw [g3, he]) (by rw [g4]; exact hf)
        refine ⟨e', used', c', d :: new, by simp [addAll, hd, g1, h1], h2, h3, by rw [h4, g4], by rw [h5, g6]; simp,
          h6.cons_cons _, fun x => ?_, fun x => ?_⟩
        · rw [List.mem_cons, h7, g4, List.mem_cons (l := ds), List.mem_cons (l := used)]
          constructor
          · rintro (rfl | ⟨h, h', h''⟩)
            · exact ⟨.inl rfl, hd, g5.1 rfl⟩
            · exact ⟨.inr h, fun hx => h' (.inr hx), h''⟩
          · rintro ⟨rfl | h, h', h''⟩
            · exact .inl rfl
            · refine .inr ⟨h, ?_, h''⟩
              rintro (rfl | hx)
              · exact hn.1 h
              · exact h' hx
        · rw [h8, List.mem_cons, List.mem_cons]
          constructor
          · rintro ((h | h) | h)
            · exact .inr (.inl h)
            · exact .inl h
            · exact .inr (.inr h)
          · rintro (h | h | h)
            · exact .inl (.inr h)
            · exact .inl (.inl h)
            · exact .inr h

theorem findGroup_ok (key : V → K) {G : Graph V} (hG : Acyclic G) (hA : AliasOk G) (deps : Nat → Dep V) (sh : Nat → Shape K)
    (hsh : ∀ d, sh d = depShape key G (deps d)) :
    ∀ (ds used : List Nat) (c : Colors), ds.Nodup → c.Ok → (∀ d ∈ ds, Fine G deps d) →
    (∀ x ∈ ds, ∀ y ∈ ds, sh x = sh y → x ∈ used → y ∈ used) →
    ∃ es c', findGroup key G deps ds used c = some (es, c') ∧ c'.Ok ∧
      (∀ e ∈ es, e.deps.head? = some e.ref ∧ e.ref ∉ used ∧ e.deps.Sublist ds ∧ 2 ≤ e.deps.length ∧
        ∀ d, d ∈ e.deps ↔ d ∈ ds ∧ sh d = sh e.ref) ∧
      (∀ x ∈ ds, ∀ y ∈ ds, x ≠ y → sh x = sh y → x ∉ used → ∃ e ∈ es, x ∈ e.deps ∧ y ∈ e.deps) ∧
      es.Pairwise (fun e e' => sh e.ref ≠ sh e'.ref)
  | [], _, c, _, hc, _, _ => ⟨[], c, rfl, hc, by simp, by simp, .nil⟩
  | r :: ds, used, c, hn, hc, hf, hu => by
    rw [List.nodup_cons] at hn
    by_cases hr : r ∈ used
    · obtain ⟨es, c', h1, h2, h3, h4, h5⟩ := findGroup_ok key hG hA deps sh hsh ds used c hn.2 hc
        (fun d hd => hf d (by simp [hd])) (fun x hx y hy => hu x (by simp [hx]) y (by simp [hy]))
      refine ⟨es, c', by simp [findGroup, hr, h1], h2, fun e he => ?_, fun x hx y hy hxy hs hxu => ?_, h5⟩
      · obtain ⟨g1, g2, g3, g4, g5⟩ := h3 e he
        refine ⟨g1, g2, g3.cons _, g4, fun d => ?_⟩
        rw [g5, List.mem_cons]
        constructor
        · exact fun h => ⟨.inr h.1, h.2⟩
        · rintro ⟨rfl | h, h'⟩
          · have hm : e.ref ∈ ds := g3.subset (List.mem_of_mem_head? g1)
            exact absurd (hu d (by simp) e.ref (by simp [hm]) h' hr) g2
          · exact ⟨h, h'⟩
      · have hyu : y ∉ used := fun h => hxu (hu y hy x hx hs.symm h)
        rw [List.mem_cons] at hx hy
        rcases hx with rfl | hx
        · exact absurd hr hxu
        rcases hy with rfl | hy
        · exact absurd hr hyu
        exact h4 x hx y hy hxy hs hxu
    · obtain ⟨e, used', c1, new, g1, g2, g3, g4, g5, g6, g7, g8⟩ := addAll_ok key hG hA deps ds (Eqn.new r) used c hn.2 hc rfl
        (hf r (by simp))
      simp only [Eqn.new] at g4 g5 g7
      simp only [← hsh] at g7
      obtain ⟨es, c', h1, h2, h3, h4, h5⟩ := findGroup_ok key hG hA deps sh hsh ds used' c1 hn.2 g2
        (fun d hd => hf d (by simp [hd])) (fun x hx y hy hs => by
          rw [g8, g8, g7, g7]
          rintro (h | ⟨_, h, h'⟩)
          · exact .inl (hu x (by simp [hx]) y (by simp [hy]) hs h)
          · refine .inr ⟨hy, fun hyu => h (hu y (by simp [hy]) x (by simp [hx]) hs.symm hyu), by rw [← hs, h']⟩)
      -- the class of the reference
      have hcls : ∀ d, d ∈ e.deps ↔ d ∈ r :: ds ∧ sh d = sh r := by
        intro d
        rw [g5, List.mem_append, g7, List.mem_singleton, List.mem_cons]
        constructor
        · rintro (rfl | ⟨h, _, h'⟩)
          · exact ⟨.inl rfl, rfl⟩
          · exact ⟨.inr h, h'⟩
        · rintro ⟨rfl | h, h'⟩
          · exact .inl rfl
          · refine .inr ⟨h, fun hdu => hr (hu d (by simp [h]) r (by simp) h' hdu), h'⟩
      have hrest : ∀ e' ∈ es, sh r ≠ sh e'.ref := by
        intro e' he' hs
        obtain ⟨k1, k2, k3, _, _⟩ := h3 e' he'
        have hm : e'.ref ∈ ds := k3.subset (List.mem_of_mem_head? k1)
        apply k2
        rw [g8, g7]
        by_cases hx : e'.ref ∈ used
        · exact .inl hx
        · exact .inr ⟨hm, hx, hs.symm⟩
      have hes : ∀ e' ∈ es, e'.deps.head? = some e'.ref ∧ e'.ref ∉ used ∧ e'.deps.Sublist (r :: ds) ∧ 2 ≤ e'.deps.length ∧
          ∀ d, d ∈ e'.deps ↔ d ∈ r :: ds ∧ sh d = sh e'.ref := by
        intro e' he'
        obtain ⟨k1, k2, k3, k4, k5⟩ := h3 e' he'
        refine ⟨k1, fun h => k2 ((g8 _).2 (.inl h)), k3.cons _, k4, fun d => ?_⟩
        rw [k5, List.mem_cons]
        constructor
        · exact fun h => ⟨.inr h.1, h.2⟩
        · rintro ⟨rfl | h, h'⟩
          · exact absurd h' (hrest e' he')
          · exact ⟨h, h'⟩
      have hrun : findGroup key G deps (r :: ds) used c = some (if e.deps.length = 1 then es else e :: es, c') := by
        simp only [findGroup, hr, if_false, g1, h1]
      -- two candidates which have not the shape of the reference
      have hold : ∀ x ∈ r :: ds, ∀ y ∈ r :: ds, x ≠ y → sh x = sh y → x ∉ used → sh x ≠ sh r →
          ∃ e ∈ es, x ∈ e.deps ∧ y ∈ e.deps := by
        intro x hx y hy hxy hs hxu hxr
        rw [List.mem_cons] at hx hy
        rcases hx with rfl | hx
        · exact absurd rfl hxr
        rcases hy with rfl | hy
        · exact absurd hs hxr
        refine h4 x hx y hy hxy hs ?_
        rw [g8, g7]
        rintro (h | ⟨_, _, h⟩)
        · exact hxu h
        · exact hxr h
      by_cases hl : e.deps.length = 1
      · rw [if_pos hl] at hrun
        refine ⟨es, c', hrun, h2, hes, fun x hx y hy hxy hs hxu => ?_, h5⟩
        by_cases hxr : sh x = sh r
        · have hnew : new = [] := by
            rw [g5] at hl
            simpa using hl
          have h6 := (hcls x).2 ⟨hx, hxr⟩
          have h7 := (hcls y).2 ⟨hy, by rw [← hs, hxr]⟩
          rw [g5, hnew] at h6 h7
          simp only [List.append_nil, List.mem_singleton] at h6 h7
          exact absurd (h6.trans h7.symm) hxy
        · exact hold x hx y hy hxy hs hxu hxr
      · rw [if_neg hl] at hrun
        refine ⟨e :: es, c', hrun, h2, fun e' he' => ?_, fun x hx y hy hxy hs hxu => ?_, ?_⟩
        · rw [List.mem_cons] at he'
          rcases he' with rfl | he'
          · refine ⟨by rw [g5, g4]; rfl, by rw [g4]; exact hr, ?_, ?_, by rw [g4]; exact hcls⟩
            · rw [g5]
              exact g6.cons_cons _
            · have : 0 < e'.deps.length := by rw [g5]; simp
              omega
          · exact hes e' he'
        · by_cases hxr : sh x = sh r
          · exact ⟨e, by simp, (hcls x).2 ⟨hx, hxr⟩, (hcls y).2 ⟨hy, by rw [← hs, hxr]⟩⟩
          · obtain ⟨e', k1, k2⟩ := hold x hx y hy hxy hs hxu hxr
            exact ⟨e', by simp [k1], k2⟩
        · rw [List.pairwise_cons]
          exact ⟨fun e' he' => by rw [g4]; exact hrest e' he', h5⟩

theorem detect_deps (e : Eqn) : e.detect.deps = e.deps ∧ e.detect.ref = e.ref := ⟨rfl, rfl⟩

theorem findAll_ok (key : V → K) {G : Graph V} (hG : Acyclic G) (hA : AliasOk G) (deps : Nat → Dep V) :
    ∀ (gs : List (List Nat)) (c : Colors), c.Ok → (∀ g ∈ gs, g.Nodup ∧ ∀ d ∈ g, Fine G deps d) →
    ∃ r, findAll key G deps gs c = some r ∧ List.Forall₂ (fun g es => (∀ e ∈ es, e.deps.head? = some e.ref) ∧
      ShapeClasses (fun d => depShape key G (deps d)) g (es.map Eqn.deps)) gs r
  | [], _, _, _ => ⟨[], rfl, .nil⟩
  | g :: gs, c, hc, hg => by
    obtain ⟨es, c', h1, h2, h3, h4, h5⟩ := findGroup_ok key hG hA deps _ (fun _ => rfl) g [] c (hg g (by simp)).1 hc
      (hg g (by simp)).2 (by simp)
    obtain ⟨r, h6, h7⟩ := findAll_ok key hG hA deps gs c' h2 (fun g' hg' => hg g' (by simp [hg']))
    refine ⟨es.map Eqn.detect :: r, by simp only [findAll, h1, h6], .cons ⟨?_, ⟨?_, ?_, ?_⟩⟩ h7⟩
    · intro e he
      obtain ⟨e', he', rfl⟩ := List.mem_map.1 he
      exact (h3 e' he').1
    · intro l hl
      obtain ⟨e, he, rfl⟩ := List.mem_map.1 hl
      obtain ⟨e', he', rfl⟩ := List.mem_map.1 he
      obtain ⟨k1, _, k2, k3, k4⟩ := h3 e' he'
      exact ⟨k2, k3, e'.ref, List.mem_of_mem_head? k1, k4⟩
    · intro x hx y hy hxy hs
      obtain ⟨e, he, hxe, hye⟩ := h4 x hx y hy hxy hs (by simp)
      exact ⟨e.deps, List.mem_map.2 ⟨e.detect, List.mem_map.2 ⟨e, he, rfl⟩, rfl⟩, hxe, hye⟩
    · rw [List.pairwise_map, List.pairwise_map]
      refine h5.imp_of_mem fun {e e'} he he' hne d hd hd' => ?_
      have k := ((h3 e he).2.2.2.2 d).1 hd
      have k' := ((h3 e' he').2.2.2.2 d).1 hd'
      exact hne (k.2.symm.trans k'.2)

end Verif.Patterns
