import Verif.Patterns.LemmasTable
/- What an iteration of the loop computes. -/
namespace Verif.Patterns

variable {V K : Type}

section
variable [DecidableEq K]

/-- what is known of a pattern -/
structure EqOk (key : V → K) (G : Graph V) (deps : Nat → Dep V) (e : Eqn) : Prop where
  tbl : TOk G e.ref e.tbl
  dep : ∀ d ∈ e.deps, d ≠ e.ref →
    (∃ c c', deps e.ref = .par c ∧ deps d = .par c' ∧ key c = key c') ∨
    ∃ r0 s0, deps e.ref = .node r0 ∧ deps d = .node s0 ∧ (Regular G r0 s0 → Done key G d e.tbl r0 s0)

theorem EqOk.new (key : V → K) (G : Graph V) (deps : Nat → Dep V) (r : Nat) : EqOk key G deps (Eqn.new r) :=
  ⟨fun o a h => by simp [Eqn.new] at h, fun d hd hne => by simp [Eqn.new] at hd hne; exact absurd hd hne⟩

theorem Ext.done {key : V → K} {G : Graph V} {ref cur d : Nat} {t t' : Table} (h : Ext G ref cur t t') (hd : d ≠ cur) {p q : Nat}
    (hp : Done key G d t p q) : Done key G d t' p q := by
  intro u v huv
  obtain ⟨h1, h2, h3, h4⟩ := hp u v huv
  refine ⟨h1, h2, h3, fun a x y hx hy => ?_⟩
  have hl := h4 a x y hx hy
  cases x <;> cases y
  · exact hl
  · exact hl
  · exact hl
  · exact ⟨fun hj => ⟨(hl.1 hj).1, h.2 u a d _ hd (hl.1 hj).2⟩, hl.2⟩

theorem testAdd_eqOk (key : V → K) {G : Graph V} (hG : Acyclic G) (hA : AliasInv G) (deps : Nat → Dep V) {e : Eqn}
    {c : Colors} {d : Nat} (hc : c.Ok) (hfr : Fine G deps e.ref) (hfd : Fine G deps d) (hd : d ∉ e.deps) (hdr : d ≠ e.ref)
    (he : EqOk key G deps e) {b : Bool} {e' : Eqn} {c' : Colors} (h : testAdd key G deps e c d = some (b, e', c')) :
    EqOk key G deps e' := by
  cases hr : deps e.ref with
  | par v =>
    cases hs : deps d with
    | par v' =>
      simp only [testAdd, hr, hs] at h
      split at h
      · rename_i hv
        simp only [Option.some.injEq, Prod.mk.injEq] at h
        rw [← h.2.1]
        refine ⟨he.tbl, fun x hx hne => ?_⟩
        simp only [List.mem_append, List.mem_singleton] at hx
        rcases hx with hx | rfl
        · exact he.dep x hx hne
        · exact .inl ⟨v, v', hr, hs, hv⟩
      · simp only [Option.some.injEq, Prod.mk.injEq] at h
        rw [← h.2.1]; exact he
    | node s =>
      simp only [testAdd, hr, hs, Option.some.injEq, Prod.mk.injEq] at h
      rw [← h.2.1]; exact he
  | node r =>
    cases hs : deps d with
    | par v' =>
      simp only [testAdd, hr, hs, Option.some.injEq, Prod.mk.injEq] at h
      rw [← h.2.1]; exact he
    | node s =>
      simp only [testAdd, hr, hs] at h
      split at h
      · cases h
      · rename_i st hst
        simp only [Option.some.injEq, Prod.mk.injEq] at h
        rw [← h.2.1]
        have hext := comparePath_ext key e.cst hdr c.min _ _ _ _ _ _ hst
        refine ⟨hext.1 he.tbl, fun x hx hne => ?_⟩
        simp only [List.mem_append, List.mem_singleton] at hx
        rcases hx with hx | rfl
        · rcases he.dep x hx hne with h | ⟨r0, s0, h1, h2, h3⟩
          · exact .inl h
          · exact .inr ⟨r0, s0, h1, h2, fun hR => hext.done (fun h => hd (h ▸ hx)) (h3 hR)⟩
        · refine .inr ⟨r, s, hr, hs, fun hR => ?_⟩
          exact (comparePath_saves key hG hA hR (hfr r hr) (hfd s hs) e.cst e.ref x c.min _ r s (fun _ _ => False) ⟨c.color, c.min, e.tbl⟩ (hfr r hr)
            (fun _ => .root) ⟨hc, Nat.le_refl _, fun i j h => by have := hc i; simp only at h; omega⟩ (fun _ _ h => h.elim)
            st hst).1.2
      · simp only [Option.some.injEq, Prod.mk.injEq] at h
        rw [← h.2.1]; exact he

theorem addAll_eqOk (key : V → K) {G : Graph V} (hG : Acyclic G) (hA : AliasInv G) (deps : Nat → Dep V) :
    ∀ (ds : List Nat) (e : Eqn) (used : List Nat) (c : Colors), ds.Nodup → c.Ok → e.cst = (fun _ _ => false) →
    Fine G deps e.ref → (∀ d ∈ ds, Fine G deps d ∧ d ∉ e.deps ∧ d ≠ e.ref) → EqOk key G deps e →
    ∀ e' used' c', addAll key G deps ds e used c = some (e', used', c') → EqOk key G deps e'
  | [], e, used, c, _, _, _, _, _, he, e', used', c', h => by
    simp only [addAll, Option.some.injEq, Prod.mk.injEq] at h
    rw [← h.1]; exact he
  | d :: ds, e, used, c, hn, hc, hcst, hf, hds, he, e', used', c', h => by
    rw [List.nodup_cons] at hn
    simp only [addAll] at h
    split at h
    · exact addAll_eqOk key hG hA deps ds e used c hn.2 hc hcst hf (fun x hx => hds x (by simp [hx])) he e' used' c' h
    · obtain ⟨b, e1, c1, g1, g2, g3, g4, _, g6⟩ := testAdd_ok key hG hA.ok deps e c d hc hcst hf
      have hd := hds d (by simp)
      have hok := testAdd_eqOk key hG hA deps hc hf hd.1 hd.2.1 hd.2.2 he g1
      rw [g1] at h
      have hrest : ∀ x ∈ ds, Fine G deps x ∧ x ∉ e1.deps ∧ x ≠ e1.ref := by
        intro x hx
        have := hds x (by simp [hx])
        refine ⟨this.1, ?_, by rw [g4]; exact this.2.2⟩
        rw [g6]
        split
        · rw [List.mem_append, List.mem_singleton]
          rintro (h | rfl)
          · exact this.2.1 h
          · exact hn.1 hx
        · exact this.2.1
      cases b with
      | true =>
        exact addAll_eqOk key hG hA deps ds e1 (d :: used) c1 hn.2 g2 (by rw [g3, hcst]) (by rw [g4]; exact hf) hrest hok
          e' used' c' h
      | false =>
        exact addAll_eqOk key hG hA deps ds e1 used c1 hn.2 g2 (by rw [g3, hcst]) (by rw [g4]; exact hf) hrest hok
          e' used' c' h

theorem findGroup_eqOk (key : V → K) {G : Graph V} (hG : Acyclic G) (hA : AliasInv G) (deps : Nat → Dep V) :
    ∀ (ds used : List Nat) (c : Colors), ds.Nodup → c.Ok → (∀ d ∈ ds, Fine G deps d) →
    ∀ es c', findGroup key G deps ds used c = some (es, c') → c'.Ok ∧ ∀ e ∈ es, EqOk key G deps e
  | [], used, c, _, hc, _, es, c', h => by
    simp only [findGroup, Option.some.injEq, Prod.mk.injEq] at h
    rw [← h.1, ← h.2]
    exact ⟨hc, by simp⟩
  | r :: ds, used, c, hn, hc, hf, es, c', h => by
    rw [List.nodup_cons] at hn
    simp only [findGroup] at h
    split at h
    · exact findGroup_eqOk key hG hA deps ds used c hn.2 hc (fun d hd => hf d (by simp [hd])) es c' h
    · obtain ⟨e, used', c1, new, g1, g2, _⟩ := addAll_ok key hG hA.ok deps ds (Eqn.new r) used c hn.2 hc rfl (hf r (by simp))
      have he := addAll_eqOk key hG hA deps ds (Eqn.new r) used c hn.2 hc rfl (hf r (by simp))
        (fun d hd => ⟨hf d (by simp [hd]), by
          simp only [Eqn.new, List.mem_singleton]
          rintro rfl
          exact hn.1 hd, by
          simp only [Eqn.new]
          rintro rfl
          exact hn.1 hd⟩) (EqOk.new key G deps r) e used' c1 g1
      rw [g1] at h
      simp only at h
      split at h
      · cases h
      · rename_i es' c'' hrest
        obtain ⟨k1, k2⟩ := findGroup_eqOk key hG hA deps ds used' c1 hn.2 g2 (fun d hd => hf d (by simp [hd])) es' c'' hrest
        simp only [Option.some.injEq, Prod.mk.injEq] at h
        rw [← h.1, ← h.2]
        refine ⟨k1, ?_⟩
        split
        · exact k2
        · intro e' he'
          rw [List.mem_cons] at he'
          rcases he' with rfl | he'
          · exact he
          · exact k2 e' he'

theorem findAll_eqOk (key : V → K) {G : Graph V} (hG : Acyclic G) (hA : AliasInv G) (deps : Nat → Dep V) :
    ∀ (gs : List (List Nat)) (c : Colors), c.Ok → (∀ g ∈ gs, g.Nodup ∧ ∀ d ∈ g, Fine G deps d) →
    ∀ r, findAll key G deps gs c = some r → ∀ es ∈ r, ∀ e ∈ es, ∃ e', EqOk key G deps e' ∧ e = e'.detect
  | [], _, _, _, r, h => by
    simp only [findAll, Option.some.injEq] at h
    rw [← h]; simp
  | g :: gs, c, hc, hg, r, h => by
    simp only [findAll] at h
    split at h
    · cases h
    · rename_i es c' h1
      obtain ⟨k1, k2⟩ := findGroup_eqOk key hG hA deps g [] c (hg g (by simp)).1 hc (hg g (by simp)).2 es c' h1
      split at h
      · cases h
      · rename_i r' h2
        simp only [Option.some.injEq] at h
        rw [← h]
        intro es' hes' e he
        rw [List.mem_cons] at hes'
        rcases hes' with rfl | hes'
        · obtain ⟨e', he', rfl⟩ := List.mem_map.1 he
          exact ⟨e', k2 e' he', rfl⟩
        · exact findAll_eqOk key hG hA deps gs c' k1 (fun g' hg' => hg g' (by simp [hg'])) r' h2 es' hes' e he

end

/-! ### values -/

theorem valueAt_eq (I : Nat → List Nat → List V → V) {G : Graph V} (hG : Acyclic G) (x : Nat → V) :
    ∀ f i f', i < f → i < f' → valueAt I G x f i = valueAt I G x f' i
  | 0, _, _, h, _ => by omega
  | _ + 1, _, 0, _, h => by omega
  | f + 1, i, f' + 1, h, h' => by
    have hargs : ∀ j, Arg.node j ∈ (G i).args → valueAt I G x f j = valueAt I G x f' j := fun j hj =>
      valueAt_eq I hG x f j f' (by have := hG i j hj; omega) (by have := hG i j hj; omega)
    simp only [valueAt]
    cases ho : (G i).op with
    | inv => rfl
    | alias_ =>
      cases has : (G i).args with
      | nil => rfl
      | cons a as =>
        cases a with
        | par c => rfl
        | node j => exact hargs j (by rw [has]; simp)
    | other k =>
      simp only
      congr 1
      apply List.map_congr_left
      intro a ha
      cases a with
      | par c => rfl
      | node j => exact hargs j ha

/-- the value of an argument -/
def argValue (I : Nat → List Nat → List V → V) (G : Graph V) (x : Nat → V) : Arg V → V
  | .par c => c
  | .node j => value I G x j

theorem value_inv (I : Nat → List Nat → List V → V) {G : Graph V} (x : Nat → V) {i : Nat} (h : (G i).op = .inv) :
    value I G x i = x i := by simp [value, valueAt, h]

theorem value_other (I : Nat → List Nat → List V → V) {G : Graph V} (hG : Acyclic G) (x : Nat → V) {i k : Nat}
    (h : (G i).op = .other k) : value I G x i = I k (G i).info ((G i).args.map (argValue I G x)) := by
  simp only [value, valueAt, h]
  congr 1
  apply List.map_congr_left
  intro a ha
  cases a with
  | par c => rfl
  | node j => exact valueAt_eq I hG x i j (j + 1) (hG i j ha) (by omega)

theorem value_alias (I : Nat → List Nat → List V → V) {G : Graph V} (hG : Acyclic G) (x : Nat → V) {i j : Nat}
    (h : (G i).op = .alias_) (ha : (G i).args = [.node j]) : value I G x i = value I G x j := by
  simp only [value, valueAt, h, ha]
  exact valueAt_eq I hG x i j (j + 1) (hG i j (by rw [ha]; simp)) (by omega)

theorem indexedAt_eq {G : Graph V} (hG : Acyclic G) (t : Table) :
    ∀ f i f', i < f → i < f' → indexedAt G t f i = indexedAt G t f' i
  | 0, _, _, h, _ => by omega
  | _ + 1, _, 0, _, h => by omega
  | f + 1, i, f' + 1, h, h' => by
    have hargs : ∀ j, Arg.node j ∈ (G i).args → indexedAt G t f j = indexedAt G t f' j := fun j hj =>
      indexedAt_eq hG t f j f' (by have := hG i j hj; omega) (by have := hG i j hj; omega)
    simp only [indexedAt]
    rw [Bool.eq_iff_iff, List.any_eq_true, List.any_eq_true]
    apply exists_congr
    rintro ⟨a, n⟩
    apply and_congr_right
    intro hm
    have ha : a ∈ (G i).args := by
      have := List.mem_zipIdx' hm
      rw [this.2]
      exact List.getElem_mem _
    cases a with
    | par c => simp
    | node j => simp only; rw [hargs j ha]

/-- an operation without index -/
theorem not_indexed {G : Graph V} (hG : Acyclic G) {t : Table} {r : Nat} (h : indexedAt G t (r + 1) r = false) {a j : Nat}
    (ha : (G r).args[a]? = some (.node j)) :
    ((G j).op = .inv → t r a = []) ∧ ((G j).op ≠ .inv → indexedAt G t (j + 1) j = false) := by
  simp only [indexedAt] at h
  rw [List.any_eq_false] at h
  have hm : (Arg.node j, a) ∈ (G r).args.zipIdx := by
    rw [List.mem_zipIdx_iff_getElem?]
    simpa using ha
  have := h _ hm
  simp only at this
  constructor
  · intro hj
    rw [if_pos hj] at this
    simpa using this
  · intro hj
    rw [if_neg hj, Bool.not_eq_true] at this
    rw [← this]
    exact indexedAt_eq hG t _ _ _ (by omega) (hG r j (List.mem_of_getElem? ha))

/-- evaluation of the arguments -/
theorem mapM_zipIdx_some {α β : Type} (g : α × Nat → Option β) :
    ∀ (as : List α) (vs : List β) (n : Nat), as.length = vs.length →
    (∀ (a : Nat) x v, as[a]? = some x → vs[a]? = some v → g (x, n + a) = some v) →
    (as.zipIdx n).mapM g = some vs
  | [], [], _, _, _ => rfl
  | [], _ :: _, _, h, _ => by simp at h
  | _ :: _, [], _, h, _ => by simp at h
  | x :: as, v :: vs, n, h, hg => by
    have h1 := hg 0 x v (by simp) (by simp)
    have h2 := mapM_zipIdx_some g as vs (n + 1) (by simpa using h) (fun a x v hx hv => by
      have := hg (a + 1) x v (by simpa using hx) (by simpa using hv)
      rwa [show n + 1 + a = n + (a + 1) by omega])
    simp only [Nat.add_zero] at h1
    simp [List.zipIdx_cons, List.mapM_cons, h1, h2]

theorem detect_entry (e : Eqn) (o a : Nat) :
    (e.detect.tbl o a = e.tbl o a) ∨ (e.detect.tbl o a = [] ∧ ∀ k k' v v', get (e.tbl o a) k = some v →
      get (e.tbl o a) k' = some v' → v = v') := by
  simp only [Eqn.detect]
  cases hm : e.tbl o a with
  | nil => left; rfl
  | cons p ps =>
    simp only
    split
    · rename_i hall
      right
      refine ⟨rfl, ?_⟩
      have key : ∀ k v, get (p :: ps) k = some v → v = p.2 := by
        intro k v hg
        simp only [get, Option.map_eq_some_iff] at hg
        obtain ⟨q, hq, rfl⟩ := hg
        have := List.mem_of_find?_eq_some hq
        rw [List.mem_cons] at this
        rcases this with rfl | hq
        · rfl
        · rw [List.all_eq_true] at hall
          have := hall q hq
          simpa using (Eq.symm (by simpa using this : p.2 = q.2))
      intro k k' v v' h1 h2
      rw [key k v h1, key k' v' h2]
    · left; rfl

section
variable {key : V → K} {G : Graph V} (hG : Acyclic G) (hA : AliasInv G) (hK : ∀ c c', key c = key c' → c = c')
  (I : Nat → List Nat → List V → V) (x : Nat → V)

include hG hA in
/-- operations whose arguments have the same values -/
theorem value_congr {u v : Nat} (hu : (G u).op ≠ .inv) (ho : (G u).op = (G v).op) (hi : (G u).info = (G v).info)
    (hl : (G u).args.length = (G v).args.length)
    (hargs : ∀ (a : Nat) p q, (G u).args[a]? = some p → (G v).args[a]? = some q → argValue I G x p = argValue I G x q) :
    value I G x u = value I G x v := by
  cases hop : (G u).op with
  | inv => exact absurd hop hu
  | alias_ =>
    obtain ⟨j, h1, _⟩ := hA u hop
    obtain ⟨j', h2, _⟩ := hA v (by rw [← ho, hop])
    rw [value_alias I hG x hop h1, value_alias I hG x (by rw [← ho, hop]) h2]
    exact hargs 0 (.node j) (.node j') (by simp [h1]) (by simp [h2])
  | other k =>
    rw [value_other I hG x hop, value_other I hG x (by rw [← ho, hop]), hi]
    congr 1
    apply List.ext_getElem?
    intro a
    rw [List.getElem?_map, List.getElem?_map]
    by_cases ha : a < (G u).args.length
    · rw [List.getElem?_eq_getElem ha, List.getElem?_eq_getElem (by omega)]
      simp only [Option.map_some, Option.some.injEq]
      exact hargs a _ _ (List.getElem?_eq_getElem ha) (List.getElem?_eq_getElem (by omega))
    · rw [List.getElem?_eq_none (by omega), List.getElem?_eq_none (by omega)]

include hG hA hK in
/-- an operation without index has the same value in the iteration -/
theorem not_indexed_value {e : Eqn} (hT : TOk G e.ref e.tbl) {d r0 s0 : Nat} (hr0 : (G r0).op ≠ .inv) (hs0 : (G s0).op ≠ .inv)
    (hD : Done key G d e.tbl r0 s0) :
    ∀ (n u v : Nat), u < n → Corr G r0 s0 u v → indexedAt G e.detect.tbl (u + 1) u = false → value I G x u = value I G x v
  | 0, _, _, h, _, _ => by omega
  | n + 1, u, v, hu, hc, hx => by
    obtain ⟨h1, h2, h3, h4⟩ := hD u v hc
    refine value_congr hG hA I x (hc.nonInv hr0 hs0).1 h1 h2 h3 fun a p q hp hq => ?_
    have hl := h4 a p q hp hq
    cases p <;> cases q
    · exact hK _ _ hl
    · exact hl.elim
    · exact hl.elim
    · rename_i j j'
      have hni := not_indexed hG hx hp
      have hj := hG u j (List.mem_of_getElem? hp)
      by_cases hjv : (G j).op = .inv
      · have he := hni.1 hjv
        obtain ⟨g1, g2⟩ := hl.1 hjv
        have hne : e.tbl u a ≠ [] := by
          intro h
          rw [h] at g2
          simp [get] at g2
        obtain ⟨i, k1, _, k3⟩ := hT u a hne
        rw [hp] at k1
        cases k1
        rcases detect_entry e u a with h | ⟨_, h⟩
        · rw [h] at he
          exact absurd he hne
        · rw [h _ _ _ _ k3 g2]
      · exact not_indexed_value hT hr0 hs0 hD n j j' (by omega) (.arg hc hp hq hjv (hl.2 hjv)) (hni.2 hjv)

include hG hA hK in
theorem iterationAt_ok {e : Eqn} (hT : TOk G e.ref e.tbl) {d r0 s0 : Nat} (hr0 : (G r0).op ≠ .inv) (hs0 : (G s0).op ≠ .inv)
    (hD : Done key G d e.tbl r0 s0) :
    ∀ (f u v : Nat), u < f → Corr G r0 s0 u v → iterationAt I G x e.detect.tbl d f u = some (value I G x v)
  | 0, _, _, h, _ => by omega
  | f + 1, u, v, hu, hc => by
    obtain ⟨h1, h2, h3, h4⟩ := hD u v hc
    have huv := hc.nonInv hr0 hs0
    simp only [iterationAt]
    by_cases hx : indexedAt G e.detect.tbl (u + 1) u = true
    · rw [if_pos hx]
      rw [mapM_zipIdx_some _ (G u).args ((G v).args.map (argValue I G x)) 0 (by simpa using h3) (by
        intro a p w hp hw
        rw [List.getElem?_map, Option.map_eq_some_iff] at hw
        obtain ⟨q, hq, rfl⟩ := hw
        have hl := h4 a p q hp hq
        simp only [Nat.zero_add]
        cases p <;> cases q
        · exact congrArg some (hK _ _ hl)
        · exact hl.elim
        · exact hl.elim
        · rename_i j j'
          have hj := hG u j (List.mem_of_getElem? hp)
          simp only
          by_cases hjv : (G j).op = .inv
          · rw [if_pos hjv]
            obtain ⟨g1, g2⟩ := hl.1 hjv
            have hne : e.tbl u a ≠ [] := by
              intro h
              rw [h] at g2
              simp [get] at g2
            obtain ⟨i, k1, _, k3⟩ := hT u a hne
            rw [hp] at k1
            cases k1
            simp only [argValue]
            rw [value_inv I x g1]
            rcases detect_entry e u a with h | ⟨h, h'⟩
            · rw [h, if_neg (by simpa using hne), g2]
              rfl
            · rw [h]
              simp only [List.isEmpty_nil, if_true]
              rw [h' _ _ _ _ k3 g2]
          · rw [if_neg hjv]
            exact iterationAt_ok hT hr0 hs0 hD f j j' (by omega) (.arg hc hp hq hjv (hl.2 hjv)))]
      simp only
      cases hop : (G u).op with
      | inv => exact absurd hop huv.1
      | alias_ =>
        obtain ⟨j', k2, _⟩ := hA v (by rw [← h1, hop])
        simp only
        rw [value_alias I hG x (by rw [← h1, hop]) k2, k2]
        rfl
      | other k =>
        simp only
        rw [value_other I hG x (by rw [← h1, hop]), h2]
    · rw [if_neg hx]
      rw [not_indexed_value hG hA hK I x hT hr0 hs0 hD (u + 1) u v (by omega) hc (by simpa using hx)]

include hG hA in
theorem iterationAt_ref {e : Eqn} (hT : TOk G e.ref e.tbl) :
    ∀ (f u : Nat), u < f → (G u).op ≠ .inv → iterationAt I G x e.detect.tbl e.ref f u = some (value I G x u)
  | 0, _, h, _ => by omega
  | f + 1, u, hu, huv => by
    simp only [iterationAt]
    by_cases hx : indexedAt G e.detect.tbl (u + 1) u = true
    · rw [if_pos hx]
      rw [mapM_zipIdx_some _ (G u).args ((G u).args.map (argValue I G x)) 0 (by simp) (by
        intro a p w hp hw
        rw [List.getElem?_map, hp, Option.map_some, Option.some.injEq] at hw
        subst hw
        simp only [Nat.zero_add]
        cases p with
        | par c => rfl
        | node j =>
          have hj := hG u j (List.mem_of_getElem? hp)
          simp only
          by_cases hjv : (G j).op = .inv
          · rw [if_pos hjv]
            simp only [argValue]
            rw [value_inv I x hjv]
            rcases detect_entry e u a with h | ⟨h, _⟩
            · by_cases hne : e.tbl u a = []
              · rw [h, hne]; rfl
              · obtain ⟨i, k1, _, k3⟩ := hT u a hne
                rw [hp] at k1
                cases k1
                rw [h, if_neg (by simpa using hne), k3]
                rfl
            · rw [h]; rfl
          · rw [if_neg hjv]
            exact iterationAt_ref hT f j (by omega) hjv)]
      simp only
      cases hop : (G u).op with
      | inv => exact absurd hop huv
      | alias_ =>
        obtain ⟨j', k2, _⟩ := hA u hop
        simp only
        rw [value_alias I hG x hop k2, k2]
        rfl
      | other k =>
        simp only
        rw [value_other I hG x hop]
    · rw [if_neg hx]

end

end Verif.Patterns
