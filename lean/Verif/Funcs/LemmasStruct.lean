import Verif.Funcs.Lemmas

/-! Helper lemmas: the `Array` structs hold what the generator remembers about them. -/

namespace Verif.Funcs

/-- which structs are used for sparse arrays -/
def Slot.kind : Slot → Bool
  | .tx 0 => false
  | .tx (_ + 1) => true
  | .ty => false
  | .px => false
  | .py 0 => true
  | .py (_ + 1) => false

/-- the struct is as remembered -/
def Agrees (k : Bool) (e : Last) (f : Fields) : Prop :=
  f.data = e.data ∧ e.data ≠ none ∧ f.size = some e.size ∧ f.sparse = some e.sparse ∧ e.sparse = k ∧
    (k = true → f.nnz = some e.nnz ∧ (e.nnz > 0 → e.idxId ≠ none) ∧ (e.idxId ≠ none → f.idx = e.idxId))

theorem view_data (a : Arr) : a.view.data = dataOf a := by
  simp only [dataOf, Arr.view]
  by_cases hs : a.stored = 0
  · simp [hs]
  · simp [hs, Nat.pos_of_ne_zero hs]

theorem initDense_ok (first : Bool) (e : Last) (a : Arr) (f : Fields) (h : first = false → Agrees false e f) :
    Agrees false (initDense first e a).2 ((initDense first e a).1.foldl Put.apply f) ∧
      (initDense first e a).2.data = some (dataOf a) ∧ (initDense first e a).2.size = a.stored := by
  cases first with
  | true => simp [initDense, Put.apply, Agrees]
  | false =>
    obtain ⟨h1, h2, h3, h4, h5, -⟩ := h rfl
    by_cases hd : some (dataOf a) = e.data <;> by_cases hs : a.stored = e.size <;>
      simp [initDense, hd, hs, h5, Put.apply, Agrees, h1, h2, h3, h4]

theorem initSparse_ok (first : Bool) (e : Last) (a : Arr) (f : Fields) (h : first = false → Agrees true e f) :
    Agrees true (initSparse first e a).2 ((initSparse first e a).1.foldl Put.apply f) ∧
      (initSparse first e a).2.data = some (dataOf a) ∧ (initSparse first e a).2.size = a.full ∧
      (initSparse first e a).2.nnz = a.stored ∧ (a.stored > 0 → (initSparse first e a).2.idxId = some a.id) := by
  cases first with
  | true =>
    by_cases hz : a.stored > 0
    · simp [initSparse, Put.apply, Agrees, hz]
    · simp [initSparse, Put.apply, Agrees, hz]
  | false =>
    obtain ⟨h1, h2, h3, h4, h5, h6⟩ := h rfl
    obtain ⟨h6, h7⟩ := h6 rfl
    by_cases hz : a.stored > 0
    · by_cases hd : some (dataOf a) = e.data <;> by_cases hs : a.full = e.size <;> by_cases hn : a.stored = e.nnz <;>
        by_cases hi : some a.id = e.idxId <;> simp_all [initSparse, Put.apply, Agrees] <;>
        (rw [← hi]; simp)
    · by_cases hd : some (dataOf a) = e.data <;> by_cases hs : a.full = e.size <;> by_cases hn : a.stored = e.nnz <;>
        simp_all [initSparse, Put.apply, Agrees]

theorem view_dense {e : Last} {f : Fields} {a : Arr} (ha : a.sparse = false) (h : Agrees false e f)
    (h1 : e.data = some (dataOf a)) (h2 : e.size = a.stored) : f.view = some a.view := by
  obtain ⟨g1, -, g3, g4, g5, -⟩ := h
  have : a.view = ⟨dataOf a, a.stored, none⟩ := by rw [← view_data]; simp [Arr.view, ha]
  rw [Fields.view, g1, g3, g4, h1, h2, g5, this]

theorem view_sparse {e : Last} {f : Fields} {a : Arr} (ha : a.sparse = true) (h : Agrees true e f)
    (h1 : e.data = some (dataOf a)) (h2 : e.size = a.full) (h3 : e.nnz = a.stored)
    (h4 : a.stored > 0 → e.idxId = some a.id) : f.view = some a.view := by
  obtain ⟨g1, -, g3, g4, g5, g6⟩ := h
  obtain ⟨g6, g7⟩ := g6 rfl
  have : a.view = ⟨dataOf a, a.full, some (a.stored, if a.stored = 0 then none else some a.id)⟩ := by
    rw [← view_data]; simp [Arr.view, ha]
  rw [Fields.view, g1, g3, g4, h1, h2, g5, g6, h3, this]
  cases hz : a.stored with
  | zero => rfl
  | succ n =>
    have hp : a.stored > 0 := by omega
    rw [g7.2 (by rw [h4 hp]; simp), h4 hp]
    rfl

/-- one struct -/
theorem structInit_ok (c : Cache) (s : Slot) (a : Arr) (f : Fields) (hk : a.sparse = s.kind)
    (h : ∀ e, c s = some e → e.scope = a.scope → Agrees s.kind e f) :
    ∃ e, (structInit c s a).2 = c.set s e ∧ e.scope = a.scope ∧ Agrees s.kind e ((structInit c s a).1.foldl Put.apply f) ∧
      ((structInit c s a).1.foldl Put.apply f).view = some a.view := by
  have hf : (match c s with | none => true | some e => e.scope != a.scope) = false → Agrees s.kind ((c s).getD {}) f := by
    cases hc : c s with
    | none => simp
    | some e =>
      intro he
      simp only [bne_eq_false_iff_eq] at he
      exact h e hc he
  rw [← hk] at hf ⊢
  cases ha : a.sparse with
  | false =>
    rw [ha] at hf
    obtain ⟨h1, h2, h3⟩ := initDense_ok _ _ a f hf
    simp only [structInit, ha, Bool.false_eq_true, if_false]
    exact ⟨_, rfl, rfl, h1, view_dense ha h1 h2 h3⟩
  | true =>
    rw [ha] at hf
    obtain ⟨h1, h2, h3, h4, h5⟩ := initSparse_ok _ _ a f hf
    simp only [structInit, ha, if_true]
    exact ⟨_, rfl, rfl, h1, view_sparse ha h1 h2 h3 h4 h5⟩

/-! ### several structs -/

variable {M L : Type}

/-- all structs which were filled in scope `sc` are as remembered -/
def Match (sc : Nat) (c : Cache) (A : Structs) : Prop :=
  ∀ s e, c s = some e → e.scope = sc → Agrees s.kind e (A s)

theorem run_ofList_append (σ : Sem M L) (ts us : List Tok) (x : M × L × Structs) :
    σ.gen.run (Code.ofList (ts ++ us)) x = (σ.gen.run (Code.ofList ts) x).bind (σ.gen.run (Code.ofList us)) := by
  rw [Code.ofList_append, Machine.run_append]

theorem run_puts (σ : Sem M L) (s : Slot) (m : M) (l : L) : ∀ (ps : List Put) (A : Structs),
    σ.gen.run (Code.ofList (ps.map (.put s))) (m, l, A) =
      some (m, l, fun t => if t = s then ps.foldl Put.apply (A t) else A t)
  | [], A => by
    simp [Code.ofList, Machine.run]
  | p :: ps, A => by
    simp only [List.map_cons, Code.ofList, Machine.run, Sem.gen, Option.bind_some]
    have := run_puts σ s m l ps (fun t => if t = s then p.apply (A t) else A t)
    simp only [Sem.gen] at this
    rw [this]
    congr 3
    funext t
    by_cases ht : t = s <;> simp [ht]

theorem structInits_ok (σ : Sem M L) (sc : Nat) (m : M) (l : L) : ∀ (ps : List (Slot × Arr)) (c : Cache) (A : Structs),
    (ps.map (·.1)).Nodup → (∀ p ∈ ps, p.2.sparse = p.1.kind) → (∀ p ∈ ps, p.2.scope = sc) → Match sc c A →
    ∃ A', σ.gen.run (Code.ofList (structInits c ps).1) (m, l, A) = some (m, l, A') ∧ Match sc (structInits c ps).2 A' ∧
      (∀ p ∈ ps, (A' p.1).view = some p.2.view) ∧
      (∀ s, s ∉ ps.map (·.1) → A' s = A s)
  | [], c, A, _, _, _, h => ⟨A, rfl, h, by simp, by simp⟩
  | (s, a) :: ps, c, A, hn, hk, hs, h => by
    have ha : a.scope = sc := hs (s, a) List.mem_cons_self
    obtain ⟨e, h1, h2, h3, h4⟩ := structInit_ok c s a (A s) (hk (s, a) List.mem_cons_self)
      (fun e he hsc => h s e he (hsc.trans ha))
    simp only [List.map_cons, List.nodup_cons] at hn
    have hm : Match sc (structInit c s a).2 (fun t => if t = s then (structInit c s a).1.foldl Put.apply (A t) else A t) := by
      intro t e' he' hsc
      rw [h1, Cache.set] at he'
      by_cases ht : t = s
      · subst ht
        rw [if_pos rfl, Option.some.injEq] at he'
        subst he'
        simpa using h3
      · rw [if_neg ht] at he'
        simp only [if_neg ht]
        exact h t e' he' hsc
    obtain ⟨A', g1, g2, g3, g4⟩ := structInits_ok σ sc m l ps _ _ hn.2 (fun p hp => hk p (List.mem_cons_of_mem _ hp))
      (fun p hp => hs p (List.mem_cons_of_mem _ hp)) hm
    refine ⟨A', ?_, ?_, ?_, ?_⟩
    · simp only [structInits]
      rw [run_ofList_append, run_puts, Option.bind_some, g1]
    · exact g2
    · intro p hp
      rw [List.mem_cons] at hp
      rcases hp with rfl | hp
      · simp only
        rw [g4 _ hn.1, if_pos rfl, h4]
      · exact g3 p hp
    · intro t ht
      simp only [List.map_cons, List.mem_cons, not_or] at ht
      rw [g4 t ht.2, if_neg ht.1]

theorem structInits_cache (sc : Nat) : ∀ (ps : List (Slot × Arr)) (c : Cache), (∀ p ∈ ps, p.2.scope = sc) →
    (∀ s, s ∉ ps.map (·.1) → (structInits c ps).2 s = c s) ∧
    (∀ s, s ∈ ps.map (·.1) → ∃ e, (structInits c ps).2 s = some e ∧ e.scope = sc)
  | [], c, _ => ⟨fun _ _ => rfl, by simp⟩
  | (s, a) :: ps, c, hs => by
    have ha : a.scope = sc := hs (s, a) List.mem_cons_self
    have hset : ∃ e, (structInit c s a).2 = c.set s e ∧ e.scope = sc := ⟨_, rfl, ha⟩
    obtain ⟨e, h1, h2⟩ := hset
    obtain ⟨g1, g2⟩ := structInits_cache sc ps (structInit c s a).2 (fun p hp => hs p (List.mem_cons_of_mem _ hp))
    refine ⟨fun t ht => ?_, fun t ht => ?_⟩
    · simp only [List.map_cons, List.mem_cons, not_or] at ht
      show (structInits (structInit c s a).2 ps).2 t = c t
      rw [g1 t ht.2, h1, Cache.set, if_neg ht.1]
    · show ∃ e, (structInits (structInit c s a).2 ps).2 t = some e ∧ e.scope = sc
      by_cases hp : t ∈ ps.map (·.1)
      · exact g2 t hp
      · simp only [List.map_cons, List.mem_cons] at ht
        have hts : t = s := ht.resolve_right hp
        rw [g1 t hp, h1, Cache.set, if_pos hts]
        exact ⟨e, rfl, h2⟩

theorem mapM_views : ∀ (ps : List (Slot × Arr)) (A : Structs), (∀ p ∈ ps, (A p.1).view = some p.2.view) →
    (ps.map (·.1)).mapM (fun s => (A s).view) = some (ps.map (·.2.view))
  | [], _, _ => rfl
  | p :: ps, A, h => by
    simp only [List.map_cons, List.mapM_cons, h p List.mem_cons_self, Option.bind_eq_bind, Option.bind_some,
      mapM_views ps A (fun q hq => h q (List.mem_cons_of_mem _ hq)), Option.pure_def]

theorem slots_fst_mem {mk : Nat → Slot} {as : List Arr} {s : Slot} (h : s ∈ (slots mk as).map (·.1)) : ∃ k, s = mk k := by
  simp only [slots, List.mem_map, List.mem_mapIdx] at h
  obtain ⟨_, ⟨k, _, rfl⟩, rfl⟩ := h
  exact ⟨k, rfl⟩

theorem slots_fst_nodup {mk : Nat → Slot} (hmk : ∀ i j, mk i = mk j → i = j) (as : List Arr) :
    ((slots mk as).map (·.1)).Nodup := by
  rw [List.nodup_iff_pairwise_ne, List.pairwise_iff_getElem]
  intro i j hi hj hij e
  simp only [slots, List.getElem_map, List.getElem_mapIdx] at e
  exact absurd (hmk _ _ e) (by omega)

theorem slots_snd (mk : Nat → Slot) (as : List Arr) : (slots mk as).map (·.2.view) = as.map Arr.view := by
  apply List.ext_getElem <;> simp [slots]

theorem mem_slots {mk : Nat → Slot} {as : List Arr} {p : Slot × Arr} (h : p ∈ slots mk as) :
    ∃ k a, as[k]? = some a ∧ p = (mk k, a) := by
  simp only [slots, List.mem_mapIdx] at h
  obtain ⟨k, hk, e⟩ := h
  exact ⟨k, as[k], by simp [hk], e.symm⟩

end Verif.Funcs
