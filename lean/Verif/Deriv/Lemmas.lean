import Verif.Deriv.Model
import Mathlib.Tactic.ByContra
import Mathlib.Data.List.Nodup
/-
Lemmas about groups of elements, their locations and sequences of stores.
-/
namespace Verif.Deriv

/-! ### applying a function to all elements -/

theorem mapE_ok {α β : Type} {f : α → Except Err β} {g : α → β} : ∀ (l : List α), (∀ a ∈ l, f a = .ok (g a)) →
    mapE f l = .ok (l.map g)
  | [], _ => rfl
  | a :: as, h => by
    rw [mapE, h a (by simp)]
    simp only
    rw [mapE_ok as fun b hb => h b (by simp [hb])]
    simp

/-! ### groups -/

/-- the elements of a key, in their order -/
def grp (req : List (Nat × Nat)) (k : Nat) : List Nat := (req.filter (·.1 == k)).map (·.2)

theorem grp_append (req : List (Nat × Nat)) (p : Nat × Nat) (k : Nat) :
    grp (req ++ [p]) k = if p.1 = k then grp req k ++ [p.2] else grp req k := by
  unfold grp
  by_cases h : p.1 = k
  · simp [h]
  · simp [h]

theorem mem_grp {req : List (Nat × Nat)} {k i : Nat} : i ∈ grp req k ↔ (k, i) ∈ req := by
  unfold grp
  constructor
  · intro h
    obtain ⟨p, hp, rfl⟩ := List.mem_map.1 h
    obtain ⟨hp, hk⟩ := List.mem_filter.1 hp
    have : p.1 = k := by simpa using hk
    rw [← this]; exact hp
  · intro h
    exact List.mem_map.2 ⟨(k, i), List.mem_filter.2 ⟨h, by simp⟩, rfl⟩

theorem grp_nodup {req : List (Nat × Nat)} (h : req.Nodup) (k : Nat) : (grp req k).Nodup := by
  unfold grp
  refine List.Nodup.map_on ?_ (h.filter _)
  intro p hp q hq e
  obtain ⟨_, hp⟩ := List.mem_filter.1 hp
  obtain ⟨_, hq⟩ := List.mem_filter.1 hq
  have h1 : p.1 = k := by simpa using hp
  have h2 : q.1 = k := by simpa using hq
  exact Prod.ext (h1.trans h2.symm) e

/-- keys in increasing order -/
def Sorted (m : List (Nat × List Nat)) : Prop := m.Pairwise fun a b => a.1 < b.1

theorem mem_pushBack {k v : Nat} : ∀ (m : List (Nat × List Nat)), Sorted m → ∀ (k' : Nat) (vs' : List Nat),
    (k', vs') ∈ pushBack k v m ↔ (k' ≠ k ∧ (k', vs') ∈ m) ∨
      (k' = k ∧ ((∃ vs, (k, vs) ∈ m ∧ vs' = vs ++ [v]) ∨ ((∀ vs, (k, vs) ∉ m) ∧ vs' = [v])))
  | [], _, k', vs' => by
    simp [pushBack]
  | (a, as) :: m, hs, k', vs' => by
    have hs' := List.pairwise_cons.1 hs
    have hlt : ∀ p ∈ m, a < p.1 := fun p hp => hs'.1 p hp
    rw [pushBack]
    by_cases h1 : k < a
    · rw [if_pos h1]
      have hno : ∀ vs, (k, vs) ∉ (a, as) :: m := by
        intro vs hm
        rcases List.mem_cons.1 hm with e | hm
        · have : k = a := congrArg Prod.fst e
          omega
        · have := hlt _ hm; simp only at this; omega
      constructor
      · intro hm
        rcases List.mem_cons.1 hm with e | hm'
        · cases e
          exact .inr ⟨rfl, .inr ⟨hno, rfl⟩⟩
        · refine .inl ⟨?_, hm'⟩
          rintro rfl
          exact hno _ hm'
      · rintro (⟨_, hm⟩ | ⟨rfl, ⟨vs, hm, _⟩ | ⟨_, rfl⟩⟩)
        · exact List.mem_cons_of_mem _ hm
        · exact absurd hm (hno vs)
        · exact List.mem_cons_self
    · rw [if_neg h1]
      by_cases h2 : k = a
      · rw [if_pos h2]
        subst h2
        have hno : ∀ vs, (k, vs) ∉ m := fun vs hm => by
          have := hlt _ hm; simp only at this; omega
        constructor
        · intro hm
          rcases List.mem_cons.1 hm with e | hm'
          · cases e
            exact .inr ⟨rfl, .inl ⟨as, List.mem_cons_self, rfl⟩⟩
          · refine .inl ⟨?_, List.mem_cons_of_mem _ hm'⟩
            rintro rfl
            exact hno _ hm'
        · rintro (⟨hk, hm⟩ | ⟨rfl, ⟨vs, hm, rfl⟩ | ⟨hn, rfl⟩⟩)
          · rcases List.mem_cons.1 hm with e | hm
            · exact absurd (congrArg Prod.fst e) hk
            · exact List.mem_cons_of_mem _ hm
          · rcases List.mem_cons.1 hm with e | hm
            · cases e; exact List.mem_cons_self
            · exact absurd hm (hno vs)
          · exact absurd List.mem_cons_self (hn as)
      · rw [if_neg h2]
        have ih := mem_pushBack (k := k) (v := v) m hs'.2 k' vs'
        constructor
        · intro hm
          rcases List.mem_cons.1 hm with e | hm
          · cases e
            exact .inl ⟨fun e => h2 e.symm, List.mem_cons_self⟩
          · rcases ih.1 hm with ⟨hk, hm⟩ | ⟨hk, ⟨vs, hm, hv⟩ | ⟨hn, hv⟩⟩
            · exact .inl ⟨hk, List.mem_cons_of_mem _ hm⟩
            · exact .inr ⟨hk, .inl ⟨vs, List.mem_cons_of_mem _ hm, hv⟩⟩
            · refine .inr ⟨hk, .inr ⟨fun vs hm => ?_, hv⟩⟩
              rcases List.mem_cons.1 hm with e | hm
              · exact h2 (congrArg Prod.fst e)
              · exact hn vs hm
        · rintro (⟨hk, hm⟩ | ⟨hk, ⟨vs, hm, hv⟩ | ⟨hn, hv⟩⟩)
          · rcases List.mem_cons.1 hm with e | hm
            · rw [e]; exact List.mem_cons_self
            · exact List.mem_cons_of_mem _ (ih.2 (.inl ⟨hk, hm⟩))
          · rcases List.mem_cons.1 hm with e | hm
            · exact absurd (congrArg Prod.fst e) h2
            · exact List.mem_cons_of_mem _ (ih.2 (.inr ⟨hk, .inl ⟨vs, hm, hv⟩⟩))
          · exact List.mem_cons_of_mem _ (ih.2 (.inr ⟨hk, .inr ⟨fun vs hm => hn vs (List.mem_cons_of_mem _ hm), hv⟩⟩))

theorem pushBack_sorted {k v : Nat} : ∀ (m : List (Nat × List Nat)), Sorted m → Sorted (pushBack k v m)
  | [], _ => by simp [pushBack, Sorted]
  | (a, as) :: m, hs => by
    have hs' := List.pairwise_cons.1 hs
    rw [pushBack]
    by_cases h1 : k < a
    · rw [if_pos h1]
      refine List.pairwise_cons.2 ⟨fun p hp => ?_, hs⟩
      rcases List.mem_cons.1 hp with rfl | hp
      · exact h1
      · exact Nat.lt_trans h1 (hs'.1 p hp)
    · rw [if_neg h1]
      by_cases h2 : k = a
      · rw [if_pos h2]
        exact List.pairwise_cons.2 ⟨hs'.1, hs'.2⟩
      · rw [if_neg h2]
        refine List.pairwise_cons.2 ⟨fun p hp => ?_, pushBack_sorted m hs'.2⟩
        rcases (mem_pushBack m hs'.2 p.1 p.2).1 hp with ⟨_, hm⟩ | ⟨hk, _⟩
        · exact hs'.1 _ hm
        · show a < p.1
          omega

theorem groups_aux : ∀ (rest pre : List (Nat × Nat)) (m : List (Nat × List Nat)), Sorted m →
    (∀ k vs, (k, vs) ∈ m ↔ vs = grp pre k ∧ vs ≠ []) →
    Sorted (rest.foldl (fun m p => pushBack p.1 p.2 m) m) ∧
    (∀ k vs, (k, vs) ∈ rest.foldl (fun m p => pushBack p.1 p.2 m) m ↔ vs = grp (pre ++ rest) k ∧ vs ≠ [])
  | [], pre, m, hs, hm => by
    rw [List.append_nil]
    exact ⟨hs, hm⟩
  | p :: rest, pre, m, hs, hm => by
    have key := groups_aux rest (pre ++ [p]) (pushBack p.1 p.2 m) (pushBack_sorted m hs) ?_
    · simpa using key
    · intro k vs
      rw [mem_pushBack m hs, grp_append]
      by_cases hk : p.1 = k
      · rw [if_pos hk]
        subst hk
        constructor
        · rintro (⟨h, _⟩ | ⟨_, ⟨vs', h, rfl⟩ | ⟨hn, rfl⟩⟩)
          · exact absurd rfl h
          · rw [((hm _ _).1 h).1]
            simp
          · have : grp pre p.1 = [] := by
              by_contra hne
              exact hn _ ((hm _ _).2 ⟨rfl, hne⟩)
            rw [this]; simp
        · rintro ⟨rfl, _⟩
          refine .inr ⟨rfl, ?_⟩
          by_cases hne : grp pre p.1 = []
          · refine .inr ⟨fun vs h => ?_, by rw [hne]; rfl⟩
            have := (hm _ _).1 h
            exact this.2 (this.1.trans hne)
          · exact .inl ⟨_, (hm _ _).2 ⟨rfl, hne⟩, rfl⟩
      · rw [if_neg hk]
        constructor
        · rintro (⟨_, h⟩ | ⟨h, _⟩)
          · exact (hm _ _).1 h
          · exact absurd h.symm hk
        · intro h
          exact .inl ⟨fun e => hk e.symm, (hm _ _).2 h⟩

theorem groups_sorted (req : List (Nat × Nat)) : Sorted (groups req) :=
  (groups_aux req [] [] List.Pairwise.nil (by intro k vs; simp [grp])).1

theorem mem_groups {req : List (Nat × Nat)} {k : Nat} {vs : List Nat} :
    (k, vs) ∈ groups req ↔ vs = grp req k ∧ vs ≠ [] := by
  exact (groups_aux req [] [] List.Pairwise.nil (by intro k vs; simp [grp])).2 k vs

theorem find_groups {req : List (Nat × Nat)} {k : Nat} {vs : List Nat} (h : (k, vs) ∈ groups req) :
    (groups req).find? (·.1 == k) = some (k, vs) := by
  cases hf : (groups req).find? (·.1 == k) with
  | none =>
    have := List.find?_eq_none.1 hf _ h
    simp at this
  | some g =>
    have h1 : g.1 = k := by simpa using List.find?_some hf
    have h2 := List.mem_of_find?_eq_some hf
    have h3 : (g.1, g.2) ∈ groups req := h2
    rw [h1] at h3
    have e1 := (mem_groups.1 h3).1
    have e2 := (mem_groups.1 h).1
    congr 1
    exact Prod.ext h1 (e1.trans e2.symm)

/-! ### locations -/

theorem locate_some {req : List (Nat × Nat)} {k i l : Nat} (h : locate req k i = some l) : req[l]? = some (k, i) := by
  obtain ⟨hl, hp, _⟩ := List.findIdx?_eq_some_iff_getElem.1 h
  have : req[l] = (k, i) := by simpa using hp
  rw [List.getElem?_eq_getElem hl, this]

theorem locate_mem {req : List (Nat × Nat)} {k i : Nat} (h : (k, i) ∈ req) : ∃ l, locate req k i = some l := by
  cases hc : locate req k i with
  | some l => exact ⟨l, rfl⟩
  | none =>
    have := List.findIdx?_eq_none_iff.1 hc _ h
    simp at this

theorem nodup_get {α : Type} {l : List α} (h : l.Nodup) {a b : Nat} {x : α} (ha : l[a]? = some x) (hb : l[b]? = some x) :
    a = b := by
  obtain ⟨h1, e1⟩ := List.getElem?_eq_some_iff.1 ha
  obtain ⟨h2, e2⟩ := List.getElem?_eq_some_iff.1 hb
  exact (List.Nodup.getElem_inj_iff h).1 (e1.trans e2.symm)

theorem locate_get {req : List (Nat × Nat)} (hn : req.Nodup) {k i l : Nat} (h : req[l]? = some (k, i)) :
    locate req k i = some l := by
  obtain ⟨l', hl'⟩ := locate_mem (List.mem_of_getElem? h)
  rw [hl', nodup_get hn (locate_some hl') h]

/-! ### ordered groups -/

theorem inOrder_ok (start : Nat) : ∀ (ls : List Nat) (e : Nat), ∃ b, inOrder start (ls.map some) e = .ok b ∧
    (b = true → ∀ (i : Nat), ∀ l, ls[i]? = some l → l = start + e + i)
  | [], e => ⟨true, rfl, by simp⟩
  | l :: ls, e => by
    rw [List.map_cons, inOrder]
    by_cases h : l ≠ start + e
    · rw [if_pos h]
      exact ⟨false, rfl, by simp⟩
    · rw [if_neg h]
      obtain ⟨b, hb, hall⟩ := inOrder_ok start ls (e + 1)
      refine ⟨b, hb, fun ht i l' hi => ?_⟩
      cases i with
      | zero =>
        simp only [List.getElem?_cons_zero, Option.some.injEq] at hi
        omega
      | succ i =>
        have := hall ht i l' (by simpa using hi)
        omega

theorem isOrdered_ok {ls : List Nat} (h : ls ≠ []) : ∃ b, isOrdered (ls.map some) = .ok b ∧
    (b = true → ∀ (i : Nat), ∀ l, ls[i]? = some l → l = ls.head h + i) := by
  cases ls with
  | nil => exact absurd rfl h
  | cons a as =>
    obtain ⟨b, hb, hall⟩ := inOrder_ok a (a :: as) 0
    refine ⟨b, ?_, fun ht i l hi => by simpa using hall ht i l hi⟩
    simp only [List.map_cons] at hb ⊢
    simpa [isOrdered] using hb

/-! ### stores -/

theorem store_ok {V : Type} {a : Mem V} {l : Nat} (v : V) (h : l < a.length) : store a l v = .ok (a.set l (some v)) := by
  rw [store, if_pos h]

theorem storeAll_direct {V : Type} : ∀ (vs : List V) (a : Mem V) (l : Nat),
    storeAll a l vs = storeList a (direct l vs)
  | [], _, _ => rfl
  | v :: vs, a, l => by
    rw [storeAll, direct, storeList]
    cases store a l v with
    | error e => rfl
    | ok a => exact storeAll_direct vs a (l + 1)

theorem storeList_append {V : Type} : ∀ (ws ws' : List (Nat × V)) (a : Mem V),
    storeList a (ws ++ ws') = match storeList a ws with | .ok a => storeList a ws' | .error e => .error e
  | [], _, _ => rfl
  | (l, v) :: ws, ws', a => by
    rw [List.cons_append, storeList, storeList]
    cases store a l v with
    | error e => rfl
    | ok a => exact storeList_append ws ws' a

/-- stores of values which only depend on the location -/
theorem storeList_ok {V : Type} : ∀ (ws : List (Nat × V)) (a : Mem V), (∀ w ∈ ws, w.1 < a.length) →
    ∃ a', storeList a ws = .ok a' ∧ a'.length = a.length ∧
      (∀ (f : Nat → V), (∀ w ∈ ws, w.2 = f w.1) → ∀ (l : Nat),
        ((∃ w ∈ ws, w.1 = l) → a'[l]? = some (some (f l))) ∧ ((∀ w ∈ ws, w.1 ≠ l) → a'[l]? = a[l]?))
  | [], a, _ => ⟨a, rfl, rfl, fun f _ l => ⟨by simp, by simp⟩⟩
  | (l, v) :: ws, a, h => by
    have hl : l < a.length := h (l, v) (by simp)
    rw [storeList, store_ok v hl]
    simp only
    obtain ⟨a', he, hlen, hall⟩ := storeList_ok ws (a.set l (some v)) (fun w hw => by
      rw [List.length_set]; exact h w (by simp [hw]))
    refine ⟨a', he, by rw [hlen, List.length_set], fun f hf l' => ?_⟩
    obtain ⟨h1, h2⟩ := hall f (fun w hw => hf w (by simp [hw])) l'
    have hv : v = f l := hf (l, v) (by simp)
    constructor
    · rintro ⟨w, hw, hwl⟩
      rcases List.mem_cons.1 hw with rfl | hw
      · by_cases hex : ∃ w ∈ ws, w.1 = l'
        · exact h1 hex
        · rw [h2 fun w hw e => hex ⟨w, hw, e⟩]
          simp only at hwl
          subst hwl
          rw [List.getElem?_set_self hl, hv]
      · exact h1 ⟨w, hw, hwl⟩
    · intro hno
      rw [h2 fun w hw => hno w (by simp [hw])]
      rw [List.getElem?_set_ne]
      exact hno (l, v) (by simp)

/-- stores of the values `vs` from location 0 on -/
theorem direct_get {V : Type} : ∀ (vs : List V) (l : Nat) (w : Nat × V),
    w ∈ direct l vs ↔ ∃ e, vs[e]? = some w.2 ∧ w.1 = l + e
  | [], _, w => by simp [direct]
  | v :: vs, l, w => by
    rw [direct, List.mem_cons, direct_get vs (l + 1)]
    constructor
    · rintro (rfl | ⟨e, h1, h2⟩)
      · exact ⟨0, by simp, rfl⟩
      · exact ⟨e + 1, by simpa using h1, by omega⟩
    · rintro ⟨e, h1, h2⟩
      cases e with
      | zero =>
        refine .inl (Prod.ext h2 ?_)
        simpa using h1.symm
      | succ e => exact .inr ⟨e, by simpa using h1, by omega⟩

theorem storeAll_ok {V : Type} (a : Mem V) (vs : List V) (h : vs.length ≤ a.length) :
    ∃ a', storeAll a 0 vs = .ok a' ∧ a'.length = a.length ∧ ∀ (e : Nat), ∀ v, vs[e]? = some v → a'[e]? = some (some v) := by
  cases vs with
  | nil => exact ⟨a, rfl, rfl, by simp⟩
  | cons v0 vs0 =>
    rw [storeAll_direct]
    generalize hvs : v0 :: vs0 = vs at h ⊢
    obtain ⟨a', he, hlen, hall⟩ := storeList_ok (direct 0 vs) a (fun w hw => by
      obtain ⟨e, h1, h2⟩ := (direct_get vs 0 w).1 hw
      have := (List.getElem?_eq_some_iff.1 h1).1
      omega)
    refine ⟨a', he, hlen, fun e v hv => ?_⟩
    have hd : Inhabited V := ⟨v⟩
    have := (hall (fun l => vs[l]!) (fun w hw => by
      obtain ⟨e, h1, h2⟩ := (direct_get vs 0 w).1 hw
      rw [h2, Nat.zero_add, List.getElem!_eq_getElem?_getD, h1]; rfl) e).1
      ⟨(e, v), (direct_get vs 0 (e, v)).2 ⟨e, hv, by simp⟩, rfl⟩
    rw [this, List.getElem!_eq_getElem?_getD, hv]
    rfl

/-- the stores to the locations `ls` -/
def zipStores {V : Type} : List Nat → List V → List (Nat × V)
  | l :: ls, v :: vs => (l, v) :: zipStores ls vs
  | _, _ => []

theorem mem_zipStores {V : Type} : ∀ {ls : List Nat} {vs : List V} {w : Nat × V},
    w ∈ zipStores ls vs ↔ ∃ e : Nat, ls[e]? = some w.1 ∧ vs[e]? = some w.2
  | [], _, w => by simp [zipStores]
  | _ :: _, [], w => by simp [zipStores]
  | l :: ls, v :: vs, w => by
    rw [zipStores, List.mem_cons, mem_zipStores]
    constructor
    · rintro (rfl | ⟨e, h1, h2⟩)
      · exact ⟨0, by simp, by simp⟩
      · exact ⟨e + 1, by simpa using h1, by simpa using h2⟩
    · rintro ⟨e, h1, h2⟩
      cases e with
      | zero =>
        refine .inl (Prod.ext ?_ ?_)
        · simpa using h1.symm
        · simpa using h2.symm
      | succ e => exact .inr ⟨e, by simpa using h1, by simpa using h2⟩

theorem direct_zip {V : Type} : ∀ (ls : List Nat) (vs : List V) (l : Nat), ls.length = vs.length →
    (∀ (i : Nat), ∀ l', ls[i]? = some l' → l' = l + i) → direct l vs = zipStores ls vs
  | [], [], _, _, _ => rfl
  | a :: as, v :: vs, l, hlen, h => by
    rw [direct, zipStores]
    have h0 : a = l := h 0 a (by simp)
    rw [h0]
    congr 1
    refine direct_zip as vs (l + 1) (by simpa using hlen) fun i l' hi => ?_
    have := h (i + 1) l' (by simpa using hi)
    omega
  | [], _ :: _, _, hlen, _ => by simp at hlen
  | _ :: _, [], _, hlen, _ => by simp at hlen

theorem copies_ok {V : Type} (comp : Mem V) : ∀ (ls : List Nat) (vs : List V) (e : Nat), ls.length = vs.length →
    (∀ (i : Nat), ∀ v, vs[i]? = some v → comp[e + i]? = some (some v)) →
    copies comp (ls.map some) e = .ok (zipStores ls vs)
  | [], [], _, _, _ => rfl
  | l :: ls, v :: vs, e, hlen, h => by
    rw [List.map_cons, copies, copies_ok comp ls vs (e + 1) (by simpa using hlen) fun i v' hi => by
      have := h (i + 1) v' (by simpa using hi)
      rw [← this]; congr 1; omega]
    have h0 := h 0 v (by simp)
    rw [Nat.add_zero] at h0
    rw [load, h0]
    rfl
  | [], _ :: _, _, hlen, _ => by simp at hlen
  | _ :: _, [], _, hlen, _ => by simp at hlen

theorem execAll_append {V : Type} (fn : Fun V) (args : Args V) : ∀ (is js : List Instr) (s : State V),
    execAll fn args (is ++ js) s =
      match execAll fn args is s with | .ok s => execAll fn args js s | .error e => .error e
  | [], _, _ => rfl
  | i :: is, js, s => by
    rw [List.cons_append, execAll, execAll]
    cases i.exec fn args s with
    | error e => rfl
    | ok s => exact execAll_append fn args is js s

theorem copyInstrs_ok {V : Type} (fn : Fun V) (args : Args V) : ∀ (ls : List Nat) (vs : List V) (e : Nat) (s : State V),
    ls.length = vs.length → (∀ (i : Nat), ∀ v, vs[i]? = some v → s.comp[e + i]? = some (some v)) →
    execAll fn args (copyInstrs (ls.map some) e) s =
      (storeList s.jac (zipStores ls vs)).map fun a => { s with jac := a }
  | [], [], _, _, _, _ => rfl
  | l :: ls, v :: vs, e, s, hlen, h => by
    have h0 := h 0 v (by simp)
    rw [Nat.add_zero] at h0
    rw [List.map_cons, copyInstrs, execAll, Instr.exec, load, h0, zipStores, storeList]
    simp only
    cases store s.jac l v with
    | error e => rfl
    | ok a =>
      simp only [Except.map]
      exact copyInstrs_ok fn args ls vs (e + 1) { s with jac := a } (by simpa using hlen) fun i v' hi => by
        have := h (i + 1) v' (by simpa using hi)
        rw [← this]; show s.comp[_]? = _; congr 1; omega
  | [], _ :: _, _, _, hlen, _ => by simp at hlen
  | _ :: _, [], _, _, hlen, _ => by simp at hlen

end Verif.Deriv
