import Verif.Loops.LemmasRun

/-
Lemmas on the analysis of the requested Jacobian elements.
-/
namespace Verif.Loops

open Verif.Index Verif.Ranges

/-! ### sets and maps -/

theorem mem_ins {s : List Nat} {x y : Nat} : y ∈ ins s x ↔ y ∈ s ∨ y = x := by
  unfold ins
  by_cases h : x ∈ s
  · rw [if_pos h]
    constructor
    · exact Or.inl
    · rintro (h' | rfl)
      · exact h'
      · exact h
  · rw [if_neg h]; simp

theorem ins_nodup {s : List Nat} {x : Nat} (h : s.Nodup) : (ins s x).Nodup := by
  unfold ins
  by_cases hx : x ∈ s
  · rwa [if_pos hx]
  · rw [if_neg hx, List.nodup_append]
    exact ⟨h, by simp, fun a ha b hb => by rw [List.mem_singleton.mp hb]; rintro rfl; exact hx ha⟩

theorem get_set {β : Type} (k : Nat) (v : β) (k' : Nat) : ∀ m : Map β,
    (m.set k v).get k' = if k' = k then some v else m.get k'
  | [] => by
    simp only [Map.set, Map.get]
    by_cases h : k' = k
    · simp [h]
    · simp [h, Ne.symm h]
  | (a, b) :: m => by
    have ih := get_set k v k' m
    simp only [Map.set]
    by_cases h : a = k
    · rw [if_pos h]
      subst h
      by_cases h' : k' = a
      · subst h'; simp [Map.get]
      · simp [Map.get, h', Ne.symm h']
    · rw [if_neg h]
      by_cases h' : k' = a
      · subst h'
        rw [if_neg h]
        simp [Map.get]
      · have e1 : Map.get ((a, b) :: Map.set m k v) k' = Map.get (Map.set m k v) k' := by simp [Map.get, Ne.symm h']
        have e2 : Map.get ((a, b) :: m) k' = Map.get m k' := by simp [Map.get, Ne.symm h']
        rw [e1, e2, ih]

theorem set_keys {β : Type} (k : Nat) (v : β) : ∀ m : Map β, ∀ x, x ∈ (m.set k v).map (·.1) ↔ x = k ∨ x ∈ m.map (·.1)
  | [], x => by simp [Map.set]
  | (a, b) :: m, x => by
    have ih := set_keys k v m x
    simp only [Map.set]
    by_cases h : a = k
    · rw [if_pos h]; subst h; simp
    · rw [if_neg h, List.map_cons, List.mem_cons, ih, List.map_cons, List.mem_cons]
      tauto

theorem set_nodup {β : Type} (k : Nat) (v : β) : ∀ m : Map β, (m.map (·.1)).Nodup → ((m.set k v).map (·.1)).Nodup
  | [], _ => by simp [Map.set]
  | (a, b) :: m, hnd => by
    rw [List.map_cons, List.nodup_cons] at hnd
    simp only [Map.set]
    by_cases h : a = k
    · rw [if_pos h]; subst h; rw [List.map_cons, List.nodup_cons]; exact hnd
    · rw [if_neg h, List.map_cons, List.nodup_cons]
      refine ⟨fun hm => ?_, set_nodup k v m hnd.2⟩
      rcases (set_keys k v m a).mp hm with h' | h'
      · exact h h'
      · exact hnd.1 h'

theorem set_mem {β : Type} (k : Nat) (v : β) : ∀ m : Map β, ∀ p ∈ m.set k v, p = (k, v) ∨ p ∈ m
  | [], p, hp => by simpa [Map.set] using hp
  | (a, b) :: m, p, hp => by
    simp only [Map.set] at hp
    by_cases h : a = k
    · rw [if_pos h] at hp
      rcases List.mem_cons.mp hp with rfl | h'
      · exact Or.inl rfl
      · exact Or.inr (List.mem_cons_of_mem _ h')
    · rw [if_neg h] at hp
      rcases List.mem_cons.mp hp with rfl | h'
      · exact Or.inr List.mem_cons_self
      · rcases set_mem k v m p h' with h'' | h''
        · exact Or.inl h''
        · exact Or.inr (List.mem_cons_of_mem _ h'')

theorem get_mem {β : Type} {m : Map β} {k : Nat} {v : β} (h : m.get k = some v) : (k, v) ∈ m := by
  unfold Map.get at h
  cases hf : m.find? (fun p => p.1 == k) with
  | none => rw [hf] at h; simp at h
  | some p =>
    rw [hf] at h
    simp only [Option.map_some, Option.some.injEq] at h
    have h1 := List.find?_some hf
    have h2 := List.mem_of_find?_eq_some hf
    simp only [beq_iff_eq] at h1
    rw [← h, ← h1]; exact h2

theorem get_of_mem {β : Type} : ∀ {m : Map β}, (m.map (·.1)).Nodup → ∀ {k : Nat} {v : β}, (k, v) ∈ m → m.get k = some v
  | [], _, _, _, h => by simp at h
  | (a, b) :: m, hnd, k, v, h => by
    rw [List.map_cons, List.nodup_cons] at hnd
    rcases List.mem_cons.mp h with h' | h'
    · simp only [Prod.mk.injEq] at h'
      obtain ⟨rfl, rfl⟩ := h'
      simp [Map.get]
    · have : a ≠ k := by
        rintro rfl
        exact hnd.1 (List.mem_map.mpr ⟨_, h', rfl⟩)
      have e : Map.get ((a, b) :: m) k = Map.get m k := by simp [Map.get, this]
      rw [e]
      exact get_of_mem hnd.2 h'

/-! ### tables of positions -/

/-- position stored for a key and an iteration -/
def cell (m : Map (List (Option Nat))) (k it : Nat) : Option Nat := ((m.get k).bind (·[it]?)).join

/-- a table of positions for `n` iterations, without useless entries -/
structure PosOk (n : Nat) (m : Map (List (Option Nat))) : Prop where
  nodup : (m.map (·.1)).Nodup
  len : ∀ p ∈ m, p.2.length = n
  used : ∀ p ∈ m, ∃ it e : Nat, p.2[it]? = some (some e)

theorem posOk_nil (n : Nat) : PosOk n [] := ⟨by simp, by simp, by simp⟩

theorem cell_eq {n : Nat} {m : Map (List (Option Nat))} (h : PosOk n m) {p : Nat × List (Option Nat)} (hp : p ∈ m) (it : Nat) :
    cell m p.1 it = (p.2[it]?).join := by
  unfold cell
  rw [get_of_mem h.nodup hp]; rfl

theorem cell_key {m : Map (List (Option Nat))} {k it e : Nat} (h : cell m k it = some e) : ∃ pos, (k, pos) ∈ m := by
  unfold cell at h
  cases hg : m.get k with
  | none => rw [hg] at h; simp at h
  | some pos => exact ⟨pos, get_mem hg⟩

theorem putPos_ok {n : Nat} {m : Map (List (Option Nat))} (h : PosOk n m) {k it : Nat} (hit : it < n) (hc : cell m k it = none) (e i j : Nat) :
    ∃ m', putPos n m k it e i j = .ok m' ∧ PosOk n m' ∧
      ∀ k' it', cell m' k' it' = if k' = k ∧ it' = it then some e else cell m k' it' := by
  have hlen : ((((m.get k).getD []) ++ List.replicate (n - ((m.get k).getD []).length) none).take n).length = n := by
    rw [List.length_take, List.length_append, List.length_replicate]; omega
  have hget : ∀ it' < n, ((((m.get k).getD []) ++ List.replicate (n - ((m.get k).getD []).length) none).take n)[it']? =
      some (cell m k it') := by
    intro it' h'
    rw [List.getElem?_take, if_pos h', cell]
    cases hg : m.get k with
    | none => simp [h']
    | some pos =>
      have hl := h.len _ (get_mem hg)
      simp only at hl
      have : it' < pos.length := by omega
      simp only [Option.getD_some, hl, Nat.sub_self, List.replicate_zero, List.append_nil, Option.bind_some]
      rw [List.getElem?_eq_getElem this]; rfl
  refine ⟨m.set k (((((m.get k).getD []) ++ List.replicate (n - ((m.get k).getD []).length) none).take n).set it (some e)), ?_, ?_, ?_⟩
  · rw [putPos, hget it hit, hc]
  · refine ⟨set_nodup _ _ _ h.nodup, ?_, ?_⟩
    · intro p hp
      rcases set_mem _ _ _ p hp with rfl | hp
      · simp only [List.length_set]; exact hlen
      · exact h.len p hp
    · intro p hp
      rcases set_mem _ _ _ p hp with rfl | hp
      · refine ⟨it, e, ?_⟩
        simp only
        rw [List.getElem?_set_self (by rw [hlen]; exact hit)]
      · exact h.used p hp
  · intro k' it'
    rw [cell, get_set]
    by_cases hk : k' = k
    · subst hk
      rw [if_pos rfl, Option.bind_some]
      by_cases hi : it' = it
      · subst hi
        rw [List.getElem?_set_self (by rw [hlen]; exact hit), if_pos ⟨rfl, rfl⟩]; rfl
      · rw [List.getElem?_set_ne (Ne.symm hi), if_neg (by tauto)]
        by_cases hn : it' < n
        · rw [hget it' hn]; rfl
        · rw [List.getElem?_eq_none (by rw [hlen]; omega)]
          unfold cell
          cases hg : m.get k' with
          | none => simp
          | some pos =>
            have hl := h.len _ (get_mem hg)
            simp only at hl
            simp [List.getElem?_eq_none (l := pos) (i := it') (by omega)]
    · rw [if_neg hk, if_neg (by tauto)]; rfl

theorem putPos_repeated {n : Nat} {m : Map (List (Option Nat))} (h : PosOk n m) {k it e' : Nat} (hit : it < n)
    (hc : cell m k it = some e') (e i j : Nat) : putPos n m k it e i j = .error (.repeated i j) := by
  have hget : ((((m.get k).getD []) ++ List.replicate (n - ((m.get k).getD []).length) none).take n)[it]? =
      some (cell m k it) := by
    rw [List.getElem?_take, if_pos hit, cell]
    cases hg : m.get k with
    | none => simp [hit]
    | some pos =>
      have hl := h.len _ (get_mem hg)
      simp only at hl
      have : it < pos.length := by omega
      simp only [Option.getD_some, hl, Nat.sub_self, List.replicate_zero, List.append_nil, Option.bind_some]
      rw [List.getElem?_eq_getElem this]; rfl
  rw [putPos, hget, hc]

/-! ### look-ups -/

theorem lastIdx_some {l : List Nat} {x p : Nat} (h : lastIdx l x = some p) : l[p]? = some x := by
  unfold lastIdx at h
  have := List.mem_of_getLast? h
  simpa using (List.mem_filter.mp this).2

theorem lastIdx_eq {l : List Nat} (hnd : l.Nodup) {x p : Nat} (h : l[p]? = some x) : lastIdx l x = some p := by
  cases hl : lastIdx l x with
  | none =>
    unfold lastIdx at hl
    rw [List.getLast?_eq_none_iff] at hl
    have : p ∈ (List.range l.length).filter fun p => l[p]? == some x := by
      rw [List.mem_filter]
      exact ⟨List.mem_range.mpr (List.getElem?_eq_some_iff.mp h).1, by simpa using h⟩
    rw [hl] at this; simp at this
  | some p' =>
    have h' := lastIdx_some hl
    rw [List.getElem?_eq_some_iff] at h h'
    obtain ⟨a1, a2⟩ := h
    obtain ⟨b1, b2⟩ := h'
    have := (List.Nodup.getElem_inj_iff hnd (hi := a1) (hj := b1)).mp (by rw [a2, b2])
    rw [this]

theorem mem_tapeIndexes {l : Loop} {it j t : Nat} : t ∈ tapeIndexes l it j ↔ l.var t it = some j := by
  unfold tapeIndexes
  rw [List.mem_filter, List.mem_range, beq_iff_eq]
  refine ⟨And.right, fun h => ⟨?_, h⟩⟩
  unfold Loop.var at h
  by_contra hn
  rw [List.getElem?_eq_none (l := l.ind) (i := t) (by omega)] at h
  simp at h

theorem tapeIndexes_nodup (l : Loop) (it j : Nat) : (tapeIndexes l it j).Nodup := List.nodup_range.filter _

theorem eq_bounds {l : Loop} {t it i : Nat} (hd : ∀ d ∈ l.dep, d.length = l.iters) (h : l.eq t it = some i) : t < l.dep.length ∧ it < l.iters := by
  unfold Loop.eq at h
  cases hg : l.dep[t]? with
  | none => rw [hg] at h; simp at h
  | some d =>
    rw [hg, Option.bind_some, Option.join_eq_some_iff] at h
    have := hd d (List.mem_of_getElem? hg)
    exact ⟨(List.getElem?_eq_some_iff.mp hg).1, by rw [← this]; exact (List.getElem?_eq_some_iff.mp h).1⟩

theorem findEq_some {l : Loop} {i : Nat} {c : Nat × Nat} (h : l.findEq i = some c) : l.eq c.1 c.2 = some i := by
  unfold Loop.findEq at h
  have := List.mem_of_getLast? h
  simpa using (List.mem_filter.mp this).2

theorem findEq_exists {l : Loop} (hd : ∀ d ∈ l.dep, d.length = l.iters) {t it i : Nat} (h : l.eq t it = some i) : l.findEq i ≠ none := by
  intro hn
  unfold Loop.findEq at hn
  rw [List.getLast?_eq_none_iff] at hn
  have hb := eq_bounds hd h
  have : (t, it) ∈ l.cells.filter fun c => l.eq c.1 c.2 == some i := by
    rw [List.mem_filter]
    refine ⟨?_, by simpa using h⟩
    unfold Loop.cells
    rw [List.mem_flatMap]
    exact ⟨t, List.mem_range.mpr hb.1, List.mem_map.mpr ⟨it, List.mem_range.mpr hb.2, rfl⟩⟩
  rw [hn] at this; simp at this

theorem findLoop_some {loops : List (Loop × List (List Nat))} {i q t it : Nat} (h : findLoop loops i = some (q, t, it)) :
    ∃ l jac, loops[q]? = some (l, jac) ∧ l.eq t it = some i := by
  unfold findLoop at h
  obtain ⟨q', _, h'⟩ := List.exists_of_findSome?_eq_some h
  cases hl : loops[q']? with
  | none => rw [hl] at h'; simp at h'
  | some l =>
    rw [hl, Option.bind_some] at h'
    cases hf : l.1.findEq i with
    | none => rw [hf] at h'; simp at h'
    | some c =>
      rw [hf] at h'
      simp only [Option.map_some, Option.some.injEq, Prod.mk.injEq] at h'
      obtain ⟨rfl, rfl, rfl⟩ := h'
      exact ⟨l.1, l.2, hl, findEq_some hf⟩

theorem findLoop_none {M : Model} (hM : M.Ok) {i : Nat} (h : findLoop M.loops i = none) :
    ∀ (q t it : Nat) (l : Loop) (jac : List (List Nat)), M.loops[q]? = some (l, jac) → l.eq t it ≠ some i := by
  intro q t it l jac hl he
  unfold findLoop at h
  rw [List.findSome?_eq_none_iff] at h
  have := h q (List.mem_range.mpr (List.getElem?_eq_some_iff.mp hl).1)
  rw [hl, Option.bind_some, Option.map_eq_none_iff] at this
  exact findEq_exists (hM.deps q l jac hl) he this

/-! ### steps of the analysis -/

theorem stepIndexed_ok {n it : Nat} (hit : it < n) (e i j : Nat) (row : List Nat) : ∀ (ts : List Nat), ts.Nodup →
    ∀ (info : RowInfo) (ev : List Nat), PosOk n info.idxPos → (∀ t ∈ ts, t ∈ row → cell info.idxPos t it = none) →
    ∃ m ev', stepIndexed n it e i j row ts (info, ev) = .ok ({ info with idxPos := m }, ev') ∧ PosOk n m ∧
      (∀ t it', cell m t it' = if (t ∈ ts ∧ t ∈ row) ∧ it' = it then some e else cell info.idxPos t it') ∧
      ∀ t, t ∈ ev' ↔ t ∈ ev ∨ (t ∈ ts ∧ t ∈ row)
  | [], _, info, ev, hp, _ => ⟨info.idxPos, ev, rfl, hp, by simp, by simp⟩
  | t0 :: ts, hnd, info, ev, hp, hc => by
    rw [List.nodup_cons] at hnd
    rw [stepIndexed]
    by_cases hr : t0 ∈ row
    · rw [if_pos hr]
      obtain ⟨m1, g1, g2, g3⟩ := putPos_ok hp hit (hc t0 List.mem_cons_self hr) e i j
      rw [g1]
      simp only
      obtain ⟨m2, ev2, k1, k2, k3, k4⟩ := stepIndexed_ok hit e i j row ts hnd.2 { info with idxPos := m1 } (ins ev t0) g2 (by
        intro t ht htr
        rw [g3, if_neg]
        · exact hc t (List.mem_cons_of_mem _ ht) htr
        · rintro ⟨rfl, _⟩; exact hnd.1 ht)
      refine ⟨m2, ev2, k1, k2, ?_, ?_⟩
      · intro t it'
        rw [k3, g3]
        by_cases h1 : (t ∈ ts ∧ t ∈ row) ∧ it' = it
        · rw [if_pos h1, if_pos]
          exact ⟨⟨List.mem_cons_of_mem _ h1.1.1, h1.1.2⟩, h1.2⟩
        · rw [if_neg h1]
          by_cases h2 : t = t0 ∧ it' = it
          · rw [if_pos h2, if_pos]
            obtain ⟨rfl, rfl⟩ := h2
            exact ⟨⟨List.mem_cons_self, hr⟩, rfl⟩
          · rw [if_neg h2, if_neg]
            rintro ⟨⟨h3, h4⟩, h5⟩
            rcases List.mem_cons.mp h3 with h6 | h6
            · exact h2 ⟨h6, h5⟩
            · exact h1 ⟨⟨h6, h4⟩, h5⟩
      · intro t
        rw [k4, mem_ins]
        simp only [List.mem_cons]
        constructor
        · rintro ((h | rfl) | h)
          · exact Or.inl h
          · exact Or.inr ⟨Or.inl rfl, hr⟩
          · exact Or.inr ⟨Or.inr h.1, h.2⟩
        · rintro (h | ⟨rfl | h, h'⟩)
          · exact Or.inl (Or.inl h)
          · exact Or.inl (Or.inr rfl)
          · exact Or.inr ⟨h, h'⟩
    · rw [if_neg hr]
      obtain ⟨m2, ev2, k1, k2, k3, k4⟩ := stepIndexed_ok hit e i j row ts hnd.2 info ev hp
        fun t ht htr => hc t (List.mem_cons_of_mem _ ht) htr
      refine ⟨m2, ev2, k1, k2, ?_, ?_⟩
      · intro t it'
        rw [k3]
        have : (t ∈ t0 :: ts ∧ t ∈ row) ↔ (t ∈ ts ∧ t ∈ row) := by
          rw [List.mem_cons]
          constructor
          · rintro ⟨rfl | h, h'⟩
            · exact absurd h' hr
            · exact ⟨h, h'⟩
          · rintro ⟨h, h'⟩; exact ⟨Or.inr h, h'⟩
        simp only [this]
      · intro t
        rw [k4, List.mem_cons]
        constructor
        · rintro (h | h)
          · exact Or.inl h
          · exact Or.inr ⟨Or.inr h.1, h.2⟩
        · rintro (h | ⟨rfl | h, h'⟩)
          · exact Or.inl h
          · exact absurd h' hr
          · exact Or.inr ⟨h, h'⟩

theorem stepNon_ok {n it : Nat} (hit : it < n) (e i j : Nat) (row : List Nat) (tape : Option Nat) (info : RowInfo) (ev : List Nat)
    (hp : PosOk n info.nonPos) (hc : (∃ t, tape = some t ∧ t ∈ row) → cell info.nonPos j it = none) :
    ∃ m ne ev' inNon, stepNon n it e i j row tape info ev = .ok ({ info with nonPos := m, nonEvals := ne }, ev', inNon) ∧ PosOk n m ∧
      (inNon = true ↔ ∃ t, tape = some t ∧ t ∈ row) ∧
      (∀ j' it', cell m j' it' = if (inNon = true ∧ j' = j) ∧ it' = it then some e else cell info.nonPos j' it') ∧
      ∀ t, t ∈ ev' ↔ t ∈ ev ∨ (tape = some t ∧ t ∈ row) := by
  unfold stepNon
  cases tape with
  | none => exact ⟨info.nonPos, info.nonEvals, ev, false, rfl, hp, by simp, by simp, by simp⟩
  | some t0 =>
    simp only
    by_cases hr : t0 ∈ row
    · rw [if_pos hr]
      obtain ⟨m1, g1, g2, g3⟩ := putPos_ok hp hit (hc ⟨t0, rfl, hr⟩) e i j
      rw [g1]
      refine ⟨m1, _, _, true, rfl, g2, ?_, ?_, ?_⟩
      · simp [hr]
      · intro j' it'
        rw [g3]; simp
      · intro t
        rw [mem_ins]
        simp only [Option.some.injEq]
        constructor
        · rintro (h | rfl)
          · exact Or.inl h
          · exact Or.inr ⟨rfl, hr⟩
        · rintro (h | ⟨h, _⟩)
          · exact Or.inl h
          · exact Or.inr h.symm
    · rw [if_neg hr]
      refine ⟨info.nonPos, info.nonEvals, ev, false, rfl, hp, ?_, by simp, ?_⟩
      · simp [hr]
      · intro t
        simp only [Option.some.injEq]
        constructor
        · exact Or.inl
        · rintro (h | ⟨rfl, h⟩)
          · exact h
          · exact absurd h hr

/-- tape variable `t` is temporary `k` and that temporary depends on `j` -/
def TmpAt (l : Loop) (fr : Free) (j t k : Nat) : Prop :=
  l.tmp[t - l.ind.length - l.non.length]? = some k ∧ ∃ sp, fr.jac[fr.eqs.length + k]? = some sp ∧ j ∈ sp

theorem stepTmp_ok {n it : Nat} (hit : it < n) (e i j : Nat) (l : Loop) (fr : Free) : ∀ (ts : List Nat)
    (_ : ∀ t ∈ ts, ∃ k sp, l.tmp[t - l.ind.length - l.non.length]? = some k ∧ fr.jac[fr.eqs.length + k]? = some sp)
    (info : RowInfo) (ev : List Nat) (inNon : Bool) (nl : Nat → List Nat), PosOk n info.nonPos →
    (inNon = true ∨ cell info.nonPos j it = none) →
    ∃ m te ev' nl', stepTmp n it e i j l fr ts (info, ev, inNon, nl) = .ok ({ info with nonPos := m, tmpEvals := te }, ev', nl') ∧
      PosOk n m ∧
      (∀ j' it', (j' ≠ j ∨ it' ≠ it ∨ inNon = true ∨ ¬ ∃ t ∈ ts, ∃ k, TmpAt l fr j t k) → cell m j' it' = cell info.nonPos j' it') ∧
      (inNon = false → (∃ t ∈ ts, ∃ k, TmpAt l fr j t k) → cell m j it = some e) ∧
      (∀ j', ((info.tmpEvals.get j').getD []).Nodup → ((te.get j').getD []).Nodup) ∧
      (∀ j' k, k ∈ (te.get j').getD [] ↔ k ∈ (info.tmpEvals.get j').getD [] ∨ (j' = j ∧ ∃ t ∈ ts, TmpAt l fr j t k)) ∧
      (∀ t, t ∈ ev' ↔ t ∈ ev ∨ (t ∈ ts ∧ ∃ k, TmpAt l fr j t k)) ∧
      (∀ r x, x ∈ nl' r ↔ x ∈ nl r ∨ (x = j ∧ ∃ t ∈ ts, ∃ k, TmpAt l fr j t k ∧ r = fr.eqs.length + k))
  | [], _, info, ev, inNon, nl, hp, _ => by
    refine ⟨info.nonPos, info.tmpEvals, ev, nl, rfl, hp, fun _ _ _ => rfl, ?_, fun _ h => h, ?_, ?_, ?_⟩
    · rintro _ ⟨t, ht, _⟩; simp at ht
    · simp
    · simp
    · simp
  | t0 :: ts, hts, info, ev, inNon, nl, hp, hc => by
    obtain ⟨k0, sp, hk0, hsp⟩ := hts t0 List.mem_cons_self
    have hts' : ∀ t ∈ ts, ∃ k sp, l.tmp[t - l.ind.length - l.non.length]? = some k ∧ fr.jac[fr.eqs.length + k]? = some sp :=
      fun t ht => hts t (List.mem_cons_of_mem _ ht)
    rw [stepTmp, hk0]
    simp only
    rw [hsp]
    simp only
    have huniq : ∀ k, TmpAt l fr j t0 k → k = k0 := by
      rintro k ⟨h, _⟩
      rw [hk0] at h
      exact (Option.some.inj h).symm
    by_cases hj : j ∈ sp
    · rw [if_pos hj]
      have hat : TmpAt l fr j t0 k0 := ⟨hk0, sp, hsp, hj⟩
      -- the table of positions after this temporary
      obtain ⟨m1, g1, g2, g3⟩ : ∃ m1, (if inNon then .ok info.nonPos else putPos n info.nonPos j it e i j) = .ok m1 ∧ PosOk n m1 ∧
          ∀ j' it', cell m1 j' it' = if inNon = false ∧ j' = j ∧ it' = it then some e else cell info.nonPos j' it' := by
        cases inNon with
        | true => exact ⟨info.nonPos, rfl, hp, by simp⟩
        | false =>
          rcases hc with hc | hc
          · simp at hc
          · obtain ⟨m1, h1, h2, h3⟩ := putPos_ok hp hit hc e i j
            refine ⟨m1, ?_, h2, fun j' it' => by rw [h3]; simp⟩
            rw [if_neg (by simp), h1]
      rw [g1]
      simp only
      obtain ⟨m2, te, ev2, nl2, k1, k2, k3, k4, k5, k6, k7, k8⟩ := stepTmp_ok hit e i j l fr ts hts'
        { info with nonPos := m1, tmpEvals := info.tmpEvals.set j (ins ((info.tmpEvals.get j).getD []) k0) }
        (ins ev t0) true (upd nl (fr.eqs.length + k0) (ins (nl (fr.eqs.length + k0)) j)) g2 (Or.inl rfl)
      simp only at k3 k4 k5 k6
      refine ⟨m2, te, ev2, nl2, k1, k2, ?_, ?_, ?_, ?_, ?_, ?_⟩
      · intro j' it' h
        rw [k3 j' it' (Or.inr (Or.inr (Or.inl trivial))), g3, if_neg]
        rintro ⟨h1, h2, h3⟩
        rcases h with h | h | h | h
        · exact h h2
        · exact h h3
        · rw [h1] at h; simp at h
        · exact h ⟨t0, List.mem_cons_self, k0, hat⟩
      · intro h _
        rw [k3 j it (Or.inr (Or.inr (Or.inl trivial))), g3, if_pos ⟨h, rfl, rfl⟩]
      · intro j' hnd
        refine k5 j' ?_
        rw [get_set]
        by_cases h : j' = j
        · subst h; rw [if_pos rfl]; exact ins_nodup hnd
        · rw [if_neg h]; exact hnd
      · intro j' k
        rw [k6, get_set]
        by_cases h : j' = j
        · subst h
          rw [if_pos rfl, Option.getD_some, mem_ins]
          constructor
          · rintro ((h | rfl) | ⟨_, t, ht, h⟩)
            · exact Or.inl h
            · exact Or.inr ⟨rfl, t0, List.mem_cons_self, hat⟩
            · exact Or.inr ⟨rfl, t, List.mem_cons_of_mem _ ht, h⟩
          · rintro (h | ⟨_, t, ht, h⟩)
            · exact Or.inl (Or.inl h)
            · rcases List.mem_cons.mp ht with rfl | ht
              · exact Or.inl (Or.inr (huniq k h))
              · exact Or.inr ⟨rfl, t, ht, h⟩
        · rw [if_neg h]
          simp [h]
      · intro t
        rw [k7, mem_ins]
        constructor
        · rintro ((h | rfl) | ⟨ht, h⟩)
          · exact Or.inl h
          · exact Or.inr ⟨List.mem_cons_self, k0, hat⟩
          · exact Or.inr ⟨List.mem_cons_of_mem _ ht, h⟩
        · rintro (h | ⟨ht, h⟩)
          · exact Or.inl (Or.inl h)
          · rcases List.mem_cons.mp ht with rfl | ht
            · exact Or.inl (Or.inr rfl)
            · exact Or.inr ⟨ht, h⟩
      · intro r x
        rw [k8]
        have hu : x ∈ upd nl (fr.eqs.length + k0) (ins (nl (fr.eqs.length + k0)) j) r ↔ x ∈ nl r ∨ (x = j ∧ r = fr.eqs.length + k0) := by
          unfold upd
          by_cases hr : r = fr.eqs.length + k0
          · subst hr; rw [if_pos rfl, mem_ins]; simp
          · rw [if_neg hr]; simp [hr]
        rw [hu]
        constructor
        · rintro ((h | ⟨rfl, rfl⟩) | ⟨rfl, t, ht, h⟩)
          · exact Or.inl h
          · exact Or.inr ⟨rfl, t0, List.mem_cons_self, k0, hat, rfl⟩
          · exact Or.inr ⟨rfl, t, List.mem_cons_of_mem _ ht, h⟩
        · rintro (h | ⟨rfl, t, ht, k, h, h'⟩)
          · exact Or.inl (Or.inl h)
          · rcases List.mem_cons.mp ht with rfl | ht
            · refine Or.inl (Or.inr ⟨rfl, ?_⟩)
              rw [h', huniq k h]
            · exact Or.inr ⟨rfl, t, ht, k, h, h'⟩
    · rw [if_neg hj]
      have hnot : ∀ k, ¬ TmpAt l fr j t0 k := by
        rintro k ⟨h1, sp', h2, h3⟩
        rw [hk0] at h1
        rw [← Option.some.inj h1, hsp] at h2
        exact hj (by rw [Option.some.inj h2]; exact h3)
      have hex : ∀ P : Nat → Prop, (∃ t ∈ t0 :: ts, ∃ k, TmpAt l fr j t k ∧ P k) ↔ ∃ t ∈ ts, ∃ k, TmpAt l fr j t k ∧ P k := by
        intro P
        constructor
        · rintro ⟨t, ht, k, h, h'⟩
          rcases List.mem_cons.mp ht with rfl | ht
          · exact absurd h (hnot k)
          · exact ⟨t, ht, k, h, h'⟩
        · rintro ⟨t, ht, h⟩
          exact ⟨t, List.mem_cons_of_mem _ ht, h⟩
      have hex1 : (∃ t ∈ t0 :: ts, ∃ k, TmpAt l fr j t k) ↔ ∃ t ∈ ts, ∃ k, TmpAt l fr j t k := by
        have := hex fun _ => True
        simpa using this
      obtain ⟨m2, te, ev2, nl2, k1, k2, k3, k4, k5, k6, k7, k8⟩ := stepTmp_ok hit e i j l fr ts hts' info ev inNon nl hp hc
      refine ⟨m2, te, ev2, nl2, k1, k2, ?_, ?_, k5, ?_, ?_, ?_⟩
      · intro j' it' h
        rw [hex1] at h
        exact k3 j' it' h
      · intro h h'
        rw [hex1] at h'
        exact k4 h h'
      · intro j' k
        rw [k6]
        have : (∃ t ∈ t0 :: ts, TmpAt l fr j t k) ↔ ∃ t ∈ ts, TmpAt l fr j t k := by
          have := hex fun k' => k' = k
          constructor
          · rintro ⟨t, ht, h⟩
            rcases List.mem_cons.mp ht with rfl | ht
            · exact absurd h (hnot k)
            · exact ⟨t, ht, h⟩
          · rintro ⟨t, ht, h⟩
            exact ⟨t, List.mem_cons_of_mem _ ht, h⟩
        rw [this]
      · intro t
        rw [k7]
        constructor
        · rintro (h | ⟨h, h'⟩)
          · exact Or.inl h
          · exact Or.inr ⟨List.mem_cons_of_mem _ h, h'⟩
        · rintro (h | ⟨h, k, h'⟩)
          · exact Or.inl h
          · rcases List.mem_cons.mp h with rfl | h
            · exact absurd h' (hnot k)
            · exact Or.inr ⟨h, k, h'⟩
      · intro r x
        rw [k8, hex]

end Verif.Loops
