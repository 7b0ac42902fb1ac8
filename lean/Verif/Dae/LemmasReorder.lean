import Verif.Dae.ModelReorder
import Mathlib.Data.List.Nodup
import Mathlib.Data.List.Basic

namespace Verif.Dae.Reorder
open Verif.Orders

/-! ### lists -/

theorem mapAll_get {α β : Type} {f : α → Option β} : ∀ {l : List α} {l' : List β}, mapAll f l = some l' →
    l'.length = l.length ∧ ∀ i : Nat, l'[i]? = (l[i]?).bind f
  | [], l', h => by cases h; exact ⟨rfl, fun i => by simp⟩
  | a :: l, l', h => by
    simp only [mapAll] at h
    rcases hf : f a with _ | b
    · rw [hf] at h; cases h
    · rcases hl : mapAll f l with _ | l2
      · rw [hf, hl] at h; cases h
      · rw [hf, hl] at h; cases h
        obtain ⟨h1, h2⟩ := mapAll_get hl
        refine ⟨by simp [h1], fun i => ?_⟩
        cases i with
        | zero => simp [hf]
        | succ i => simpa using h2 i

theorem mapAll_exists {α β : Type} {f : α → Option β} : ∀ {l : List α}, (∀ a ∈ l, ∃ b, f a = some b) → ∃ l', mapAll f l = some l'
  | [], _ => ⟨[], rfl⟩
  | a :: l, h => by
    obtain ⟨b, hb⟩ := h a List.mem_cons_self
    obtain ⟨l', hl⟩ := mapAll_exists fun a' ha => h a' (List.mem_cons_of_mem a ha)
    exact ⟨b :: l', by simp only [mapAll, hb, hl]⟩

theorem get_inj {α : Type} {f : α → Nat} {l : List α} (h : (l.map f).Nodup) {p q : Nat} {x y : α} (hp : l[p]? = some x)
    (hq : l[q]? = some y) (hxy : f x = f y) : p = q := by
  have h1 : (l.map f)[p]? = some (f x) := by simp [hp]
  have h2 : (l.map f)[q]? = some (f x) := by simp [hq, hxy]
  obtain ⟨hp', e1⟩ := List.getElem?_eq_some_iff.1 h1
  obtain ⟨hq', e2⟩ := List.getElem?_eq_some_iff.1 h2
  exact (List.Nodup.getElem_inj_iff h).1 (e1.trans e2.symm)

theorem mem_inj {α : Type} {f : α → Nat} {l : List α} (h : (l.map f).Nodup) {x y : α} (hp : x ∈ l)
    (hq : y ∈ l) (hxy : f x = f y) : x = y := by
  obtain ⟨p, hp⟩ := List.mem_iff_getElem?.1 hp
  obtain ⟨q, hq⟩ := List.mem_iff_getElem?.1 hq
  have := get_inj h hp hq hxy
  subst this
  rw [hp] at hq; cases hq; rfl

/-! ### moved elements -/

/-- elements are moved from one list to another; `m` has the new positions -/
structure Moved {α : Type} (m : Nat → Option Nat) (R : α → α → Prop) (l l' : List α) : Prop where
  fwd : ∀ p x p', l[p]? = some x → m p = some p' → ∃ x', l'[p']? = some x' ∧ R x x'
  bwd : ∀ p' x', l'[p']? = some x' → ∃ p x, l[p]? = some x ∧ m p = some p' ∧ R x x'
  inj : ∀ p q r, m p = some r → m q = some r → p = q

theorem refers_moved {α β : Type} {idα : α → Nat} {idβ : β → Nat} {field : α → Option Nat} {mα mβ : Nat → Option Nat}
    {Rα : α → α → Prop} {Rβ : β → β → Prop} {l l' : List α} {k k' : List β} (hl : Moved mα Rα l l') (hk : Moved mβ Rβ k k')
    (hRα : ∀ x x', Rα x x' → idα x' = idα x ∧ field x' = (field x).bind mβ) (hRβ : ∀ y y', Rβ y y' → idβ y' = idβ y)
    (hla : (l.map idα).Nodup) (hkb : (k.map idβ).Nodup) (a b : Nat) :
    Refers idα idβ field l' k' a b ↔ Refers idα idβ field l k a b ∧ (∃ x' ∈ l', idα x' = a) ∧ ∃ y' ∈ k', idβ y' = b := by
  constructor
  · rintro ⟨x', hx', ha, q', y', hq', hy', hb⟩
    refine ⟨?_, ⟨x', hx', ha⟩, ⟨y', List.mem_of_getElem? hy', hb⟩⟩
    obtain ⟨p', hp'⟩ := List.mem_iff_getElem?.1 hx'
    obtain ⟨p, x, hp, _, hR⟩ := hl.bwd p' x' hp'
    obtain ⟨q, y, hq, hmq, hRy⟩ := hk.bwd q' y' hy'
    obtain ⟨h1, h2⟩ := hRα x x' hR
    rw [h2] at hq'
    obtain ⟨q2, hf, hm2⟩ := Option.bind_eq_some_iff.1 hq'
    have := hk.inj q q2 q' hmq hm2
    subst this
    exact ⟨x, List.mem_of_getElem? hp, h1 ▸ ha, q, y, hf, hq, hRβ y y' hRy ▸ hb⟩
  · rintro ⟨⟨x, hx, ha, q, y, hf, hq, hb⟩, ⟨x', hx', ha'⟩, ⟨y', hy', hb'⟩⟩
    obtain ⟨p', hp'⟩ := List.mem_iff_getElem?.1 hx'
    obtain ⟨q', hq'⟩ := List.mem_iff_getElem?.1 hy'
    obtain ⟨p2, x2, hp2, _, hR⟩ := hl.bwd p' x' hp'
    obtain ⟨q2, y2, hq2, hmq, hRy⟩ := hk.bwd q' y' hq'
    obtain ⟨h1, h2⟩ := hRα x2 x' hR
    have e1 : x2 = x := mem_inj hla (List.mem_of_getElem? hp2) hx (by rw [← h1, ha', ha])
    subst e1
    have e2 : q2 = q := get_inj hkb hq2 hq (by rw [← hRβ y2 y' hRy, hb', hb])
    subst e2
    exact ⟨x', hx', ha', q', y', by rw [h2, hf]; exact hmq, hq', hb'⟩

theorem moved_ids {α : Type} {f : α → Nat} {m : Nat → Option Nat} {R : α → α → Prop} {l l' : List α} (h : Moved m R l l')
    (hR : ∀ x x', R x x' → f x' = f x) (hn : (l.map f).Nodup) : (l'.map f).Nodup := by
  rw [List.nodup_iff_getElem?_ne_getElem?]
  intro p' q' hlt hq' heq
  simp only [List.length_map] at hq'
  simp only [List.getElem?_map] at heq
  obtain ⟨p, x, hp, hmp, hRx⟩ := h.bwd p' _ (List.getElem?_eq_getElem (by omega))
  obtain ⟨q, y, hq, hmq, hRy⟩ := h.bwd q' _ (List.getElem?_eq_getElem hq')
  rw [List.getElem?_eq_getElem (by omega), List.getElem?_eq_getElem hq'] at heq
  have e : f x = f y := by
    rw [← hR _ _ hRx, ← hR _ _ hRy]
    simpa using heq
  have := get_inj hn hp hq e
  subst this
  rw [hmp] at hmq
  cases hmq
  omega

/-! ### following positions -/

theorem follow_some {α : Type} {field : α → Option Nat} {l : List α} {rank : Nat → Nat}
    (hr : ∀ p q x, l[p]? = some x → field x = some q → rank q < rank p)
    (hlt : ∀ x ∈ l, ∀ q, field x = some q → q < l.length) : ∀ n p, rank p < n → p < l.length → ∃ s, follow field l n p = some s
  | 0, _, h, _ => absurd h (Nat.not_lt_zero _)
  | n + 1, p, h, hp => by
    simp only [follow, List.getElem?_eq_getElem hp]
    rcases hf : field l[p] with _ | q
    · exact ⟨_, rfl⟩
    · have h1 := hr p q l[p] (List.getElem?_eq_getElem hp) hf
      obtain ⟨s, hs⟩ := follow_some hr hlt n q (by omega) (hlt _ (List.getElem_mem hp) q hf)
      exact ⟨(s.1 + 1, s.2), by simp only [hs, Option.map_some]⟩

theorem follow_nth {vs : List VInfo} : ∀ n p k b, follow VInfo.anti vs n p = some (k, b) →
    ∃ v w, vs[p]? = some v ∧ vs[b]? = some w ∧ NthDer vs k v.id w.id
  | 0, _, _, _, h => by cases h
  | n + 1, p, k, b, h => by
    simp only [follow] at h
    rcases hv : vs[p]? with _ | v
    · rw [hv] at h; cases h
    · rw [hv] at h
      simp only at h
      rcases ha : v.anti with _ | q
      · rw [ha] at h
        cases h
        exact ⟨v, v, rfl, hv, .base (List.mem_of_getElem? hv) ha⟩
      · rw [ha] at h
        obtain ⟨⟨k', b'⟩, hs, he⟩ := Option.map_eq_some_iff.1 h
        cases he
        obtain ⟨v2, w, h1, h2, h3⟩ := follow_nth n q k' b' hs
        exact ⟨v, w, rfl, h2, .step ⟨v, List.mem_of_getElem? hv, rfl, q, v2, ha, h1, rfl⟩ h3⟩

theorem antiRel_fun {vs : List VInfo} (hn : (vs.map VInfo.id).Nodup) {a b b' : Nat} (h : AntiRel vs a b) (h' : AntiRel vs a b') : b = b' := by
  obtain ⟨v, hv, h1, q, u, hq, hu, h2⟩ := h
  obtain ⟨v', hv', h1', q', u', hq', hu', h2'⟩ := h'
  have := mem_inj hn hv hv' (h1.trans h1'.symm)
  subst this
  rw [hq] at hq'; cases hq'
  rw [hu] at hu'; cases hu'
  exact h2.symm.trans h2'

theorem nth_base {vs : List VInfo} {k a c : Nat} (h : NthDer vs k a c) (hk : k = 0) : ∃ v ∈ vs, v.anti = none ∧ v.id = a ∧ c = a := by
  cases h with
  | base hv ha => exact ⟨_, hv, ha, rfl, rfl⟩
  | step _ _ => cases hk

theorem nth_step {vs : List VInfo} {k a c : Nat} (h : NthDer vs (k + 1) a c) : ∃ b, AntiRel vs a b ∧ NthDer vs k b c := by
  cases h with
  | step h1 h2 => exact ⟨_, h1, h2⟩

theorem nth_det {vs : List VInfo} (hn : (vs.map VInfo.id).Nodup) : ∀ {k k' a c c' : Nat}, NthDer vs k a c → NthDer vs k' a c' → k = k' ∧ c = c'
  | 0, 0, _, _, _, h, h' => by
    obtain ⟨_, _, _, _, e⟩ := nth_base h rfl
    obtain ⟨_, _, _, _, e'⟩ := nth_base h' rfl
    exact ⟨rfl, e.trans e'.symm⟩
  | 0, _ + 1, _, _, _, h, h' => by
    obtain ⟨v, hv, ha, e, _⟩ := nth_base h rfl
    obtain ⟨b, ⟨v', hv', e', q, _, hq, _⟩, _⟩ := nth_step h'
    have := mem_inj hn hv hv' (e.trans e'.symm)
    subst this
    rw [ha] at hq; cases hq
  | _ + 1, 0, _, _, _, h', h => by
    obtain ⟨v, hv, ha, e, _⟩ := nth_base h rfl
    obtain ⟨b, ⟨v', hv', e', q, _, hq, _⟩, _⟩ := nth_step h'
    have := mem_inj hn hv hv' (e.trans e'.symm)
    subst this
    rw [ha] at hq; cases hq
  | k + 1, k' + 1, _, _, _, h, h' => by
    obtain ⟨b, h1, h2⟩ := nth_step h
    obtain ⟨b', h1', h2'⟩ := nth_step h'
    have := antiRel_fun hn h1 h1'
    subst this
    obtain ⟨e, e'⟩ := nth_det hn h2 h2'
    exact ⟨by rw [e], e'⟩

/-! ### reordering -/

theorem old2new_of_not_mem : ∀ {os : List Nat} {k : Nat} {m : Nat → Option Nat} {q : Nat}, q ∉ os → old2new k os m q = m q
  | [], _, _, _, _ => rfl
  | o :: os, k, m, q, h => by
    rw [old2new, old2new_of_not_mem (fun h' => h (List.mem_cons_of_mem o h')), if_neg fun h' => h (by rw [h']; exact List.mem_cons_self)]

theorem old2new_get : ∀ {os : List Nat} {k : Nat} {m : Nat → Option Nat} {i q : Nat}, os.Nodup → os[i]? = some q →
    old2new k os m q = some (k + i)
  | [], _, _, i, _, _, h => by simp at h
  | o :: os, k, m, 0, q, hn, h => by
    simp only [List.getElem?_cons_zero, Option.some.injEq] at h
    subst h
    rw [old2new, old2new_of_not_mem (List.nodup_cons.1 hn).1]
    simp
  | o :: os, k, m, i + 1, q, hn, h => by
    simp only [List.getElem?_cons_succ] at h
    rw [old2new, old2new_get (List.nodup_cons.1 hn).2 h]
    congr 1; omega

theorem old2new_iff {os : List Nat} (hn : os.Nodup) {q i : Nat} : old2new 0 os (fun _ => none) q = some i ↔ os[i]? = some q := by
  constructor
  · intro h
    by_cases hq : q ∈ os
    · obtain ⟨j, hj⟩ := List.mem_iff_getElem?.1 hq
      rw [old2new_get hn hj] at h
      simp only [Nat.zero_add, Option.some.injEq] at h
      exact h ▸ hj
    · rw [old2new_of_not_mem hq] at h; cases h
  · intro h
    rw [old2new_get hn h, Nat.zero_add]

theorem remap_some {n : Nat} {m : Nat → Option Nat} {o : Option Nat} (h : ∀ q, o = some q → q < n) : remap n m o = some (o.bind m) := by
  cases o with
  | none => rfl
  | some q => simp [remap, h q rfl]

/-- a variable after renumbering -/
def VMoved (m : Nat → Option Nat) (v v' : VInfo) : Prop :=
  v' = { v with anti := v.anti.bind m, der := v.der.bind m }

def EMoved (m : Nat → Option Nat) (i i' : EInfo) : Prop := i' = { i with assigned := i.assigned.bind m }

theorem newVar_some {vs : List VInfo} (ha : ∀ v ∈ vs, ∀ q, v.anti = some q → q < vs.length) (hd : ∀ v ∈ vs, ∀ q, v.der = some q → q < vs.length)
    {m : Nat → Option Nat} {o : Nat} {v : VInfo} (h : vs[o]? = some v) : newVar vs m o = some { v with anti := v.anti.bind m, der := v.der.bind m } := by
  have hv := List.mem_of_getElem? h
  simp only [newVar, h, remap_some (m := m) (ha v hv), remap_some (m := m) (hd v hv)]

theorem newAssigned_some {n : Nat} {m : Nat → Option Nat} {i : EInfo} (h : ∀ q, i.assigned = some q → q < n) :
    newAssigned n m i = some { i with assigned := i.assigned.bind m } := by
  simp only [newAssigned, remap_some h, Option.map_some]

theorem perm_range {n : Nat} {os : List Nat} (h : os.Perm (List.range n)) :
    os.Nodup ∧ os.length = n ∧ ∀ q : Nat, q < n ↔ ∃ i : Nat, os[i]? = some q := by
  refine ⟨h.nodup_iff.2 List.nodup_range, by simpa using h.length_eq, fun q => ?_⟩
  rw [← List.mem_iff_getElem?, h.mem_iff, List.mem_range]

/-- variables are moved by a permutation -/
theorem moved_vars {vs vs' : List VInfo} (ha : ∀ v ∈ vs, ∀ q, v.anti = some q → q < vs.length)
    (hd : ∀ v ∈ vs, ∀ q, v.der = some q → q < vs.length) {os : List Nat} (hos : os.Perm (List.range vs.length))
    (h : mapAll (newVar vs (old2new 0 os fun _ => none)) os = some vs') :
    Moved (old2new 0 os fun _ => none) (VMoved (old2new 0 os fun _ => none)) vs vs' := by
  obtain ⟨hn, hlen, hmem⟩ := perm_range hos
  obtain ⟨h1, h2⟩ := mapAll_get h
  refine ⟨fun p v p' hp hm => ?_, fun p' v' hp' => ?_, fun p q r h1 h2 => ?_⟩
  · rw [old2new_iff hn] at hm
    refine ⟨_, ?_, rfl⟩
    rw [h2, hm]
    exact newVar_some ha hd hp
  · rw [h2] at hp'
    obtain ⟨p, hp, hv⟩ := Option.bind_eq_some_iff.1 hp'
    have hpl : p < vs.length := (hmem p).2 ⟨p', hp⟩
    rw [newVar_some ha hd (List.getElem?_eq_getElem hpl)] at hv
    cases hv
    exact ⟨p, vs[p], List.getElem?_eq_getElem hpl, (old2new_iff hn).2 hp, rfl⟩
  · rw [old2new_iff hn] at h1 h2
    rw [h1] at h2; exact Option.some.inj h2

/-- equations are moved by a permutation -/
theorem moved_eqs {es es' es'' : List EInfo} {n : Nat} {m : Nat → Option Nat} (ha : ∀ i ∈ es, ∀ q, i.assigned = some q → q < n)
    (h : mapAll (newAssigned n m) es = some es') {os : List Nat} (hos : os.Perm (List.range es'.length))
    (h' : mapAll (fun o => es'[o]?) os = some es'') : Moved (old2new 0 os fun _ => none) (EMoved m) es es'' := by
  obtain ⟨hn, hlen, hmem⟩ := perm_range hos
  obtain ⟨h1, h2⟩ := mapAll_get h
  obtain ⟨h3, h4⟩ := mapAll_get h'
  have hget : ∀ (p : Nat) (i : EInfo), es[p]? = some i → es'[p]? = some { i with assigned := i.assigned.bind m } := fun p i hp => by
    rw [h2, hp]
    exact newAssigned_some (ha i (List.mem_of_getElem? hp))
  refine ⟨fun p v p' hp hm => ?_, fun p' v' hp' => ?_, fun p q r h1 h2 => ?_⟩
  · rw [old2new_iff hn] at hm
    refine ⟨_, ?_, rfl⟩
    rw [h4, hm]
    exact hget p v hp
  · rw [h4] at hp'
    obtain ⟨p, hp, hv⟩ := Option.bind_eq_some_iff.1 hp'
    have hpl : p < es.length := h1 ▸ (hmem p).2 ⟨p', hp⟩
    rw [hget p es[p] (List.getElem?_eq_getElem hpl)] at hv
    cases hv
    exact ⟨p, es[p], List.getElem?_eq_getElem hpl, (old2new_iff hn).2 hp, rfl⟩
  · rw [old2new_iff hn] at h1 h2
    rw [h1] at h2; exact Option.some.inj h2

theorem withDerivatives_some {vs : List VInfo} {es : List EInfo} (hok : Ok vs es) (hac : Acyclic vs es) :
    ∃ s, withDerivatives vs es = some s := by
  obtain ⟨rank, hr1, hr2⟩ := hac.var
  unfold withDerivatives
  simp only
  split
  · obtain ⟨l, hl⟩ := mapAll_exists (f := fun j => follow VInfo.anti vs (vs.length + 1) j) (l := List.range vs.length) fun j hj =>
      follow_some hr2 hok.anti_lt _ j (hr1 j) (List.mem_range.1 hj)
    exact ⟨_, by rw [hl]; rfl⟩
  · exact ⟨_, rfl⟩

theorem varOrder_some {vs : List VInfo} {es : List EInfo} (hok : Ok vs es) (hac : Acyclic vs es) {wd : List Nat} {j : Nat} (hj : j < vs.length) :
    ∃ o, varOrder vs wd j = some o := by
  obtain ⟨rank, hr1, hr2⟩ := hac.var
  obtain ⟨s, hs⟩ := follow_some hr2 hok.anti_lt _ j (hr1 j) hj
  simp only [varOrder, List.getElem?_eq_getElem hj]
  rcases vs[j].dep with _ | _
  · exact ⟨_, rfl⟩
  · rw [hs]; exact ⟨_, rfl⟩

theorem varOrder_index {vs : List VInfo} {wd : List Nat} {j : Nat} {o : VarOrder} (h : varOrder vs wd j = some o) : o.originalIndex = j := by
  unfold varOrder at h
  split at h
  · cases h
  · obtain ⟨s, _, rfl⟩ := Option.map_eq_some_iff.1 h
    rfl

theorem eqOrder_index {vs : List VInfo} {es : List EInfo} {j : Nat} {o : EqOrder} (h : eqOrder vs es j = some o) : o.originalIndex = j := by
  unfold eqOrder at h
  split at h
  · split at h
    · cases h; rfl
    · split at h
      · cases h; rfl
      · split at h
        · cases h
        · cases h; rfl
  · cases h

theorem indexes_map {α : Type} {f : Nat → Option α} {idx : α → Nat} (hf : ∀ j o, f j = some o → idx o = j) {n : Nat} {l : List α}
    (h : mapAll f (List.range n) = some l) : l.map idx = List.range n := by
  obtain ⟨h1, h2⟩ := mapAll_get h
  refine List.ext_getElem? fun i => ?_
  by_cases hi : i < n
  · have h3 := h2 i
    rw [List.getElem?_range hi] at h3
    have hil : i < l.length := by rw [h1]; simpa using hi
    rw [List.getElem?_eq_getElem hil] at h3
    simp only [Option.bind_some] at h3
    rw [List.getElem?_map, List.getElem?_eq_getElem hil, List.getElem?_range hi, Option.map_some, hf i _ h3.symm]
  · rw [List.getElem?_eq_none (by simpa [h1] using hi), List.getElem?_eq_none (by simpa using hi)]

/-- what a reordering gives -/
structure Reordered (sortV : List VarOrder → List VarOrder) (sortE : List EqOrder → List EqOrder) (vs : List VInfo) (es : List EInfo)
    (vs' : List VInfo) (es'' : List EInfo) : Prop where
  ex : ∃ wd vo es' eo, withDerivatives vs es = some wd ∧ mapAll (varOrder vs wd) (List.range vs.length) = some vo ∧
    mapAll (newVar vs (old2new 0 ((sortV vo).map VarOrder.originalIndex) fun _ => none)) ((sortV vo).map VarOrder.originalIndex) = some vs' ∧
    mapAll (newAssigned vs.length (old2new 0 ((sortV vo).map VarOrder.originalIndex) fun _ => none)) es = some es' ∧
    mapAll (eqOrder vs' es') (List.range es'.length) = some eo ∧
    mapAll (fun o => es'[o]?) ((sortE eo).map EqOrder.originalIndex) = some es'' ∧
    ((sortV vo).map VarOrder.originalIndex).Perm (List.range vs.length) ∧
    ((sortE eo).map EqOrder.originalIndex).Perm (List.range es'.length)

theorem reorder_some {sortV : List VarOrder → List VarOrder} {sortE : List EqOrder → List EqOrder} (hV : ∀ l, (sortV l).Perm l)
    (hE : ∀ l, (sortE l).Perm l) {vs : List VInfo} {es : List EInfo} (hok : Ok vs es) (hac : Acyclic vs es) :
    ∃ vs' es'', reorder sortV sortE vs es = some (vs', es'') ∧ Reordered sortV sortE vs es vs' es'' := by
  obtain ⟨wd, hwd⟩ := withDerivatives_some hok hac
  obtain ⟨vo, hvo⟩ := mapAll_exists (f := varOrder vs wd) (l := List.range vs.length) fun j hj =>
    varOrder_some hok hac (List.mem_range.1 hj)
  have hpV : ((sortV vo).map VarOrder.originalIndex).Perm (List.range vs.length) := by
    rw [← indexes_map (fun j o => varOrder_index) hvo]
    exact (hV vo).map _
  obtain ⟨hn, hlen, hmem⟩ := perm_range hpV
  obtain ⟨vs', hvs'⟩ := mapAll_exists (f := newVar vs (old2new 0 ((sortV vo).map VarOrder.originalIndex) fun _ => none))
    (l := (sortV vo).map VarOrder.originalIndex) fun o ho =>
      ⟨_, newVar_some hok.anti_lt hok.der_lt (List.getElem?_eq_getElem (List.mem_range.1 (hpV.mem_iff.1 ho)))⟩
  obtain ⟨es', hes'⟩ := mapAll_exists (f := newAssigned vs.length (old2new 0 ((sortV vo).map VarOrder.originalIndex) fun _ => none))
    (l := es) fun i hi => ⟨_, newAssigned_some (hok.assigned_lt i hi)⟩
  have hmv := moved_vars hok.anti_lt hok.der_lt hpV hvs'
  have hvl : vs'.length = vs.length := by rw [(mapAll_get hvs').1, hlen]
  have hel : es'.length = es.length := (mapAll_get hes').1
  have hget : ∀ (p : Nat) (i' : EInfo), es'[p]? = some i' → ∃ i : EInfo, es[p]? = some i ∧ i' = { i with assigned := i.assigned.bind (old2new 0 ((sortV vo).map VarOrder.originalIndex) fun _ => none) } := by
    intro p i' hp
    rw [(mapAll_get hes').2] at hp
    obtain ⟨i, hi, hni⟩ := Option.bind_eq_some_iff.1 hp
    rw [newAssigned_some (hok.assigned_lt i (List.mem_of_getElem? hi))] at hni
    exact ⟨i, hi, (Option.some.inj hni).symm⟩
  obtain ⟨rank, hr1, hr2⟩ := hac.eq
  obtain ⟨eo, heo⟩ := mapAll_exists (f := eqOrder vs' es') (l := List.range es'.length) fun p hp => by
    have hp := List.mem_range.1 hp
    have hr2' : ∀ p q i, es'[p]? = some i → i.anti = some q → rank q < rank p := fun p q i' h1 h2 => by
      obtain ⟨i, hi, rfl⟩ := hget p i' h1
      exact hr2 p q i hi h2
    obtain ⟨s, hs⟩ := follow_some hr2' (fun i' hi' q hq => by
      obtain ⟨p, hp⟩ := List.mem_iff_getElem?.1 hi'
      obtain ⟨i, hi, rfl⟩ := hget p i' hp
      rw [hel]; exact hok.eq_lt i (List.mem_of_getElem? hi) q hq) (es'.length + 1) p (hel ▸ hr1 p) hp
    obtain ⟨i, hi, hii⟩ := hget p es'[p] (List.getElem?_eq_getElem hp)
    simp only [eqOrder, List.getElem?_eq_getElem hp, hs]
    rcases ha : es'[p].assigned with _ | a
    · exact ⟨_, rfl⟩
    · simp only
      split
      · exact ⟨_, rfl⟩
      · rw [hii] at ha
        simp only at ha
        obtain ⟨q, _, hqa⟩ := Option.bind_eq_some_iff.1 ha
        rw [old2new_iff hn] at hqa
        have hal : a < vs'.length := by
          rw [hvl, ← hlen]; exact (List.getElem?_eq_some_iff.1 hqa).1
        rw [List.getElem?_eq_getElem hal]
        exact ⟨_, rfl⟩
  have hpE : ((sortE eo).map EqOrder.originalIndex).Perm (List.range es'.length) := by
    rw [← indexes_map (fun j o => eqOrder_index) heo]
    exact (hE eo).map _
  obtain ⟨es'', hes''⟩ := mapAll_exists (f := fun o => es'[o]?) (l := (sortE eo).map EqOrder.originalIndex) fun o ho =>
    ⟨_, List.getElem?_eq_getElem (List.mem_range.1 (hpE.mem_iff.1 ho))⟩
  refine ⟨vs', es'', ?_, wd, vo, es', eo, hwd, hvo, hvs', hes', heo, hes'', hpV, hpE⟩
  simp only [reorder, hwd, hvo, hvs', hes', heo, hes'', Option.map_some]

theorem reorder_of_eq {sortV : List VarOrder → List VarOrder} {sortE : List EqOrder → List EqOrder} (hV : ∀ l, (sortV l).Perm l)
    (hE : ∀ l, (sortE l).Perm l) {vs vs' : List VInfo} {es es' : List EInfo} (hok : Ok vs es) (hac : Acyclic vs es)
    (h : reorder sortV sortE vs es = some (vs', es')) : Reordered sortV sortE vs es vs' es' := by
  obtain ⟨v, e, h1, h2⟩ := reorder_some hV hE hok hac
  rw [h] at h1; cases h1; exact h2

/-- everything about the moves of a reordering -/
theorem reordered_moved {sortV : List VarOrder → List VarOrder} {sortE : List EqOrder → List EqOrder} {vs vs' : List VInfo} {es es' : List EInfo}
    (hok : Ok vs es) (h : Reordered sortV sortE vs es vs' es') :
    ∃ m m', Moved m (VMoved m) vs vs' ∧ Moved m' (EMoved m) es es' ∧ (∀ p, p < vs.length → ∃ q, m p = some q) ∧
      ∀ p, p < es.length → ∃ q, m' p = some q := by
  obtain ⟨wd, vo, es1, eo, _, _, h3, h4, _, h6, h7, h8⟩ := h.ex
  refine ⟨_, _, moved_vars hok.anti_lt hok.der_lt h7 h3, moved_eqs hok.assigned_lt h4 h8 h6, fun p hp => ?_, fun p hp => ?_⟩
  · obtain ⟨hn, _, hmem⟩ := perm_range h7
    obtain ⟨i, hi⟩ := (hmem p).1 hp
    exact ⟨i, (old2new_iff hn).2 hi⟩
  · obtain ⟨hn, _, hmem⟩ := perm_range h8
    obtain ⟨i, hi⟩ := (hmem p).1 ((mapAll_get h4).1 ▸ hp)
    exact ⟨i, (old2new_iff hn).2 hi⟩

/-- nothing is lost if everything has a new position -/
theorem moved_has {α : Type} {f : α → Nat} {m : Nat → Option Nat} {R : α → α → Prop} {l l' : List α} (h : Moved m R l l')
    (hR : ∀ x x', R x x' → f x' = f x) (hall : ∀ p, p < l.length → ∃ q, m p = some q) (a : Nat) :
    (∃ x' ∈ l', f x' = a) ↔ ∃ x ∈ l, f x = a := by
  constructor
  · rintro ⟨x', hx', rfl⟩
    obtain ⟨p', hp'⟩ := List.mem_iff_getElem?.1 hx'
    obtain ⟨p, x, hp, _, hr⟩ := h.bwd p' x' hp'
    exact ⟨x, List.mem_of_getElem? hp, (hR x x' hr).symm⟩
  · rintro ⟨x, hx, rfl⟩
    obtain ⟨p, hp⟩ := List.mem_iff_getElem?.1 hx
    obtain ⟨q, hq⟩ := hall p (List.getElem?_eq_some_iff.1 hp).1
    obtain ⟨x', hx', hr⟩ := h.fwd p x q hp hq
    exact ⟨x', List.mem_of_getElem? hx', hR x x' hr⟩

theorem refers_has {α β : Type} {idα : α → Nat} {idβ : β → Nat} {field : α → Option Nat} {l : List α} {l' : List β} {a b : Nat}
    (h : Refers idα idβ field l l' a b) : (∃ x ∈ l, idα x = a) ∧ ∃ y ∈ l', idβ y = b := by
  obtain ⟨x, hx, ha, q, y, _, hy, hb⟩ := h
  exact ⟨⟨x, hx, ha⟩, y, List.mem_of_getElem? hy, hb⟩

/-- positions in moved elements exist -/
theorem moved_lt {α β : Type} {m m' : Nat → Option Nat} {R : α → α → Prop} {R' : β → β → Prop} {l l' : List α} {k k' : List β}
    (h : Moved m R l l') (hk : Moved m' R' k k') {field : α → Option Nat} (hf : ∀ x x', R x x' → field x' = (field x).bind m')
    (hlt : ∀ x ∈ l, ∀ q, field x = some q → q < k.length) : ∀ x' ∈ l', ∀ q, field x' = some q → q < k'.length := by
  intro x' hx' q hq
  obtain ⟨p', hp'⟩ := List.mem_iff_getElem?.1 hx'
  obtain ⟨p, x, hp, _, hr⟩ := h.bwd p' x' hp'
  rw [hf x x' hr] at hq
  obtain ⟨q0, h0, hm0⟩ := Option.bind_eq_some_iff.1 hq
  obtain ⟨y', hy', _⟩ := hk.fwd q0 _ q (List.getElem?_eq_getElem (hlt x (List.mem_of_getElem? hp) q0 h0)) hm0
  exact (List.getElem?_eq_some_iff.1 hy').1

end Verif.Dae.Reorder
