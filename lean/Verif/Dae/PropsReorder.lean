import Verif.Dae.LemmasReorder3
import Mathlib.Data.List.Perm.Subperm
import Mathlib.Data.List.Sort

/-
C73: information about variables and equations of the reduced system: reordering, removal of variables and equations,
semi-explicit form, new model.
-/
namespace Verif.Dae.Reorder
open Verif.Orders

/-! ### reordering -/

/-- Reordering uses no positions which do not exist, and follows derivatives to their ends. -/
theorem reorder_defined {sortV : List VarOrder → List VarOrder} {sortE : List EqOrder → List EqOrder} (hV : ∀ l, (sortV l).Perm l)
    (hE : ∀ l, (sortE l).Perm l) {vs : List VInfo} {es : List EInfo} (hok : Ok vs es) (hac : Acyclic vs es) :
    ∃ out, reorder sortV sortE vs es = some out := by
  obtain ⟨vs', es', h, _⟩ := reorder_some hV hE hok hac
  exact ⟨_, h⟩

/-- After the reordering the same variables are there with the same properties, the same ones are derivatives of the same
ones, and the same ones are assigned to the same equations. -/
theorem reorder_right {sortV : List VarOrder → List VarOrder} {sortE : List EqOrder → List EqOrder} (hV : ∀ l, (sortV l).Perm l)
    (hE : ∀ l, (sortE l).Perm l) {vs vs' : List VInfo} {es es' : List EInfo} (hok : Ok vs es) (hac : Acyclic vs es)
    (h : reorder sortV sortE vs es = some (vs', es')) :
    Ok vs' es' ∧ (∀ a b, AntiRel vs' a b ↔ AntiRel vs a b) ∧ (∀ a b, DerRel vs' a b ↔ DerRel vs a b) ∧
    (∀ e a, AssignedRel es' vs' e a ↔ AssignedRel es vs e a) ∧
    (∀ a dep int, (∃ v ∈ vs', v.id = a ∧ v.dep = dep ∧ v.integrated = int) ↔ ∃ v ∈ vs, v.id = a ∧ v.dep = dep ∧ v.integrated = int) ∧
    ∀ e x, (∃ i ∈ es', i.id = e ∧ i.explicit = x) ↔ ∃ i ∈ es, i.id = e ∧ i.explicit = x := by
  have hr := reorder_of_eq hV hE hok hac h
  obtain ⟨m, m', h1, h2, h3, h4⟩ := reordered_moved hok hr
  have idV : ∀ v v', VMoved m v v' → v'.id = v.id := fun v v' h => by rw [h]
  have idE : ∀ i i', EMoved m i i' → i'.id = i.id := fun i i' h => by rw [h]
  have hlenE : es'.length = es.length := by
    obtain ⟨wd, vo, es1, eo, _, _, _, e4, _, e6, _, e8⟩ := hr.ex
    rw [(mapAll_get e6).1, e8.length_eq, List.length_range, (mapAll_get e4).1]
  refine ⟨⟨moved_ids h1 idV hok.var_ids, moved_ids h2 idE hok.eq_ids,
    moved_lt h1 h1 (fun v v' h => by rw [h]) hok.anti_lt, moved_lt h1 h1 (fun v v' h => by rw [h]) hok.der_lt,
    moved_lt h2 h1 (fun i i' h => by rw [h]) hok.assigned_lt, fun i' hi' q hq => ?_⟩, fun a b => ?_, fun a b => ?_, fun e a => ?_,
    fun a dep int => ?_, fun e x => ?_⟩
  · obtain ⟨p', hp'⟩ := List.mem_iff_getElem?.1 hi'
    obtain ⟨p, i, hp, _, hR⟩ := h2.bwd p' i' hp'
    rw [hR] at hq
    rw [hlenE]
    exact hok.eq_lt i (List.mem_of_getElem? hp) q hq
  · unfold AntiRel
    rw [refers_moved h1 h1 (fun v v' h => ⟨idV v v' h, by rw [h]⟩) idV hok.var_ids hok.var_ids, moved_has h1 idV h3, moved_has h1 idV h3]
    exact ⟨fun h => h.1, fun h => ⟨h, refers_has h⟩⟩
  · unfold DerRel
    rw [refers_moved h1 h1 (fun v v' h => ⟨idV v v' h, by rw [h]⟩) idV hok.var_ids hok.var_ids, moved_has h1 idV h3, moved_has h1 idV h3]
    exact ⟨fun h => h.1, fun h => ⟨h, refers_has h⟩⟩
  · unfold AssignedRel
    rw [refers_moved h2 h1 (fun v v' h => ⟨idE v v' h, by rw [h]⟩) idV hok.eq_ids hok.var_ids, moved_has h2 idE h4, moved_has h1 idV h3]
    exact ⟨fun h => h.1, fun h => ⟨h, refers_has h⟩⟩
  · constructor
    · rintro ⟨v', hv', rfl, rfl, rfl⟩
      obtain ⟨p', hp'⟩ := List.mem_iff_getElem?.1 hv'
      obtain ⟨p, v, hp, _, hR⟩ := h1.bwd p' v' hp'
      exact ⟨v, List.mem_of_getElem? hp, by rw [hR], by rw [hR], by rw [hR]⟩
    · rintro ⟨v, hv, rfl, rfl, rfl⟩
      obtain ⟨p, hp⟩ := List.mem_iff_getElem?.1 hv
      obtain ⟨q, hq⟩ := h3 p (List.getElem?_eq_some_iff.1 hp).1
      obtain ⟨v', hv', hR⟩ := h1.fwd p v q hp hq
      exact ⟨v', List.mem_of_getElem? hv', by rw [hR], by rw [hR], by rw [hR]⟩
  · constructor
    · rintro ⟨i', hi', rfl, rfl⟩
      obtain ⟨p', hp'⟩ := List.mem_iff_getElem?.1 hi'
      obtain ⟨p, i, hp, _, hR⟩ := h2.bwd p' i' hp'
      exact ⟨i, List.mem_of_getElem? hp, by rw [hR], by rw [hR]⟩
    · rintro ⟨i, hi, rfl, rfl⟩
      obtain ⟨p, hp⟩ := List.mem_iff_getElem?.1 hi
      obtain ⟨q, hq⟩ := h4 p (List.getElem?_eq_some_iff.1 hp).1
      obtain ⟨i', hi', hR⟩ := h2.fwd p i q hp hq
      exact ⟨i', List.mem_of_getElem? hi', by rw [hR], by rw [hR]⟩

/-- The order of variables: by class, within a class those with derivatives first, otherwise as before. -/
theorem variable_order {sortV : List VarOrder → List VarOrder} {sortE : List EqOrder → List EqOrder} (hV : ∀ l, (sortV l).Perm l)
    (hE : ∀ l, (sortE l).Perm l) (hs : ∀ l, (sortV l).Pairwise fun a b => varLess b a = false)
    {vs vs' : List VInfo} {es es' : List EInfo} (hok : Ok vs es) (hac : Acyclic vs es) (h : reorder sortV sortE vs es = some (vs', es'))
    {p q : Nat} (hpq : p < q) {v w : VInfo} (hv : vs'[p]? = some v) (hw : vs'[q]? = some w) :
    ∃ c d, Class vs v.id c ∧ Class vs w.id d ∧ d ≤ c ∧ (c = d → Differential vs es w.id → Differential vs es v.id) ∧
      (c = d → (Differential vs es v.id ↔ Differential vs es w.id) →
        ∃ (i j : Nat) (x y : VInfo), i < j ∧ vs[i]? = some x ∧ vs[j]? = some y ∧ x.id = v.id ∧ y.id = w.id) := by
  obtain ⟨wd, vo, es1, eo, e1, e2, e3, _, _, _, e7, _⟩ := (reorder_of_eq hV hE hok hac h).ex
  have key : ∀ {p : Nat} {v : VInfo}, vs'[p]? = some v → ∃ o x, (sortV vo)[p]? = some o ∧ vs[o.originalIndex]? = some x ∧ x.id = v.id ∧
      Class vs v.id o.order ∧ (o.hasDerivatives = true ↔ Differential vs es v.id) := by
    intro p v hv
    rw [(mapAll_get e3).2, List.getElem?_map] at hv
    obtain ⟨i, hi, hnv⟩ := Option.bind_eq_some_iff.1 hv
    obtain ⟨o, ho, rfl⟩ := Option.map_eq_some_iff.1 hi
    have hmem : o ∈ vo := (hV vo).mem_iff.1 (List.mem_of_getElem? ho)
    obtain ⟨k, hk⟩ := List.mem_iff_getElem?.1 hmem
    rw [(mapAll_get e2).2] at hk
    obtain ⟨k', _, hk⟩ := Option.bind_eq_some_iff.1 hk
    have hidx := varOrder_index hk
    subst hidx
    obtain ⟨x, hx, hc, hd⟩ := varOrder_class hk
    rw [newVar_some hok.anti_lt hok.der_lt hx] at hnv
    cases hnv
    exact ⟨o, x, ho, hx, rfl, hc, by rw [hd, ← withDerivatives_mem hok e1 hx]; simp⟩
  obtain ⟨o, x, ho, hx, hxv, hc, hd⟩ := key hv
  obtain ⟨o', y, ho', hy, hyw, hc', hd'⟩ := key hw
  have hlt : varLess o' o = false := by
    obtain ⟨hp, ep⟩ := List.getElem?_eq_some_iff.1 ho
    obtain ⟨hq, eq⟩ := List.getElem?_eq_some_iff.1 ho'
    have := List.pairwise_iff_getElem.1 (hs vo) p q hp hq hpq
    rwa [ep, eq] at this
  have hne : o.originalIndex ≠ o'.originalIndex := fun he => by
    have h1 : ((sortV vo).map VarOrder.originalIndex)[p]? = some o.originalIndex := by rw [List.getElem?_map, ho]; rfl
    have h2 : ((sortV vo).map VarOrder.originalIndex)[q]? = some o.originalIndex := by rw [List.getElem?_map, ho', he]; rfl
    have hn := (perm_range e7).1
    obtain ⟨hp, ep⟩ := List.getElem?_eq_some_iff.1 h1
    obtain ⟨hq, eq⟩ := List.getElem?_eq_some_iff.1 h2
    have := (List.Nodup.getElem_inj_iff hn).1 (ep.trans eq.symm)
    omega
  unfold varLess at hlt
  refine ⟨o.order, o'.order, hc, hc', ?_, fun he hdw => ?_, fun he hdd => ?_⟩
  · rcases Int.lt_or_le o.order o'.order with h1 | h1
    · rw [if_pos h1] at hlt; cases hlt
    · exact h1
  · rw [if_neg (by omega), if_neg (by omega)] at hlt
    split at hlt
    case isTrue hh => exact hd.1 (hh ▸ hd'.2 hdw)
    case isFalse hh => exact absurd (hd'.2 hdw) (by rw [hlt]; simp)
  · rw [if_neg (by omega), if_neg (by omega)] at hlt
    have hh : o'.hasDerivatives = o.hasDerivatives := by
      rcases h1 : o'.hasDerivatives with _ | _ <;> rcases h2 : o.hasDerivatives with _ | _ <;> simp_all
    rw [if_pos hh] at hlt
    simp only [decide_eq_false_iff_not] at hlt
    exact ⟨o.originalIndex, o'.originalIndex, x, y, by omega, hx, hy, hxv, hyw⟩

/-- The order of equations: differential equations come first, in the order of their variables. The comparison has no
inversions on lists of equations with different positions. -/
theorem equation_order {sortV : List VarOrder → List VarOrder} {sortE : List EqOrder → List EqOrder} (hV : ∀ l, (sortV l).Perm l)
    (hE : ∀ l, (sortE l).Perm l) (hs : ∀ l, (l.map EqOrder.originalIndex).Nodup → (sortE l).Pairwise fun a b => eqLess b a = false)
    {vs vs' : List VInfo} {es es' : List EInfo} (hok : Ok vs es) (hac : Acyclic vs es) (h : reorder sortV sortE vs es = some (vs', es'))
    {p q : Nat} (hpq : p < q) {i j : EInfo} (hi : es'[p]? = some i) (hj : es'[q]? = some j)
    (hd : j.explicit = true ∨ ∃ (a : Nat) (v : VInfo), j.assigned = some a ∧ vs'[a]? = some v ∧ v.anti ≠ none) :
    (i.explicit = true ∨ ∃ (a : Nat) (v : VInfo), i.assigned = some a ∧ vs'[a]? = some v ∧ v.anti ≠ none) ∧
    ∀ b, j.assigned = some b → ∀ a, i.assigned = some a → a ≤ b := by
  obtain ⟨wd, vo, es1, eo, e1, e2, e3, e4, e5, e6, e7, e8⟩ := (reorder_of_eq hV hE hok hac h).ex
  have key : ∀ {p : Nat} {i : EInfo}, es'[p]? = some i → ∃ o, (sortE eo)[p]? = some o ∧
      (o.differential = true ↔ i.explicit = true ∨ ∃ (a : Nat) (v : VInfo), i.assigned = some a ∧ vs'[a]? = some v ∧ v.anti ≠ none) ∧
      ∀ a, i.assigned = some a → o.assignedVar = a := by
    intro p i hi
    rw [(mapAll_get e6).2, List.getElem?_map] at hi
    obtain ⟨k, hk, hik⟩ := Option.bind_eq_some_iff.1 hi
    obtain ⟨o, ho, rfl⟩ := Option.map_eq_some_iff.1 hk
    refine ⟨o, ho, ?_⟩
    have hmem : o ∈ eo := (hE eo).mem_iff.1 (List.mem_of_getElem? ho)
    obtain ⟨k, hk⟩ := List.mem_iff_getElem?.1 hmem
    rw [(mapAll_get e5).2] at hk
    obtain ⟨k', _, hk⟩ := Option.bind_eq_some_iff.1 hk
    have hidx := eqOrder_index hk
    subst hidx
    unfold eqOrder at hk
    rw [hik] at hk
    split at hk
    case h_2 => cases hk
    case h_1 e s he hf =>
      cases he
      split at hk
      case h_1 ha =>
        have h5 := congrArg EqOrder.differential (Option.some.inj hk)
        have h6 := congrArg EqOrder.assignedVar (Option.some.inj hk)
        simp only at h5 h6
        rw [← h5, ← h6]
        exact ⟨by simp [ha], fun a h' => by rw [ha] at h'; cases h'⟩
      case h_2 a ha =>
        split at hk
        case isTrue hx =>
          have h5 := congrArg EqOrder.differential (Option.some.inj hk)
          have h6 := congrArg EqOrder.assignedVar (Option.some.inj hk)
          simp only at h5 h6
          rw [← h5, ← h6]
          exact ⟨by simp [hx], fun a' h' => by rw [ha] at h'; cases h'; rfl⟩
        case isFalse hx =>
          split at hk
          · cases hk
          case h_2 v hv =>
            have h5 := congrArg EqOrder.differential (Option.some.inj hk)
            have h6 := congrArg EqOrder.assignedVar (Option.some.inj hk)
            simp only at h5 h6
            rw [← h5, ← h6]
            refine ⟨⟨fun hh => .inr ⟨a, v, ha, hv, fun hn => by rw [hn] at hh; cases hh⟩, ?_⟩, fun a' h' => by rw [ha] at h'; cases h'; rfl⟩
            rintro (hh | ⟨a', v', ha', hv', hn⟩)
            · exact absurd hh hx
            · rw [ha] at ha'; cases ha'
              rw [hv] at hv'; cases hv'
              rcases hva : v.anti with _ | b
              · exact absurd hva hn
              · rfl
  obtain ⟨o, ho, h1, h2⟩ := key hi
  obtain ⟨o', ho', h1', h2'⟩ := key hj
  have hlt : eqLess o' o = false := by
    obtain ⟨hp, ep⟩ := List.getElem?_eq_some_iff.1 ho
    obtain ⟨hq, eq⟩ := List.getElem?_eq_some_iff.1 ho'
    have hn : (eo.map EqOrder.originalIndex).Nodup := by
      rw [indexes_map (fun j o => eqOrder_index) e5]; exact List.nodup_range
    have := List.pairwise_iff_getElem.1 (hs eo hn) p q hp hq hpq
    rwa [ep, eq] at this
  have hd' := h1'.2 hd
  unfold eqLess at hlt
  rw [if_pos hd'] at hlt
  have hdo : o.differential = true := by
    rcases hh : o.differential with _ | _
    · rw [hh] at hlt; simp at hlt
    · rfl
  refine ⟨h1.1 hdo, fun b hb a ha => ?_⟩
  rw [if_pos hdo, decide_eq_false_iff_not, h2' b hb, h2 a ha] at hlt
  omega

/-! ### removing variables and equations -/

/-- Whenever a variable is removed, elements beyond the end of a vector are used. -/
theorem remove_undefined {vs : List VInfo} {es : List EInfo} {remV remE : Nat → Bool} (h : ∃ p, p < vs.length ∧ remV p = true) :
    remove true remV remE vs es = none := by
  obtain ⟨p, hp, hr⟩ := h
  unfold remove
  simp only
  rw [dropVars_strict vs.length vs rfl (Nat.le_refl _) ⟨p, hp, by simpa using (short_neg vs.length remV hp).2 hr⟩]
  rfl

/-- If nothing happens beyond the end, exactly the chosen variables and equations are removed, the others keep their order and
what is known about them. (Missing: the undefined behaviour, see `remove_undefined_counterexample`.) -/
theorem remove_right_partial {vs : List VInfo} {es : List EInfo} (hok : Ok vs es) (remV remE : Nat → Bool) :
    ∃ vs' es', remove false remV remE vs es = some (vs', es') ∧ Ok vs' es' ∧
      (∀ a, HasVar vs' a ↔ ∃ (p : Nat) (v : VInfo), vs[p]? = some v ∧ v.id = a ∧ remV p = false) ∧
      (∀ e, HasEq es' e ↔ ∃ (p : Nat) (i : EInfo), es[p]? = some i ∧ i.id = e ∧ remE p = false) ∧
      (∀ a b, AntiRel vs' a b ↔ AntiRel vs a b ∧ HasVar vs' a ∧ HasVar vs' b) ∧
      (∀ a b, DerRel vs' a b ↔ DerRel vs a b ∧ HasVar vs' a ∧ HasVar vs' b) ∧
      (∀ e f, EqRel es' e f ↔ EqRel es e f ∧ HasEq es' e ∧ HasEq es' f) ∧
      (∀ e a, AssignedRel es' vs' e a ↔ AssignedRel es vs e a ∧ HasEq es' e ∧ HasVar vs' a) ∧
      (∀ (p q p' q' : Nat) (v w v' w' : VInfo), vs[p]? = some v → vs[q]? = some w → vs'[p']? = some v' → vs'[q']? = some w' →
        v'.id = v.id → w'.id = w.id → p' < q' → p < q) ∧
      ∀ (p q p' q' : Nat) (i j i' j' : EInfo), es[p]? = some i → es[q]? = some j → es'[p']? = some i' → es'[q']? = some j' →
        i'.id = i.id → j'.id = j.id → p' < q' → p < q := by
  obtain ⟨vs', es', h, h1, h2⟩ := remove_moved hok remV remE
  have idV : ∀ v v', VMoved (keptPos fun q => !remV q) v v' → v'.id = v.id := fun v v' h => by rw [h]
  have idE : ∀ i i', i' = shortEq' (keptPos fun q => !remV q) (keptPos fun q => !remE q) i → i'.id = i.id := fun i i' h => by rw [h]; rfl
  have has : ∀ {α : Type} {f : α → Nat} {rem : Nat → Bool} {R : α → α → Prop} {l l' : List α}, Moved (keptPos fun q => !rem q) R l l' →
      (∀ x x', R x x' → f x' = f x) → ∀ a, (∃ x' ∈ l', f x' = a) ↔ ∃ (p : Nat) (x : α), l[p]? = some x ∧ f x = a ∧ rem p = false := by
    intro α f rem R l l' hm hR a
    constructor
    · rintro ⟨x', hx', rfl⟩
      obtain ⟨p', hp'⟩ := List.mem_iff_getElem?.1 hx'
      obtain ⟨p, x, hp, hk, hr⟩ := hm.bwd p' x' hp'
      refine ⟨p, x, hp, (hR x x' hr).symm, ?_⟩
      rcases hh : rem p with _ | _
      · rfl
      · simp [keptPos, hh] at hk
    · rintro ⟨p, x, hp, rfl, hk⟩
      obtain ⟨x', hx', hr⟩ := hm.fwd p x (cnt (fun q => !rem q) 0 p) hp (by simp [keptPos, hk])
      exact ⟨x', List.mem_of_getElem? hx', hR x x' hr⟩
  have ord : ∀ {α : Type} {f : α → Nat} {rem : Nat → Bool} {R : α → α → Prop} {l l' : List α}, Moved (keptPos fun q => !rem q) R l l' →
      (∀ x x', R x x' → f x' = f x) → (l.map f).Nodup → ∀ (p q p' q' : Nat) (v w v' w' : α), l[p]? = some v → l[q]? = some w →
      l'[p']? = some v' → l'[q']? = some w' → f v' = f v → f w' = f w → p' < q' → p < q := by
    intro α f rem R l l' hm hR hn p q p' q' v w v' w' hp hq hp' hq' e1 e2 hlt
    have pos : ∀ {p p' : Nat} {v v' : α}, l[p]? = some v → l'[p']? = some v' → f v' = f v → p' = cnt (fun q => !rem q) 0 p := by
      intro p p' v v' hp hp' he
      obtain ⟨r, x, hr, hk, hR'⟩ := hm.bwd p' v' hp'
      have := get_inj hn hr hp ((hR x v' hR').symm.trans he)
      subst this
      unfold keptPos at hk
      split at hk
      · cases hk; rfl
      · cases hk
    have p1 := pos hp hp' e1
    have p2 := pos hq hq' e2
    rcases Nat.lt_or_ge p q with hh | hh
    · exact hh
    · have := cnt_mono (fun q => !rem q) 0 hh
      omega
  refine ⟨vs', es', h, ⟨moved_ids h1 idV hok.var_ids, moved_ids h2 idE hok.eq_ids,
    moved_lt h1 h1 (fun v v' h => by rw [h]) hok.anti_lt, moved_lt h1 h1 (fun v v' h => by rw [h]) hok.der_lt,
    moved_lt h2 h1 (fun i i' h => by rw [h]; rfl) hok.assigned_lt, moved_lt h2 h2 (fun i i' h => by rw [h]; rfl) hok.eq_lt⟩,
    has h1 idV, has h2 idE, fun a b => ?_, fun a b => ?_, fun e f => ?_, fun e a => ?_, ord h1 idV hok.var_ids, ord h2 idE hok.eq_ids⟩
  · exact refers_moved h1 h1 (fun v v' h => ⟨idV v v' h, by rw [h]⟩) idV hok.var_ids hok.var_ids a b
  · exact refers_moved h1 h1 (fun v v' h => ⟨idV v v' h, by rw [h]⟩) idV hok.var_ids hok.var_ids a b
  · exact refers_moved h2 h2 (fun v v' h => ⟨idE v v' h, by rw [h]; rfl⟩) idE hok.eq_ids hok.eq_ids e f
  · exact refers_moved h2 h1 (fun v v' h => ⟨idE v v' h, by rw [h]; rfl⟩) idV hok.eq_ids hok.var_ids e a

/-! ### explicit equations -/

theorem matching_pos {vs : List VInfo} {es : List EInfo} (hok : Ok vs es) (hm : ∀ e f a, AssignedRel es vs e a → AssignedRel es vs f a → e = f)
    (p q : Nat) (e f : EInfo) (j : Nat) (he : es[p]? = some e) (hf : es[q]? = some f) (hea : e.assigned = some j) (hfa : f.assigned = some j) : p = q := by
  have hlt := hok.assigned_lt e (List.mem_of_getElem? he) j hea
  have hv := List.getElem?_eq_getElem hlt
  exact get_inj hok.eq_ids he hf (hm e.id f.id vs[j].id ⟨e, List.mem_of_getElem? he, rfl, j, _, hea, hv, rfl⟩
    ⟨f, List.mem_of_getElem? hf, rfl, j, _, hfa, hv, rfl⟩)

/-- The semi-explicit form is made or refused with an exception. It is made if every derivative is assigned to an
equation, and these can be solved. -/
theorem semi_defined (solved : Nat → Nat → Bool) {vs : List VInfo} {es : List EInfo} (hok : Ok vs es) :
    semiExplicit solved vs es ≠ .ub ∧
    ((∀ e f a, AssignedRel es vs e a → AssignedRel es vs f a → e = f) → (∀ j i, solved j i = true) →
      (∀ a b, AntiRel vs a b → ∃ e, AssignedRel es vs e a) → ∃ out, semiExplicit solved vs es = .ok out) := by
  have hr : ∀ j ∈ List.range vs.length, j < vs.length := fun j hj => List.mem_range.1 hj
  have good : ∀ es1, makeExplicit vs solved (eqFor es) (List.range vs.length) es = .ok es1 →
      ∃ es2, mapAll (newAssigned vs.length (keptIndex vs)) es1 = some es2 := by
    intro es1 h1
    refine mapAll_exists fun i' hi' => ⟨_, newAssigned_some fun q hq => ?_⟩
    obtain ⟨p, hp⟩ := List.mem_iff_getElem?.1 hi'
    have hpl := (List.getElem?_eq_some_iff.1 hp).1
    rw [makeExplicit_length h1] at hpl
    have hb : ∀ j j' i, eqFor es j = some i → eqFor es j' = some i → j = j' := fun j j' i h h' => by
      obtain ⟨e, he, ha⟩ := eqFor_some h
      obtain ⟨e', he', ha'⟩ := eqFor_some h'
      rw [he] at he'; cases he'
      rw [ha] at ha'; exact Option.some.inj ha'
    rcases makeExplicit_get hb h1 p _ (List.getElem?_eq_getElem hpl) with ⟨j, _, v, b, hv, ha, _, h2⟩ | ⟨_, h2⟩
    · rw [h2] at hp; cases hp; cases hq
      exact hok.anti_lt v (List.mem_of_getElem? hv) _ ha
    · rw [h2] at hp; cases hp
      exact hok.assigned_lt _ (List.getElem_mem hpl) q hq
  constructor
  · unfold semiExplicit
    split
    case h_1 es1 h1 =>
      obtain ⟨es2, h2⟩ := good es1 h1
      simp [h2]
    case h_2 => simp
    case h_3 h1 => exact absurd h1 (makeExplicit_not_ub hr)
  · intro hm hsol hall
    obtain ⟨es1, h1⟩ := makeExplicit_ok (vs := vs) (solved := solved) (best := eqFor es) (es := es) hr fun j _ v hv ha => by
      obtain ⟨b, hb⟩ := Option.ne_none_iff_exists'.1 ha
      have hblt := hok.anti_lt v (List.mem_of_getElem? hv) b hb
      obtain ⟨e, i, hi, _, q, y, hq, hy, hyid⟩ := hall v.id vs[b].id ⟨v, List.mem_of_getElem? hv, rfl, b, _, hb, List.getElem?_eq_getElem hblt, rfl⟩
      have := get_inj hok.var_ids hy hv hyid
      subst this
      obtain ⟨k, hk⟩ := List.mem_iff_getElem?.1 hi
      exact ⟨k, (eqFor_iff (matching_pos hok hm)).2 ⟨i, hk, hq⟩, hsol _ _⟩
    obtain ⟨es2, h2⟩ := good es1 h1
    exact ⟨((dropDerivatives vs.length vs).map fun v => { v with der := none }, es2), by simp only [semiExplicit, h1, h2]⟩

/-- In the semi-explicit form there are no derivatives any more. All other variables and all equations are there. An
equation which was assigned to a derivative has become explicit and belongs to the variable, the others are as before. -/
theorem semi_right {solved : Nat → Nat → Bool} {vs vs' : List VInfo} {es es' : List EInfo} (hok : Ok vs es)
    (hm : ∀ e f a, AssignedRel es vs e a → AssignedRel es vs f a → e = f) (h : semiExplicit solved vs es = .ok (vs', es')) :
    (∀ a, HasVar vs' a ↔ ∃ v ∈ vs, v.id = a ∧ v.anti = none) ∧ (∀ e, HasEq es' e ↔ HasEq es e) ∧
    (∀ v ∈ vs', v.anti = none ∧ v.der = none) ∧ (∀ e f, EqRel es' e f ↔ EqRel es e f) ∧
    (∀ e a, AssignedRel es' vs' e a ↔ HasVar vs' a ∧ (AssignedRel es vs e a ∨ ∃ b, AssignedRel es vs e b ∧ AntiRel vs b a)) ∧
    ∀ i ∈ es', (i.explicit = true ↔ (∃ j ∈ es, j.id = i.id ∧ j.explicit = true) ∨ ∃ b c, AssignedRel es vs i.id b ∧ AntiRel vs b c) := by
  unfold semiExplicit at h
  split at h
  case h_2 => cases h
  case h_3 => cases h
  case h_1 es1 h1 =>
    split at h
    · cases h
    case h_2 es2 h2 =>
      cases h
      have hv := semi_vars vs
      generalize (dropDerivatives vs.length vs).map (fun v => { v with der := none }) = vs' at hv ⊢
      have hb : ∀ j j' i, eqFor es j = some i → eqFor es j' = some i → j = j' := fun j j' i h h' => by
        obtain ⟨e, he, ha⟩ := eqFor_some h
        obtain ⟨e', he', ha'⟩ := eqFor_some h'
        rw [he] at he'; cases he'
        rw [ha] at ha'; exact Option.some.inj ha'
      have hmp := matching_pos hok hm
      have hl1 := makeExplicit_length h1
      obtain ⟨hl2, hg2⟩ := mapAll_get h2
      -- what each equation becomes
      have eqs : ∀ (i : Nat) (e : EInfo), es[i]? = some e →
          (∃ (j : Nat) (v : VInfo) (b : Nat), e.assigned = some j ∧ vs[j]? = some v ∧ v.anti = some b ∧
            es'[i]? = some { e with explicit := true, assigned := keptIndex vs b }) ∨
          ((∀ (j : Nat) (v : VInfo), e.assigned = some j → vs[j]? = some v → v.anti = none) ∧
            es'[i]? = some { e with assigned := e.assigned.bind (keptIndex vs) }) := by
        intro i e he
        rcases makeExplicit_get hb h1 i e he with ⟨j, _, v, b, hvj, ha, hbj, h3⟩ | ⟨h3, h4⟩
        · left
          obtain ⟨e', he', hea⟩ := eqFor_some hbj
          rw [he] at he'; cases he'
          refine ⟨j, v, b, hea, hvj, ha, ?_⟩
          rw [hg2, h3, Option.bind_some, newAssigned_some]
          · rfl
          · intro q hq; cases hq
            exact hok.anti_lt v (List.mem_of_getElem? hvj) _ ha
        · right
          refine ⟨fun j v hea hvj => ?_, ?_⟩
          · by_cases hn : v.anti = none
            · exact hn
            · exact absurd ((eqFor_iff hmp).2 ⟨e, he, hea⟩) (h3 j (List.mem_range.2 (List.getElem?_eq_some_iff.1 hvj).1) v hvj hn)
          · rw [hg2, h4, Option.bind_some, newAssigned_some (hok.assigned_lt e (List.mem_of_getElem? he))]
      have kept : ∀ (j : Nat) (v : VInfo), vs[j]? = some v → (v.anti = none ↔ ∃ r, keptIndex vs j = some r) := by
        intro j v hj
        simp only [keptIndex, hj]
        rcases v.anti with _ | b <;> simp
      have keptv : ∀ (j r : Nat) (v : VInfo), vs[j]? = some v → keptIndex vs j = some r → vs'[r]? = some { v with der := none } := by
        intro j r v hj hk
        obtain ⟨x', hx', hR⟩ := hv.fwd j v r hj hk
        rw [hx', hR]
      have hasv : ∀ a, HasVar vs' a ↔ ∃ v ∈ vs, v.id = a ∧ v.anti = none := by
        intro a
        constructor
        · rintro ⟨v', hv', rfl⟩
          obtain ⟨r, hr⟩ := List.mem_iff_getElem?.1 hv'
          obtain ⟨j, v, hj, hk, hR⟩ := hv.bwd r v' hr
          exact ⟨v, List.mem_of_getElem? hj, by rw [hR], (kept j v hj).2 ⟨r, hk⟩⟩
        · rintro ⟨v, hvm, rfl, hn⟩
          obtain ⟨j, hj⟩ := List.mem_iff_getElem?.1 hvm
          obtain ⟨r, hk⟩ := (kept j v hj).1 hn
          exact ⟨_, List.mem_of_getElem? (keptv j r v hj hk), rfl⟩
      have lens : es'.length = es.length := hl2.trans hl1
      -- equations have the same positions
      have back : ∀ (i : Nat) (e' : EInfo), es'[i]? = some e' → ∃ e, es[i]? = some e ∧ e'.id = e.id ∧ e'.anti = e.anti := by
        intro i e' he'
        have hi := (List.getElem?_eq_some_iff.1 he').1
        rw [lens] at hi
        have he := List.getElem?_eq_getElem hi
        refine ⟨_, he, ?_⟩
        rcases eqs i _ he with ⟨j, v, b, _, _, _, h3⟩ | ⟨_, h3⟩ <;>
        · rw [h3] at he'; cases he'; exact ⟨rfl, rfl⟩
      have forth : ∀ (i : Nat) (e : EInfo), es[i]? = some e → ∃ e', es'[i]? = some e' ∧ e'.id = e.id ∧ e'.anti = e.anti := by
        intro i e he
        rcases eqs i _ he with ⟨j, v, b, _, _, _, h3⟩ | ⟨_, h3⟩ <;> exact ⟨_, h3, rfl, rfl⟩
      refine ⟨hasv, fun e => ?_, fun v' hv' => ?_, fun e f => ?_, fun e a => ?_, fun i hi => ?_⟩
      · constructor
        · rintro ⟨i', hi', rfl⟩
          obtain ⟨k, hk⟩ := List.mem_iff_getElem?.1 hi'
          obtain ⟨e, he, hid, _⟩ := back k i' hk
          exact ⟨e, List.mem_of_getElem? he, hid.symm⟩
        · rintro ⟨i, hi, rfl⟩
          obtain ⟨k, hk⟩ := List.mem_iff_getElem?.1 hi
          obtain ⟨e, he, hid, _⟩ := forth k i hk
          exact ⟨e, List.mem_of_getElem? he, hid⟩
      · obtain ⟨r, hr⟩ := List.mem_iff_getElem?.1 hv'
        obtain ⟨j, v, hj, hk, hR⟩ := hv.bwd r v' hr
        rw [hR]
        exact ⟨(kept j v hj).2 ⟨r, hk⟩, rfl⟩
      · constructor
        · rintro ⟨i', hi', rfl, q, y', hq, hy', rfl⟩
          obtain ⟨k, hk⟩ := List.mem_iff_getElem?.1 hi'
          obtain ⟨i, hi, e1, e2⟩ := back k i' hk
          obtain ⟨y, hy, e3, _⟩ := back q y' hy'
          exact ⟨i, List.mem_of_getElem? hi, e1.symm, q, y, e2 ▸ hq, hy, e3.symm⟩
        · rintro ⟨i, hi, rfl, q, y, hq, hy, rfl⟩
          obtain ⟨k, hk⟩ := List.mem_iff_getElem?.1 hi
          obtain ⟨i', hi', e1, e2⟩ := forth k i hk
          obtain ⟨y', hy', e3, _⟩ := forth q y hy
          exact ⟨i', List.mem_of_getElem? hi', e1, q, y', e2 ▸ hq, hy', e3⟩
      · constructor
        · rintro ⟨i', hi', rfl, r, y', hr, hy', rfl⟩
          refine ⟨⟨y', List.mem_of_getElem? hy', rfl⟩, ?_⟩
          obtain ⟨k, hk⟩ := List.mem_iff_getElem?.1 hi'
          obtain ⟨i, hi, e1, _⟩ := back k i' hk
          obtain ⟨j0, y, hy, hky, hR⟩ := hv.bwd r y' hy'
          rcases eqs k i hi with ⟨j, v, b, ha, hvj, hb', h3⟩ | ⟨_, h3⟩
          · rw [hk] at h3; cases h3
            have := hv.inj b j0 r hr hky
            subst this
            right
            refine ⟨v.id, ⟨i, List.mem_of_getElem? hi, rfl, j, v, ha, hvj, rfl⟩, ⟨v, List.mem_of_getElem? hvj, rfl, b, y, hb', hy, by rw [hR]⟩⟩
          · rw [hk] at h3; cases h3
            obtain ⟨j, ha, hkj⟩ := Option.bind_eq_some_iff.1 hr
            have := hv.inj j j0 r hkj hky
            subst this
            exact .inl ⟨i, List.mem_of_getElem? hi, rfl, j, y, ha, hy, by rw [hR]⟩
        · rintro ⟨hha, hor⟩
          obtain ⟨w, hw, hwa, hwn⟩ := (hasv a).1 hha
          rcases hor with ⟨i, hi, rfl, j, y, ha, hy, rfl⟩ | ⟨b, ⟨i, hi, rfl, j, y, ha, hy, rfl⟩, ⟨y2, hy2, hyid, c, z, hc, hz, rfl⟩⟩
          · have hyn : y.anti = none := by
              rw [← mem_inj hok.var_ids hw (List.mem_of_getElem? hy) hwa]; exact hwn
            obtain ⟨r, hr⟩ := (kept j y hy).1 hyn
            obtain ⟨k, hk⟩ := List.mem_iff_getElem?.1 hi
            rcases eqs k i hk with ⟨j', v, b, ha', hvj, hb', h3⟩ | ⟨_, h3⟩
            · rw [ha] at ha'; cases ha'
              rw [hy] at hvj; cases hvj
              rw [hyn] at hb'; cases hb'
            · exact ⟨_, List.mem_of_getElem? h3, rfl, r, _, by simp [ha, hr], keptv j r y hy hr, rfl⟩
          · have := mem_inj hok.var_ids hy2 (List.mem_of_getElem? hy) hyid
            subst this
            have hzn : z.anti = none := by
              rw [← mem_inj hok.var_ids hw (List.mem_of_getElem? hz) hwa]; exact hwn
            obtain ⟨r, hr⟩ := (kept c z hz).1 hzn
            obtain ⟨k, hk⟩ := List.mem_iff_getElem?.1 hi
            rcases eqs k i hk with ⟨j', v, b, ha', hvj, hb', h3⟩ | ⟨h4, h3⟩
            · rw [ha] at ha'; cases ha'
              rw [hy] at hvj; cases hvj
              rw [hc] at hb'; cases hb'
              exact ⟨_, List.mem_of_getElem? h3, rfl, r, _, hr, keptv c r z hz hr, rfl⟩
            · rw [h4 j y2 ha hy] at hc; cases hc
      · obtain ⟨k, hk⟩ := List.mem_iff_getElem?.1 hi
        obtain ⟨e, he, hid, _⟩ := back k i hk
        have hem := List.mem_of_getElem? he
        rcases eqs k e he with ⟨j, v, b, ha, hvj, hb', h3⟩ | ⟨h4, h3⟩
        · rw [hk] at h3; cases h3
          have hblt := hok.anti_lt v (List.mem_of_getElem? hvj) b hb'
          exact ⟨fun _ => .inr ⟨v.id, vs[b].id, ⟨e, hem, rfl, j, v, ha, hvj, rfl⟩, ⟨v, List.mem_of_getElem? hvj, rfl, b, _, hb',
            List.getElem?_eq_getElem hblt, rfl⟩⟩, fun _ => rfl⟩
        · rw [hk] at h3; cases h3
          constructor
          · exact fun hx => .inl ⟨e, hem, rfl, hx⟩
          · rintro (⟨f, hf, hfid, hx⟩ | ⟨b, c, ⟨f, hf, hfid, j, y, ha, hy, rfl⟩, ⟨y2, hy2, hyid, c', z, hc, hz, rfl⟩⟩)
            · rw [mem_inj hok.eq_ids hf hem hfid] at hx; exact hx
            · have := mem_inj hok.eq_ids hf hem hfid
              subst this
              have := mem_inj hok.var_ids hy2 (List.mem_of_getElem? hy) hyid
              subst this
              rw [h4 j y2 ha hy] at hc; cases hc

/-! ### the new model -/

/-- The new model: there are values for the variables of the recorded functions, each variable gets the value at its new
position, and each equation is the recorded function of the equation with the same identifier. -/
theorem model_right {K : Type} (zero : K) (res : List (List K → K)) {vs vs' : List VInfo} {es es' : List EInfo} (y : List K)
    (hv : (vs.map VInfo.id).Nodup) (hv' : (vs'.map VInfo.id).Nodup) (he : (es.map EInfo.id).Nodup)
    (hsub : ∀ a, HasVar vs' a → HasVar vs a) (hsube : ∀ e, HasEq es' e → HasEq es e) (hy : y.length = vs'.length) (hres : res.length = es.length) :
    ∃ h out, newModel zero vs'.length res vs vs' es es' y = some out ∧ h.length = vs'.length ∧ out.length = es'.length ∧
      (∀ (r p : Nat) (x v : VInfo), (vs.filter fun v => decide (v.id ∈ vs'.map VInfo.id))[r]? = some x → vs'[p]? = some v → x.id = v.id → h[r]? = y[p]?) ∧
      ∀ (k i : Nat) (e e' : EInfo), es[k]? = some e → es'[i]? = some e' → e.id = e'.id → out[i]? = (res[k]?).map fun f => f h := by
  have hcont : (fun v : VInfo => decide (v.id ∈ vs'.map VInfo.id)) = fun v => (vs'.map VInfo.id).contains v.id := by
    funext v; simp [List.contains_iff_mem]
  rw [hcont]
  -- every new variable has a place
  have hpos : ∀ v ∈ vs', ∃ (r : Nat) (x : VInfo), (vs.filter fun v => (vs'.map VInfo.id).contains v.id)[r]? = some x ∧ x.id = v.id := by
    intro v hvm
    obtain ⟨x, hx, hid⟩ := hsub v.id ⟨v, hvm, rfl⟩
    have : x ∈ vs.filter fun v => (vs'.map VInfo.id).contains v.id := by
      rw [List.mem_filter]
      exact ⟨hx, by rw [hid]; simpa using ⟨v, hvm, rfl⟩⟩
    obtain ⟨r, hr⟩ := List.mem_iff_getElem?.1 this
    exact ⟨r, x, hr, hid⟩
  have hlook : ∀ (r : Nat) (x : VInfo), (vs.filter fun v => (vs'.map VInfo.id).contains v.id)[r]? = some x →
      lookup x.id (handlerIndex (vs'.map VInfo.id) vs 0 []) = r := fun r x hr => by rw [handlerIndex_get hv hr, Nat.zero_add]
  have hlen : (vs.filter fun v => (vs'.map VInfo.id).contains v.id).length ≤ vs'.length := by
    have hnd : ((vs.filter fun v => (vs'.map VInfo.id).contains v.id).map VInfo.id).Nodup :=
      hv.sublist (List.Sublist.map _ List.filter_sublist)
    have hss : ((vs.filter fun v => (vs'.map VInfo.id).contains v.id).map VInfo.id) ⊆ vs'.map VInfo.id := by
      intro a ha
      obtain ⟨x, hx, rfl⟩ := List.mem_map.1 ha
      have := (List.mem_filter.1 hx).2
      simpa using this
    have := (List.subperm_of_subset hnd hss).length_le
    simpa using this
  obtain ⟨h, e1, e2, e3, _⟩ := place_get (idx := handlerIndex (vs'.map VInfo.id) vs 0 []) (vs := vs') (ys := y)
    (h := List.replicate vs'.length zero) (by omega)
    (fun v hvm => by
      obtain ⟨r, x, hr, hid⟩ := hpos v hvm
      rw [← hid, hlook r x hr, List.length_replicate]
      exact Nat.lt_of_lt_of_le (List.getElem?_eq_some_iff.1 hr).1 hlen)
    (by
      have hin : ∀ v ∈ vs', ∀ w ∈ vs', lookup v.id (handlerIndex (vs'.map VInfo.id) vs 0 []) = lookup w.id (handlerIndex (vs'.map VInfo.id) vs 0 []) → v.id = w.id := by
        intro v hvm w hwm hvw
        obtain ⟨r, x, hr, hid⟩ := hpos v hvm
        obtain ⟨r', x', hr', hid'⟩ := hpos w hwm
        rw [← hid, ← hid', hlook r x hr, hlook r' x' hr'] at hvw
        subst hvw
        rw [hr] at hr'; cases hr'
        exact hid.symm.trans hid'
      rw [List.nodup_iff_pairwise_ne, List.pairwise_map] at hv' ⊢
      exact hv'.imp_of_mem fun {a b} ha hb hne hh => hne (hin a ha b hb hh))
  have hfun : ∀ i' ∈ es', ∃ k : Nat, k < es.length ∧ lookup i'.id (eqIndex es 0 []) = k := by
    intro i' hi'
    obtain ⟨i, hi, hid⟩ := hsube i'.id ⟨i', hi', rfl⟩
    obtain ⟨k, hk⟩ := List.mem_iff_getElem?.1 hi
    exact ⟨k, (List.getElem?_eq_some_iff.1 hk).1, by rw [← hid, eqIndex_get he hk, Nat.zero_add]⟩
  obtain ⟨out, ho⟩ := mapAll_exists (f := fun i : EInfo => (res[lookup i.id (eqIndex es 0 [])]?).map fun f => f h) (l := es') fun i' hi' => by
    obtain ⟨k, hk, hl⟩ := hfun i' hi'
    rw [hl, List.getElem?_eq_getElem (by omega)]
    exact ⟨_, rfl⟩
  obtain ⟨hol, hog⟩ := mapAll_get ho
  refine ⟨h, out, by simp only [newModel, e1, ho], by simpa using e2, hol, fun r p x v hr hp hid => ?_, fun k i e e' hk hi hid => ?_⟩
  · have := e3 p v hp
    rw [← hid, hlook r x hr] at this
    exact this
  · rw [hog, hi, Option.bind_some, ← hid, eqIndex_get he hk, Nat.zero_add]

/-! ### concrete systems -/

/-- a sort of variables -/
def sortedV (l : List VarOrder) : List VarOrder := l.insertionSort fun a b => varLess b a = false

theorem varLess_iff {a b : VarOrder} : varLess b a = false ↔ b.order < a.order ∨ (b.order = a.order ∧
    ((a.hasDerivatives = true ∧ b.hasDerivatives = false) ∨ (a.hasDerivatives = b.hasDerivatives ∧ a.originalIndex ≤ b.originalIndex))) := by
  unfold varLess
  rcases Int.lt_trichotomy a.order b.order with h | h | h
  · rw [if_pos h]; simp; omega
  · rw [if_neg (by omega), if_neg (by omega)]
    rcases a.hasDerivatives with _ | _ <;> rcases b.hasDerivatives with _ | _ <;> simp [h]
  · rw [if_neg (by omega), if_pos h]; simp; omega

theorem sortedV_perm (l : List VarOrder) : (sortedV l).Perm l := List.perm_insertionSort _ l

theorem sortedV_sorted (l : List VarOrder) : (sortedV l).Pairwise fun a b => varLess b a = false := by
  have : IsTrans VarOrder fun a b => varLess b a = false := ⟨fun a b c h1 h2 => by
    rw [varLess_iff] at h1 h2 ⊢
    revert h1 h2
    rcases a.hasDerivatives with _ | _ <;> rcases b.hasDerivatives with _ | _ <;> rcases c.hasDerivatives with _ | _ <;> simp <;> intros <;> omega⟩
  have : Std.Total fun a b => varLess b a = false := ⟨fun a b => by
    rw [varLess_iff, varLess_iff]
    rcases a.hasDerivatives with _ | _ <;> rcases b.hasDerivatives with _ | _ <;> simp <;> omega⟩
  exact List.pairwise_insertionSort _ l

/-- a sort of equations -/
def eqKey (a : EqOrder) : Int := if a.differential then a.assignedVar else a.originalIndex0
def eqBase (a : EqOrder) : Bool := a.originalIndex == a.originalIndex0
def eqLe (a b : EqOrder) : Prop := (a.differential = true ∧ b.differential = false) ∨ (a.differential = b.differential ∧
  (eqKey a < eqKey b ∨ (eqKey a = eqKey b ∧ (a.differential = true ∨ eqBase a = true ∨ eqBase b = false))))

instance (a b : EqOrder) : Decidable (eqLe a b) := by unfold eqLe; infer_instance

def sortedE (l : List EqOrder) : List EqOrder := l.insertionSort eqLe

theorem sortedE_perm (l : List EqOrder) : (sortedE l).Perm l := List.perm_insertionSort _ l

theorem sortedE_sorted (l : List EqOrder) (h : (l.map EqOrder.originalIndex).Nodup) : (sortedE l).Pairwise fun a b => eqLess b a = false := by
  have : IsTrans EqOrder eqLe := ⟨fun a b c h1 h2 => by
    unfold eqLe at *
    revert h1 h2
    generalize eqKey a = ka
    generalize eqKey b = kb
    generalize eqKey c = kc
    rcases a.differential with _ | _ <;> rcases b.differential with _ | _ <;> rcases c.differential with _ | _ <;>
      rcases eqBase a with _ | _ <;> rcases eqBase b with _ | _ <;> rcases eqBase c with _ | _ <;> simp <;> intros <;> omega⟩
  have : Std.Total eqLe := ⟨fun a b => by
    unfold eqLe
    generalize eqKey a = ka
    generalize eqKey b = kb
    rcases a.differential with _ | _ <;> rcases b.differential with _ | _ <;>
      rcases eqBase a with _ | _ <;> rcases eqBase b with _ | _ <;> simp <;> omega⟩
  have h1 : (sortedE l).Pairwise eqLe := List.pairwise_insertionSort _ l
  have h2 : (sortedE l).Pairwise fun a b => a.originalIndex ≠ b.originalIndex := by
    have := (((sortedE_perm l).map EqOrder.originalIndex).nodup_iff).2 h
    rwa [List.nodup_iff_pairwise_ne, List.pairwise_map] at this
  refine (h1.and h2).imp fun {a b} ⟨h3, h4⟩ => ?_
  unfold eqLe eqKey eqBase at h3
  unfold eqLess
  revert h3
  rcases a.differential with _ | _ <;> rcases b.differential with _ | _ <;> simp <;> intro h3
  · split
    · omega
    · omega
  · omega

/-- an algebraic variable, a differential variable with its derivative, the integrated variable, a constant; the last
equation is the derivative of the first -/
def vsE : List VInfo := [⟨1, none, none, true, false⟩, ⟨0, none, some 2, true, false⟩, ⟨2, some 1, none, true, false⟩,
  ⟨3, none, none, false, true⟩, ⟨4, none, none, false, false⟩]
def esE : List EInfo := [⟨0, none, some 0, false⟩, ⟨1, some 0, some 2, false⟩]

theorem okE : Ok vsE esE := by
  constructor <;> first | decide | (intro v hv q; revert v; simp [vsE, esE]; try omega)

theorem acE : Acyclic vsE esE := by
  refine ⟨⟨fun p => if p = 2 then 1 else 0, fun p => by dsimp only; split <;> decide, fun p q v hv ha => ?_⟩, ⟨fun p => if p = 1 then 1 else 0, fun p => by dsimp only; split <;> decide, fun p q v hv ha => ?_⟩⟩
  · have hp := (List.getElem?_eq_some_iff.1 hv).1
    simp only [vsE, List.length_cons, List.length_nil] at hp
    match p, hp with
    | 0, _ | 1, _ | 2, _ | 3, _ | 4, _ => simp [vsE] at hv; subst hv; simp at ha; try (subst ha; decide)
  · have hp := (List.getElem?_eq_some_iff.1 hv).1
    simp only [esE, List.length_cons, List.length_nil] at hp
    match p, hp with
    | 0, _ | 1, _ => simp [esE] at hv; subst hv; simp at ha; try (subst ha; decide)

theorem reorderE : reorder sortedV sortedE vsE esE = some
    ([⟨2, some 1, none, true, false⟩, ⟨0, none, some 0, true, false⟩, ⟨1, none, none, true, false⟩, ⟨4, none, none, false, false⟩,
      ⟨3, none, none, false, true⟩], [⟨1, some 0, some 0, false⟩, ⟨0, none, some 2, false⟩]) := by decide +kernel

example : AntiRel vsE 2 0 ∧ Class vsE 2 1 ∧ Differential vsE esE 0 := by
  have h : AntiRel vsE 2 0 := ⟨⟨2, some 1, none, true, false⟩, by simp [vsE], rfl, 1, ⟨0, none, some 2, true, false⟩, rfl, rfl, rfl⟩
  have h0 : NthDer vsE 0 0 0 := .base (v := ⟨0, none, some 2, true, false⟩) (by simp [vsE]) rfl
  refine ⟨h, .order (v := ⟨2, some 1, none, true, false⟩) (b := 0) (k := 1) (by simp [vsE]) rfl rfl (.step h h0), .inr ⟨by simp [esE], 0, 2, .step h h0⟩⟩

/-- The documentation (l.205-210) says that differential variables come first and derivatives after the algebraic ones. The
derivative (identifier 2) comes first here. -/
theorem documented_order_counterexample : ∃ (sortV : List VarOrder → List VarOrder) (sortE : List EqOrder → List EqOrder) (vs vs' : List VInfo)
    (es es' : List EInfo), (∀ l, (sortV l).Perm l) ∧ (∀ l, (sortE l).Perm l) ∧ (∀ l, (sortV l).Pairwise fun a b => varLess b a = false) ∧
    Ok vs es ∧ Acyclic vs es ∧ reorder sortV sortE vs es = some (vs', es') ∧
    ∃ (p q : Nat) (v w : VInfo), p < q ∧ vs'[p]? = some v ∧ vs'[q]? = some w ∧ v.anti ≠ none ∧ w.anti = none ∧ w.integrated = false ∧ w.der ≠ none :=
  ⟨sortedV, sortedE, vsE, _, esE, _, sortedV_perm, sortedE_perm, sortedV_sorted, okE, acE, reorderE, 0, 1, _, _, by decide, rfl, rfl, by decide, rfl, rfl, by decide⟩

/-- Positions of the equations of which an equation is a derivative are not changed by the reordering (l.1214-1218): here
equation 1, the derivative of equation 0, is then the derivative of itself. -/
theorem equation_derivatives_counterexample : ∃ (sortV : List VarOrder → List VarOrder) (sortE : List EqOrder → List EqOrder) (vs vs' : List VInfo)
    (es es' : List EInfo), (∀ l, (sortV l).Perm l) ∧ (∀ l, (sortE l).Perm l) ∧ (∀ l, (sortV l).Pairwise fun a b => varLess b a = false) ∧
    (∀ l, (l.map EqOrder.originalIndex).Nodup → (sortE l).Pairwise fun a b => eqLess b a = false) ∧
    Ok vs es ∧ Acyclic vs es ∧ reorder sortV sortE vs es = some (vs', es') ∧
    EqRel es 1 0 ∧ ¬ EqRel es 1 1 ∧ ¬ EqRel es' 1 0 ∧ EqRel es' 1 1 := by
  refine ⟨sortedV, sortedE, vsE, _, esE, _, sortedV_perm, sortedE_perm, sortedV_sorted, sortedE_sorted, okE, acE, reorderE,
    ⟨⟨1, some 0, some 2, false⟩, by simp [esE], rfl, 0, _, rfl, rfl, rfl⟩, ?_, ?_, ⟨⟨1, some 0, some 0, false⟩, by simp, rfl, 0, _, rfl, rfl, rfl⟩⟩
  · rintro ⟨x, hx, hid, q, y, hq, hy, hy1⟩
    simp only [esE, List.mem_cons, List.not_mem_nil, or_false] at hx
    rcases hx with rfl | rfl
    · cases hq
    · cases hq; simp [esE] at hy; subst hy; cases hy1
  · rintro ⟨x, hx, hid, q, y, hq, hy, hy1⟩
    simp only [List.mem_cons, List.not_mem_nil, or_false] at hx
    rcases hx with rfl | rfl
    · cases hq; simp at hy; subst hy; cases hy1
    · cases hq

/-- Removing the derivative: elements beyond the end of the vector are used (l.554: the loop is over the old number of
variables). Without this the result would be right. -/
theorem remove_undefined_counterexample : ∃ (vs : List VInfo) (es : List EInfo) (remV remE : Nat → Bool), Ok vs es ∧
    remove true remV remE vs es = none ∧ (remove false remV remE vs es).isSome = true :=
  ⟨vsE, esE, fun p => p == 2, fun p => p == 1, okE, remove_undefined ⟨2, by decide, rfl⟩, by decide +kernel⟩

example : remove false (fun p => p == 0) (fun p => p == 0) vsE esE = some
    ([⟨0, none, some 1, true, false⟩, ⟨2, some 0, none, true, false⟩, ⟨3, none, none, false, true⟩, ⟨4, none, none, false, false⟩],
      [⟨1, none, some 1, false⟩]) := by decide +kernel

example : semiExplicit (fun _ _ => true) vsE esE = .ok
    ([⟨1, none, none, true, false⟩, ⟨0, none, none, true, false⟩, ⟨3, none, none, false, true⟩, ⟨4, none, none, false, false⟩],
      [⟨0, none, some 0, false⟩, ⟨1, some 0, some 1, true⟩]) := rfl

/-- With second derivatives an equation becomes explicit without belonging to any variable: the variable it should belong to
is itself a derivative and removed. -/
theorem second_order_counterexample : ∃ (vs vs' : List VInfo) (es es' : List EInfo), Ok vs es ∧ Acyclic vs es ∧
    (∀ e f a, AssignedRel es vs e a → AssignedRel es vs f a → e = f) ∧ semiExplicit (fun _ _ => true) vs es = .ok (vs', es') ∧
    ∃ i ∈ es', i.explicit = true ∧ i.assigned = none := by
  refine ⟨[⟨0, none, some 1, true, false⟩, ⟨1, some 0, some 2, true, false⟩, ⟨2, some 1, none, true, false⟩], _,
    [⟨0, none, some 1, false⟩, ⟨1, none, some 2, false⟩], _, ?_, ?_, ?_, rfl, ⟨1, none, none, true⟩, by simp [keptIndex, newAssigned, remap], rfl, rfl⟩
  · constructor <;> first | decide | (intro v hv q; revert v; simp; try omega)
  · refine ⟨⟨fun p => p % 3, fun p => by simp; omega, fun p q v hv ha => ?_⟩, ⟨fun _ => 0, fun p => by simp, fun p q v hv ha => ?_⟩⟩
    · have hp := (List.getElem?_eq_some_iff.1 hv).1
      simp only [List.length_cons, List.length_nil] at hp
      match p, hp with
      | 0, _ | 1, _ | 2, _ => simp at hv; subst hv; simp at ha; try (subst ha; decide)
    · have hp := List.mem_of_getElem? hv
      simp at hp
      rcases hp with rfl | rfl <;> cases ha
  · rintro e f a ⟨x, hx, rfl, q, y, hq, hy, hy1⟩ ⟨x', hx', rfl, q', y', hq', hy', hy1'⟩
    simp only [List.mem_cons, List.not_mem_nil, or_false] at hx hx'
    rcases hx with rfl | rfl <;> rcases hx' with rfl | rfl <;> first | rfl | (cases hq; cases hq'; simp at hy hy'; subst hy hy'; simp at hy1 hy1'; omega)

example : newModel (0 : Int) 3 [fun h => h.getD 0 0 - 2 * h.getD 1 0, fun h => h.getD 2 0] [⟨7, none, none, true, false⟩, ⟨8, none, none, true, false⟩,
    ⟨9, none, none, true, false⟩] [⟨9, none, none, true, false⟩, ⟨7, none, none, true, false⟩, ⟨8, none, none, true, false⟩]
    [⟨0, none, none, false⟩, ⟨1, none, none, false⟩] [⟨1, none, none, false⟩, ⟨0, none, none, false⟩] [100, 30, 5] = some [100, 20] := by decide +kernel

end Verif.Dae.Reorder
