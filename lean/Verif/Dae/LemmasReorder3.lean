import Verif.Dae.LemmasReorder2

namespace Verif.Dae.Reorder
open Verif.Orders

/-! ### explicit equations -/

theorem eqFor_some {es : List EInfo} {i j : Nat} (h : eqFor es j = some i) : ∃ e, es[i]? = some e ∧ e.assigned = some j := by
  unfold eqFor at h
  have hmem := List.mem_of_getLast? h
  rw [List.mem_filter] at hmem
  obtain ⟨h1, h2⟩ := hmem
  have h2 : es[i]?.bind EInfo.assigned = some j := by simpa using h2
  obtain ⟨e, he, ha⟩ := Option.bind_eq_some_iff.1 h2
  exact ⟨e, he, ha⟩

theorem eqFor_iff {es : List EInfo} (hm : ∀ (p q : Nat) (e f : EInfo) (j : Nat), es[p]? = some e → es[q]? = some f → e.assigned = some j → f.assigned = some j → p = q)
    {i j : Nat} : eqFor es j = some i ↔ ∃ e, es[i]? = some e ∧ e.assigned = some j := by
  refine ⟨eqFor_some, fun ⟨e, he, ha⟩ => ?_⟩
  have hi := (List.getElem?_eq_some_iff.1 he).1
  have hmem : i ∈ (List.range es.length).filter fun i => es[i]?.bind EInfo.assigned == some j := by
    rw [List.mem_filter]
    exact ⟨List.mem_range.2 hi, by simp [he, ha]⟩
  cases hl : eqFor es j with
  | none =>
    unfold eqFor at hl
    rw [List.getLast?_eq_none_iff] at hl
    rw [hl] at hmem; cases hmem
  | some k =>
    obtain ⟨f, hf, hfa⟩ := eqFor_some hl
    rw [hm k i f e j hf he hfa ha]

/-- what happens to each equation -/
theorem makeExplicit_get {vs : List VInfo} {solved : Nat → Nat → Bool} {best : Nat → Option Nat}
    (hb : ∀ j j' i, best j = some i → best j' = some i → j = j') : ∀ {js : List Nat} {es es1 : List EInfo},
    makeExplicit vs solved best js es = .ok es1 →
    ∀ (i : Nat) (e : EInfo), es[i]? = some e →
      (∃ j ∈ js, ∃ v b, vs[j]? = some v ∧ v.anti = some b ∧ best j = some i ∧ es1[i]? = some { e with explicit := true, assigned := some b }) ∨
      ((∀ j ∈ js, ∀ v, vs[j]? = some v → v.anti ≠ none → best j ≠ some i) ∧ es1[i]? = some e)
  | [], es, es1, h, i, e, he => by
    cases h
    exact .inr ⟨fun j hj => (List.not_mem_nil hj).elim, he⟩
  | j :: js, es, es1, h, i, e, he => by
    simp only [makeExplicit] at h
    split at h
    · cases h
    case h_2 v hv =>
      split at h
      case h_1 ha =>
        rcases makeExplicit_get hb h i e he with ⟨j', hj', rest⟩ | ⟨h1, h2⟩
        · exact .inl ⟨j', List.mem_cons_of_mem j hj', rest⟩
        · refine .inr ⟨fun j' hj' v' hv' ha' => ?_, h2⟩
          rcases List.mem_cons.1 hj' with rfl | hj'
          · rw [hv] at hv'; cases hv'; exact absurd ha ha'
          · exact h1 j' hj' v' hv' ha'
      case h_2 b ha =>
        split at h
        · cases h
        case h_2 i' hi' =>
          split at h
          case isFalse => cases h
          case isTrue hs =>
            by_cases hii : i' = i
            · subst hii
              have he' : (es.modify i' fun e => { e with explicit := true, assigned := some b })[i']? =
                  some { e with explicit := true, assigned := some b } := by
                rw [List.getElem?_modify, he]; simp
              refine .inl ⟨j, List.mem_cons_self, v, b, hv, ha, hi', ?_⟩
              rcases makeExplicit_get hb h i' _ he' with ⟨j', hj', v', b', hv', ha', hb', h1⟩ | ⟨h1, h2⟩
              · have := hb j' j i' hb' hi'
                subst this
                rw [hv] at hv'; cases hv'
                rw [ha] at ha'; cases ha'
                exact h1
              · exact h2
            · have he' : (es.modify i' fun e => { e with explicit := true, assigned := some b })[i]? = some e := by
                rw [List.getElem?_modify, he]; simp [hii]
              rcases makeExplicit_get hb h i e he' with ⟨j', hj', rest⟩ | ⟨h1, h2⟩
              · exact .inl ⟨j', List.mem_cons_of_mem j hj', rest⟩
              · refine .inr ⟨fun j' hj' v' hv' ha' => ?_, h2⟩
                rcases List.mem_cons.1 hj' with rfl | hj'
                · rw [hi']; simpa using hii
                · exact h1 j' hj' v' hv' ha'

theorem makeExplicit_length {vs : List VInfo} {solved : Nat → Nat → Bool} {best : Nat → Option Nat} : ∀ {js : List Nat} {es es1 : List EInfo},
    makeExplicit vs solved best js es = .ok es1 → es1.length = es.length
  | [], es, es1, h => by cases h; rfl
  | j :: js, es, es1, h => by
    simp only [makeExplicit] at h
    split at h
    · cases h
    · split at h
      · exact makeExplicit_length h
      · split at h
        · cases h
        · split at h
          · simpa using makeExplicit_length h
          · cases h

/-- it ends normally exactly if every derivative has an equation which can be solved for it -/
theorem makeExplicit_ok {vs : List VInfo} {solved : Nat → Nat → Bool} {best : Nat → Option Nat} : ∀ {js : List Nat} {es : List EInfo},
    (∀ j ∈ js, j < vs.length) →
    (∀ j ∈ js, ∀ v, vs[j]? = some v → v.anti ≠ none → ∃ i, best j = some i ∧ solved j i = true) →
    ∃ es1, makeExplicit vs solved best js es = .ok es1
  | [], es, _, _ => ⟨es, rfl⟩
  | j :: js, es, hj, h => by
    have ih := fun es => makeExplicit_ok (es := es) (fun j' hj' => hj j' (List.mem_cons_of_mem j hj')) fun j' hj' => h j' (List.mem_cons_of_mem j hj')
    have hlt := hj j List.mem_cons_self
    have hv : vs[j]? = some vs[j] := List.getElem?_eq_getElem hlt
    simp only [makeExplicit, hv]
    split
    · exact ih es
    case h_2 b ha =>
      obtain ⟨i, h1, h2⟩ := h j List.mem_cons_self _ hv (by rw [ha]; simp)
      simp only [h1, h2, if_true]
      exact ih _

theorem makeExplicit_not_ub {vs : List VInfo} {solved : Nat → Nat → Bool} {best : Nat → Option Nat} : ∀ {js : List Nat} {es : List EInfo},
    (∀ j ∈ js, j < vs.length) → makeExplicit vs solved best js es ≠ .ub
  | [], es, _ => by simp [makeExplicit]
  | j :: js, es, hj => by
    have ih := fun es => makeExplicit_not_ub (vs := vs) (solved := solved) (best := best) (es := es) (fun j' hj' => hj j' (List.mem_cons_of_mem j hj'))
    have hlt := hj j List.mem_cons_self
    have hv : vs[j]? = some vs[j] := List.getElem?_eq_getElem hlt
    simp only [makeExplicit, hv]
    split
    · exact ih es
    · split
      · simp
      · split
        · exact ih _
        · simp

/-! ### the variables which are kept -/

def isKept (vs : List VInfo) (j : Nat) : Bool := (vs[j]?.map fun v => v.anti.isNone).getD false

theorem take_countP (vs : List VInfo) : ∀ j, j ≤ vs.length → (vs.take j).countP (fun v => v.anti.isNone) = cnt (isKept vs) 0 j
  | 0, _ => by simp [cnt]
  | j + 1, h => by
    have hj : j < vs.length := h
    rw [List.take_succ, List.countP_append, take_countP vs j (by omega), cnt_snoc]
    simp only [Nat.zero_add, isKept, List.getElem?_eq_getElem hj, Option.map_some, Option.getD_some, Option.toList_some]
    rcases hn : vs[j].anti.isNone with _ | _ <;> simp [hn]

theorem keptIndex_eq (vs : List VInfo) : keptIndex vs = keptPos (isKept vs) := by
  funext j
  unfold keptIndex keptPos
  rcases Nat.lt_or_ge j vs.length with hj | hj
  · simp only [List.getElem?_eq_getElem hj, isKept, Option.map_some, Option.getD_some]
    rw [take_countP vs j (by omega)]
  · simp [List.getElem?_eq_none hj, isKept]

theorem dropDerivatives_filter : ∀ (n : Nat) (tail pre : List VInfo), pre.length = n →
    dropDerivatives n (pre ++ tail) = pre.filter (fun v => v.anti.isNone) ++ tail
  | 0, tail, pre, h => by rw [List.eq_nil_of_length_eq_zero h]; rfl
  | n + 1, tail, pre, h => by
    obtain ⟨pre', x, rfl⟩ : ∃ pre' x, pre = pre' ++ [x] := by
      have hne : pre ≠ [] := by intro he; rw [he] at h; cases h
      exact ⟨pre.dropLast, pre.getLast hne, (List.dropLast_append_getLast hne).symm⟩
    have ih := dropDerivatives_filter n
    simp only [List.length_append, List.length_singleton, Nat.add_right_cancel_iff] at h
    subst h
    have hx : (pre' ++ [x] ++ tail)[pre'.length]? = some x := by simp
    rw [dropDerivatives, hx, List.filter_append]
    simp only [Option.bind_some]
    by_cases hn : x.anti = none
    · simp only [hn, Option.isSome_none, Bool.false_eq_true, if_false]
      rw [List.append_assoc, ih ([x] ++ tail) pre' rfl]
      simp [hn]
    · obtain ⟨b, hn⟩ := Option.ne_none_iff_exists'.1 hn
      simp only [hn, Option.isSome_some, if_true]
      have : (pre' ++ [x] ++ tail).eraseIdx pre'.length = pre' ++ tail := by
        rw [List.append_assoc, List.eraseIdx_append_of_length_le (Nat.le_refl _)]
        simp
      rw [this, ih tail pre' rfl]
      simp [hn]

theorem filter_keepAt {α : Type} {f : α → Bool} {g : Nat → Bool} {t : α → α} : ∀ {k : Nat} {l : List α}, (∀ j x, l[j]? = some x → g (k + j) = f x) →
    (l.filter f).map t = keepAt g t k l
  | _, [], _ => rfl
  | k, x :: l, h => by
    have h0 := h 0 x rfl
    have ih := filter_keepAt (f := f) (g := g) (t := t) (k := k + 1) (l := l) fun j y hy => by
      rw [show k + 1 + j = k + (j + 1) by omega]; exact h (j + 1) y (by simpa using hy)
    simp only [Nat.add_zero] at h0
    rw [keepAt, h0, ← ih, List.filter_cons]
    split <;> simp

/-- the variables after the removal of derivatives -/
theorem semi_vars (vs : List VInfo) : Moved (keptIndex vs) (fun v v' => v' = { v with der := none }) vs
    ((dropDerivatives vs.length vs).map fun v => { v with der := none }) := by
  have h1 := dropDerivatives_filter vs.length [] vs rfl
  rw [List.append_nil, List.append_nil] at h1
  rw [h1, filter_keepAt (g := isKept vs) (k := 0) (fun j x hx => by simp [isKept, hx]), keptIndex_eq]
  exact keepAt_moved _ _ vs

/-! ### the new model -/

theorem handlerIndex_other {ids : List Nat} {a : Nat} : ∀ {vs : List VInfo} {k : Nat} {acc : List (Nat × Nat)}, (∀ v ∈ vs, v.id ≠ a) →
    lookup a (handlerIndex ids vs k acc) = lookup a acc
  | [], _, _, _ => rfl
  | v :: vs, k, acc, h => by
    have ih := fun k acc => handlerIndex_other (ids := ids) (a := a) (vs := vs) (k := k) (acc := acc) fun v' hv' => h v' (List.mem_cons_of_mem v hv')
    rw [handlerIndex]
    split
    · rw [ih, lookup, if_neg (h v List.mem_cons_self)]
    · exact ih _ _

theorem handlerIndex_get {ids : List Nat} : ∀ {vs : List VInfo} {k : Nat} {acc : List (Nat × Nat)} {r : Nat} {v : VInfo}, (vs.map VInfo.id).Nodup →
    (vs.filter fun v => ids.contains v.id)[r]? = some v → lookup v.id (handlerIndex ids vs k acc) = k + r
  | [], _, _, _, _, _, h => by simp at h
  | w :: vs, k, acc, r, v, hn, h => by
    simp only [List.map_cons, List.nodup_cons] at hn
    rw [handlerIndex]
    rw [List.filter_cons] at h
    split at h
    case isFalse hw => rw [if_neg hw]; exact handlerIndex_get hn.2 h
    case isTrue hw =>
      rw [if_pos hw]
      cases r with
      | zero =>
        simp only [List.getElem?_cons_zero, Option.some.injEq] at h
        subst h
        rw [handlerIndex_other fun v' hv' he => hn.1 (List.mem_map.2 ⟨v', hv', he⟩), lookup, if_pos rfl, Nat.add_zero]
      | succ r =>
        simp only [List.getElem?_cons_succ] at h
        rw [handlerIndex_get hn.2 h]; omega

theorem place_get {K : Type} {idx : List (Nat × Nat)} : ∀ {vs : List VInfo} {ys h : List K}, vs.length ≤ ys.length →
    (∀ v ∈ vs, lookup v.id idx < h.length) → (vs.map fun v => lookup v.id idx).Nodup →
    ∃ h', place idx vs ys h = some h' ∧ h'.length = h.length ∧ (∀ (p : Nat) (v : VInfo), vs[p]? = some v → h'[lookup v.id idx]? = ys[p]?) ∧
      ∀ r : Nat, (∀ v ∈ vs, lookup v.id idx ≠ r) → h'[r]? = h[r]?
  | [], ys, h, _, _, _ => ⟨h, by cases ys <;> rfl, rfl, fun p v hv => by simp at hv, fun _ _ => rfl⟩
  | v :: vs, [], h, hl, _, _ => by simp at hl
  | v :: vs, y :: ys, h, hl, hlt, hn => by
    simp only [List.map_cons, List.nodup_cons] at hn
    obtain ⟨h', e1, e2, e3, e4⟩ := place_get (vs := vs) (ys := ys) (h := h.set (lookup v.id idx) y) (by simpa using hl)
      (fun w hw => by rw [List.length_set]; exact hlt w (List.mem_cons_of_mem v hw)) hn.2
    refine ⟨h', by rw [place, if_pos (hlt v List.mem_cons_self)]; exact e1, by simpa using e2, fun p w hw => ?_, fun r hr => ?_⟩
    · cases p with
      | zero =>
        simp only [List.getElem?_cons_zero, Option.some.injEq] at hw
        subst hw
        rw [e4 _ fun w hw he => hn.1 (List.mem_map.2 ⟨w, hw, he⟩)]
        rw [List.getElem?_set_self (hlt v List.mem_cons_self)]
        rfl
      | succ p =>
        simp only [List.getElem?_cons_succ] at hw ⊢
        exact e3 p w hw
    · rw [e4 r fun w hw => hr w (List.mem_cons_of_mem v hw), List.getElem?_set_ne (hr v List.mem_cons_self)]

theorem eqIndex_other {a : Nat} : ∀ {es : List EInfo} {k : Nat} {acc : List (Nat × Nat)}, (∀ i ∈ es, i.id ≠ a) → lookup a (eqIndex es k acc) = lookup a acc
  | [], _, _, _ => rfl
  | i :: es, k, acc, h => by
    rw [eqIndex, eqIndex_other fun i' hi' => h i' (List.mem_cons_of_mem i hi'), lookup, if_neg (h i List.mem_cons_self)]

theorem eqIndex_get : ∀ {es : List EInfo} {k : Nat} {acc : List (Nat × Nat)} {r : Nat} {i : EInfo}, (es.map EInfo.id).Nodup → es[r]? = some i →
    lookup i.id (eqIndex es k acc) = k + r
  | [], _, _, _, _, _, h => by simp at h
  | w :: es, k, acc, r, i, hn, h => by
    simp only [List.map_cons, List.nodup_cons] at hn
    rw [eqIndex]
    cases r with
    | zero =>
      simp only [List.getElem?_cons_zero, Option.some.injEq] at h
      subst h
      rw [eqIndex_other fun v' hv' he => hn.1 (List.mem_map.2 ⟨v', hv', he⟩), lookup, if_pos rfl, Nat.add_zero]
    | succ r =>
      simp only [List.getElem?_cons_succ] at h
      rw [eqIndex_get hn.2 h]; omega

/-! ### the order -/

theorem class_det {vs : List VInfo} (hn : (vs.map VInfo.id).Nodup) {a : Nat} {c d : Int} (h : Class vs a c) (h' : Class vs a d) : c = d := by
  have key : ∀ {a : Nat} {c : Int}, Class vs a c → ∃ v ∈ vs, v.id = a ∧ ((v.integrated = true ∧ c = -2) ∨
      (v.integrated = false ∧ v.dep = false ∧ c = -1) ∨ (v.integrated = false ∧ v.dep = true ∧ ∃ (k b : Nat), NthDer vs k v.id b ∧ c = k)) := by
    intro a c h
    cases h with
    | integrated hv hi => exact ⟨_, hv, rfl, .inl ⟨hi, rfl⟩⟩
    | constant hv hi hd => exact ⟨_, hv, rfl, .inr (.inl ⟨hi, hd, rfl⟩)⟩
    | order hv hi hd hk => exact ⟨_, hv, rfl, .inr (.inr ⟨hi, hd, _, _, hk, rfl⟩)⟩
  obtain ⟨v, hv, e, hc⟩ := key h
  obtain ⟨w, hw, e', hc'⟩ := key h'
  have := mem_inj hn hv hw (e.trans e'.symm)
  subst this
  rcases hc with ⟨a1, a2⟩ | ⟨a1, a2, a3⟩ | ⟨a1, a2, k, b, a3, a4⟩ <;> rcases hc' with ⟨b1, b2⟩ | ⟨b1, b2, b3⟩ | ⟨b1, b2, k', b', b3, b4⟩ <;>
    simp_all
  exact congrArg Nat.cast (nth_det hn a3 b3).1

theorem varOrder_class {vs : List VInfo} {wd : List Nat} {j : Nat} {o : VarOrder} (h : varOrder vs wd j = some o) :
    ∃ v, vs[j]? = some v ∧ Class vs v.id o.order ∧ o.hasDerivatives = wd.contains j := by
  unfold varOrder at h
  split at h
  · cases h
  case h_2 v hv =>
    obtain ⟨s, hs, rfl⟩ := Option.map_eq_some_iff.1 h
    refine ⟨v, hv, ?_, rfl⟩
    have hm := List.mem_of_getElem? hv
    rcases hi : v.integrated with _ | _
    · rcases hd : v.dep with _ | _
      · rw [hd] at hs
        simp only [Bool.false_eq_true, if_false, Option.some.injEq] at hs
        subst hs
        simp only [hi, Bool.false_eq_true, if_false]
        exact .constant hm hi hd
      · rw [hd] at hs
        simp only [if_true] at hs
        obtain ⟨t, ht, rfl⟩ := Option.map_eq_some_iff.1 hs
        obtain ⟨v', w, hv', _, hk⟩ := follow_nth _ _ _ _ ht
        rw [hv] at hv'; cases hv'
        simp only [Bool.false_eq_true, if_false]
        exact .order hm hi hd hk
    · simp only [if_true]
      exact .integrated hm hi

/-- the variables which come first -/
theorem withDerivatives_mem {vs : List VInfo} {es : List EInfo} (hok : Ok vs es) {wd : List Nat} (h : withDerivatives vs es = some wd) {j : Nat} {v : VInfo}
    (hv : vs[j]? = some v) : j ∈ wd ↔ Differential vs es v.id := by
  unfold withDerivatives at h
  simp only at h
  have hlist : (∃ i ∈ es, i.explicit = true ∧ AssignedRel [i] vs i.id v.id) ↔ j ∈ es.filterMap fun i => if i.explicit then i.assigned else none := by
    rw [List.mem_filterMap]
    constructor
    · rintro ⟨i, hi, hx, i', hi', _, q, y, hq, hy, hid⟩
      simp only [List.mem_singleton] at hi'
      subst hi'
      refine ⟨i', hi, ?_⟩
      rw [hx, hq, get_inj hok.var_ids hv hy hid.symm]; rfl
    · rintro ⟨i, hi, hx⟩
      split at hx
      case isTrue he => exact ⟨i, hi, he, i, List.mem_singleton_self i, rfl, j, v, hx, hv, rfl⟩
      case isFalse => cases hx
  have hnone : (es.filterMap fun i => if i.explicit then i.assigned else none) = [] ↔ ∀ i ∈ es, i.explicit = true → i.assigned = none := by
    rw [List.filterMap_eq_nil_iff]
    refine forall_congr' fun i => forall_congr' fun _ => ?_
    rcases i.explicit with _ | _ <;> simp
  split at h
  case isTrue hs =>
    obtain ⟨ends, he, rfl⟩ := Option.map_eq_some_iff.1 h
    obtain ⟨hlen, hget⟩ := mapAll_get he
    have hmem : (j ∈ ends.filterMap fun e => if e.1 > 0 then some e.2 else none) ↔ ∃ k b, NthDer vs (k + 1) b v.id := by
      rw [List.mem_filterMap]
      constructor
      · rintro ⟨⟨k, q⟩, hkq, hx⟩
        simp only at hx
        split at hx
        case isFalse => cases hx
        case isTrue hk =>
          cases hx
          obtain ⟨p, hp⟩ := List.mem_iff_getElem?.1 hkq
          rw [hget] at hp
          obtain ⟨p', _, hp⟩ := Option.bind_eq_some_iff.1 hp
          obtain ⟨x, w, _, hw, hn⟩ := follow_nth _ _ _ _ hp
          rw [hv] at hw; cases hw
          exact ⟨k - 1, x.id, by rw [show k - 1 + 1 = k by omega]; exact hn⟩
      · rintro ⟨k, b, hn⟩
        obtain ⟨c, ⟨x, hx, rfl, q, y, hq, hy, rfl⟩, h2⟩ := nth_step hn
        obtain ⟨p, hp⟩ := List.mem_iff_getElem?.1 hx
        have hlt := (List.getElem?_eq_some_iff.1 hp).1
        have hp' := hget p
        rw [List.getElem?_range hlt, Option.bind_some] at hp'
        have hpl : p < ends.length := by rw [hlen, List.length_range]; exact hlt
        obtain ⟨⟨k', q'⟩, hend⟩ : ∃ e, ends[p]? = some e := ⟨_, List.getElem?_eq_getElem hpl⟩
        rw [hend] at hp'
        obtain ⟨x', w, hx', hw, hn'⟩ := follow_nth _ _ _ _ hp'.symm
        rw [hp] at hx'; cases hx'
        obtain ⟨e1, e2⟩ := nth_det hok.var_ids hn hn'
        refine ⟨(k', q'), List.mem_of_getElem? hend, ?_⟩
        simp only
        rw [if_pos (by omega), get_inj hok.var_ids hv hw e2]
    rw [hmem]
    unfold Differential
    rw [hlist, hs]
    constructor
    · exact fun h => .inr ⟨hnone.1 hs, h⟩
    · rintro (h | h)
      · cases h
      · exact h.2
  case isFalse hs =>
    cases h
    rw [← hlist]
    unfold Differential
    constructor
    · exact .inl
    · rintro (h | h)
      · exact h
      · exact absurd (hnone.2 h.1) hs

end Verif.Dae.Reorder
