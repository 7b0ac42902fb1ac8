import Verif.Loops.LemmasUsageGroup

/-
The whole sparse Jacobian or Hessian of a model with loops: sums over the functions.
-/
namespace Verif.Loops.Usage

open Verif.Index (Pat detect detectV Sorted)
open Verif.Ranges (setInsert)
open Verif.Deriv (Info infos maxCompressed groups info loc)

variable {α : Type} [AddCommMonoid α]

/-! ### sums -/

theorem sum_swap {β γ : Type} (f : β → γ → α) : ∀ (bs : List β) (cs : List γ),
    (bs.map fun b => (cs.map fun c => f b c).sum).sum = (cs.map fun c => (bs.map fun b => f b c).sum).sum
  | [], cs => by simp
  | b :: bs, cs => by
    simp only [List.map_cons, List.sum_cons]
    rw [sum_swap f bs cs, List.sum_map_add]

theorem sum_single {ks : List Nat} (hn : ks.Nodup) {a : Nat} (ha : a ∈ ks) (v : α) : (ks.map fun k => if a = k then v else 0).sum = v := by
  induction ks with
  | nil => cases ha
  | cons k ks ih =>
    rw [List.nodup_cons] at hn
    rw [List.map_cons, List.sum_cons]
    by_cases h : a = k
    · rw [if_pos h, List.map_congr_left (g := fun _ => (0 : α)) fun b hb => if_neg fun hab => hn.1 (by rw [← h, hab]; exact hb)]
      simp
    · rw [if_neg h, zero_add, ih hn.2]
      rcases List.mem_cons.1 ha with h' | h'
      · exact absurd h' h
      · exact h'

theorem sum_partition {β : Type} (f : β → Nat) (G : β → α) {ks : List Nat} (hn : ks.Nodup) : ∀ (L : List β), (∀ q ∈ L, f q ∈ ks) →
    (ks.map fun k => ((L.filter fun q => f q == k).map G).sum).sum = (L.map G).sum
  | [], _ => by simp
  | q :: L, h => by
    rw [List.map_cons, List.sum_cons, ← sum_partition f G hn L fun a ha => h a (by simp [ha]), ← sum_single hn (h q (by simp)) (G q), ← List.sum_map_add]
    congr 1
    refine List.map_congr_left fun k _ => ?_
    rw [List.filter_cons]
    by_cases hk : f q = k
    · rw [if_pos (by simpa using hk), if_pos hk, List.map_cons, List.sum_cons]
    · rw [if_neg (by simpa using hk), if_neg hk, zero_add]

/-! ### groups of loops -/

/-- what a group adds at location `x` at the call for one key -/
def callAdd (req : List (Nat × Nat)) (c : Call α) (p : Nat × List Nat) (x : Nat) : α := adds (pos req p.1) (c.val p.1) p.2 x

/-- what a group adds at location `x` -/
def total (req : List (Nat × Nat)) (c : Call α) (x : Nat) : α := (c.keys.map fun p => callAdd req c p x).sum

/-- calls with their patterns -/
def GoodCalls (req : List (Nat × Nat)) (L : List (Call α × Group)) : Prop :=
  ∀ q ∈ L, q.1.Ok req ∧ q.1.Room req ∧ analyse ((groups req).map (info req)) q.1.keys = some q.2

omit [AddCommMonoid α] in
theorem count_eq {req : List (Nat × Nat)} {c : Call α} (hc : c.Ok req) {g : Group} (hg : analyse ((groups req).map (info req)) c.keys = some g) :
    g.count = c.keys.length := by
  rw [analyse_ok hc] at hg
  split at hg <;> (cases hg; rfl)

theorem runBody_ok {req : List (Nat × Nat)} (hn : req.Nodup) (it : Nat) (sel : Call α → Nat × List Nat) : ∀ (L : List (Call α × Group)) (last : Bool)
    (st : State α), GoodCalls req L → (∀ q ∈ L, q.1.keys[it]? = some (sel q.1) ∨ q.1.keys = [sel q.1]) → (last = true → st.ptr = some .comp) →
    ∃ st', runBody req.length (maxCompressed ((groups req).map (info req))) it L last st =
        some (st', ((L.getLast?).map fun p => p.2.start.isNone).getD last) ∧
      (((L.getLast?).map fun p => p.2.start.isNone).getD last = true → st'.ptr = some .comp) ∧
      ∀ x, st'.res x = st.res x + (L.map fun q => callAdd req q.1 (sel q.1) x).sum
  | [], last, st, _, _, hl => ⟨st, rfl, hl, fun x => by simp⟩
  | (c, g) :: L, last, st, hL, hs, hl => by
    obtain ⟨h1, h2, h3⟩ := hL (c, g) (by simp)
    obtain ⟨st1, h4, h5, h6⟩ := runGroup_ok hn h1 h2 h3 (hs (c, g) (by simp)) last st hl
    obtain ⟨st2, h7, h8, h9⟩ := runBody_ok hn it sel L g.start.isNone st1 (fun q hq => hL q (by simp [hq])) (fun q hq => hs q (by simp [hq])) h5
    have hlast : (((((c, g) :: L).getLast?).map fun p : Call α × Group => p.2.start.isNone).getD last) =
        ((L.getLast?).map fun p => p.2.start.isNone).getD g.start.isNone := by
      cases L with
      | nil => rfl
      | cons a L => rw [List.getLast?_cons_cons, List.getLast?_cons]; rfl
    refine ⟨st2, ?_, by rw [hlast]; exact h8, fun x => ?_⟩
    · rw [runBody, h4, Option.bind_some, h7, hlast]
    · rw [h9, h6, List.map_cons, List.sum_cons, add_assoc]
      rfl

theorem runIters_ok {req : List (Nat × Nat)} (hn : req.Nodup) (L : List (Call α × Group)) (hL : GoodCalls req L) (k : Nat)
    (hk : ∀ q ∈ L, q.1.keys.length = k) : ∀ (its : List Nat) (st : State α), (∀ it ∈ its, it < k) →
    ∃ st', runIters req.length (maxCompressed ((groups req).map (info req))) L its st = some st' ∧
      (its ≠ [] → ((L.getLast?).map fun p => p.2.start.isNone).getD false = true → st'.ptr = some .comp) ∧
      ∀ x, st'.res x = st.res x + (its.map fun it => (L.map fun q => callAdd req q.1 (q.1.keys.getD it (0, [])) x).sum).sum
  | [], st, _ => ⟨st, rfl, fun h => absurd rfl h, fun x => by simp⟩
  | it :: its, st, hi => by
    obtain ⟨st1, h1, h2, h3⟩ := runBody_ok hn it (fun c => c.keys.getD it (0, [])) L false st hL (fun q hq => Or.inl (by
      have : it < q.1.keys.length := by rw [hk q hq]; exact hi it (by simp)
      rw [List.getD_eq_getElem?_getD, List.getElem?_eq_getElem this]
      rfl)) (fun h => by cases h)
    obtain ⟨st2, h4, h5, h6⟩ := runIters_ok hn L hL k hk its st1 fun a ha => hi a (by simp [ha])
    refine ⟨st2, by rw [runIters, h1, Option.bind_some, h4], fun _ hf => ?_, fun x => ?_⟩
    · by_cases he : its = []
      · subst he
        rw [runIters] at h4
        cases h4
        exact h2 hf
      · exact h5 he hf
    · rw [h6, h3, List.map_cons, List.sum_cons, add_assoc]

theorem runBlocks_ok {req : List (Nat × Nat)} (hn : req.Nodup) (it0 : Nat) (L : List (Call α × Group)) (hL : GoodCalls req L) : ∀ (ks : List Nat) (last : Bool)
    (st : State α), (last = true → st.ptr = some .comp) →
    ∃ st', runBlocks req.length (maxCompressed ((groups req).map (info req))) it0 L ks last st = some st' ∧
      ∀ x, st'.res x = st.res x + (ks.map fun k => ((L.filter fun q => q.2.count == k).map fun q => total req q.1 x).sum).sum
  | [], _, st, _ => ⟨st, rfl, fun x => by simp⟩
  | k :: ks, last, st, hl => by
    have hF : GoodCalls req (L.filter fun q => q.2.count == k) := fun q hq => hL q (List.mem_filter.1 hq).1
    have hlen : ∀ q ∈ L.filter fun q => q.2.count == k, q.1.keys.length = k := by
      intro q hq
      obtain ⟨h1, h2⟩ := List.mem_filter.1 hq
      rw [← count_eq (hL q h1).1 (hL q h1).2.2]
      simpa using h2
    by_cases hk : k > 1
    · obtain ⟨st1, h1, h2, h3⟩ := runIters_ok hn _ hF k hlen (List.range k) st fun it hit => List.mem_range.1 hit
      obtain ⟨st2, h4, h5⟩ := runBlocks_ok hn it0 L hL ks _ st1 (h2 (by
        intro h
        have := congrArg List.length h
        rw [List.length_range, List.length_nil] at this
        omega))
      refine ⟨st2, by rw [runBlocks, if_pos hk, h1, Option.bind_some, h4], fun x => ?_⟩
      rw [h5, h3, List.map_cons, List.sum_cons, add_assoc]
      congr 2
      rw [sum_swap]
      congr 1
      refine List.map_congr_left fun q hq => ?_
      rw [total]
      congr 1
      have : (List.range k).map (fun it => q.1.keys.getD it (0, [])) = q.1.keys := by
        refine List.ext_getElem (by simp [hlen q hq]) fun i h1 h2 => ?_
        simp [List.getElem?_eq_getElem h2]
      conv => rhs; rw [← this]
      rw [List.map_map]
      rfl
    · have hone : ∀ q ∈ L.filter fun q => q.2.count == k, q.1.keys = [q.1.keys.headD (0, [])] := by
        intro q hq
        have h1 := hlen q hq
        cases hkk : q.1.keys with
        | nil => exact absurd hkk (hF q hq).1.ne
        | cons a as =>
          rw [hkk, List.length_cons] at h1
          rw [List.eq_nil_of_length_eq_zero (show as.length = 0 by omega)]
          rfl
      obtain ⟨st1, h1, h2, h3⟩ := runBody_ok hn it0 (fun c => c.keys.headD (0, [])) _ last st hF (fun q hq => Or.inr (hone q hq)) hl
      obtain ⟨st2, h4, h5⟩ := runBlocks_ok hn it0 L hL ks _ st1 h2
      refine ⟨st2, by rw [runBlocks, if_neg hk, h1, Option.bind_some, h4], fun x => ?_⟩
      rw [h5, h3, List.map_cons, List.sum_cons, add_assoc]
      congr 3
      refine List.map_congr_left fun q hq => ?_
      rw [total]
      conv => rhs; rw [hone q hq]
      simp

/-! ### the part of each element -/

theorem adds_part {req : List (Nat × Nat)} (hn : req.Nodup) {k e : Nat} (he : e < (elems req k).length) (k' : Nat) {es : List Nat} (hd : es.Nodup)
    (hb : ∀ a ∈ es, a < (elems req k').length) (v : Nat → α) :
    adds (pos req k') v es (pos req k e) = if k' = k ∧ e ∈ es then v e else 0 := by
  by_cases h : k' = k ∧ e ∈ es
  · obtain ⟨rfl, h⟩ := h
    rw [if_pos ⟨rfl, h⟩]
    exact adds_one hd h fun a ha => ⟨fun hp => (pos_inj hn (hb a ha) he hp).2, fun hp => by rw [hp]⟩
  · rw [if_neg h]
    refine adds_zero fun a ha hp => ?_
    obtain ⟨h1, h2⟩ := pos_inj hn (hb a ha) he hp
    exact h ⟨h1, h2 ▸ ha⟩

theorem total_aux {req : List (Nat × Nat)} (hn : req.Nodup) {k e : Nat} (he : e < (elems req k).length) (c : Call α) : ∀ (keys : List (Nat × List Nat)),
    keys.Pairwise (fun p q => p.1 < q.1) → (∀ p ∈ keys, p.2.Nodup) → (∀ p ∈ keys, ∀ a ∈ p.2, a < (elems req p.1).length) →
    (keys.map fun p => callAdd req c p (pos req k e)).sum = if keys.any (fun p => p.1 == k && p.2.contains e) then c.val k e else 0
  | [], _, _, _ => by simp
  | p :: keys, hs, hd, hb => by
    have hs' := List.pairwise_cons.1 hs
    have ih := total_aux hn he c keys hs'.2 (fun q hq => hd q (by simp [hq])) fun q hq => hb q (by simp [hq])
    rw [List.map_cons, List.sum_cons, ih, callAdd, adds_part hn he p.1 (hd p (by simp)) (hb p (by simp)), List.any_cons]
    by_cases hk : p.1 = k
    · have hrest : keys.any (fun p => p.1 == k && p.2.contains e) = false := by
        rw [List.any_eq_false]
        intro q hq
        have := hs'.1 q hq
        have hne : ¬ q.1 = k := by omega
        simp [hne]
      rw [hrest]
      by_cases hm : e ∈ p.2
      · simp [hk, hm]
      · simp [hk, hm]
    · rw [if_neg fun h => hk h.1, zero_add, beq_false_of_ne hk, Bool.false_and, Bool.false_or]

theorem total_part {req : List (Nat × Nat)} (hn : req.Nodup) {k e : Nat} (he : e < (elems req k).length) {c : Call α} (hc : c.Ok req) :
    total req c (pos req k e) = c.part k e :=
  total_aux hn he c c.keys hc.sorted (fun p hp => (hc.els p hp).2.imp fun h => Nat.ne_of_lt h) hc.below

/-! ### functions outside of the loops -/

theorem runFree_ok {req : List (Nat × Nat)} (hn : req.Nodup) : ∀ (fs : List (Free α)) (last : Bool) (st : State α), (∀ f ∈ fs, f.Ok req) →
    (fs.map (·.key)).Nodup → (∀ f ∈ fs, ∀ e, e < (elems req f.key).length → st.res (pos req f.key e) = 0) → (last = true → st.ptr = some .comp) →
    ∃ st' last', runFree req.length (maxCompressed ((groups req).map (info req))) ((groups req).map (info req)) fs last st = some (st', last') ∧
      (last' = true → st'.ptr = some .comp) ∧
      ∀ k e, e < (elems req k).length → st'.res (pos req k e) = st.res (pos req k e) + (fs.map fun f => f.part k e).sum
  | [], last, st, _, _, _, hl => ⟨st, last, rfl, hl, fun k e _ => by simp⟩
  | f :: fs, last, st, hf, hd, hz, hl => by
    have hfo := hf f (by simp)
    rw [List.map_cons, List.nodup_cons] at hd
    have next : ∀ st1 : State α, (∀ k e, e < (elems req k).length → st1.res (pos req k e) = st.res (pos req k e) + f.part k e) →
        ∀ g ∈ fs, ∀ e, e < (elems req g.key).length → st1.res (pos req g.key e) = 0 := by
      intro st1 h1 g hg e he
      rw [h1 _ _ he, hz g (by simp [hg]) e he, zero_add, Free.part, if_neg]
      rintro ⟨h, _⟩
      exact hd.1 (by rw [h]; exact List.mem_map_of_mem hg)
    have fin : ∀ (st1 : State α) (l : Bool), (∀ k e, e < (elems req k).length → st1.res (pos req k e) = st.res (pos req k e) + f.part k e) →
        (l = true → st1.ptr = some .comp) →
        ∃ st' last', runFree req.length (maxCompressed ((groups req).map (info req))) ((groups req).map (info req)) fs l st1 = some (st', last') ∧
          (last' = true → st'.ptr = some .comp) ∧
          ∀ k e, e < (elems req k).length → st'.res (pos req k e) = st.res (pos req k e) + ((f :: fs).map fun f => f.part k e).sum := by
      intro st1 l h1 h2
      obtain ⟨st', last', h3, h4, h5⟩ := runFree_ok hn fs l st1 (fun g hg => hf g (by simp [hg])) hd.2 (next st1 h1) h2
      refine ⟨st', last', h3, h4, fun k e he => ?_⟩
      rw [h5 k e he, h1 k e he, List.map_cons, List.sum_cons, add_assoc]
    cases ho : (info req (f.key, elems req f.key)).ordered with
    | true =>
      have hb : ∀ e ∈ List.range f.size, pos req f.key 0 + e < req.length := by
        intro e he
        have : e < (elems req f.key).length := by have := List.mem_range.1 he; have := hfo.size; omega
        rw [← ordered_pos this ho]
        exact pos_lt this
      obtain ⟨st1, h1, h2, h3, h4, h5⟩ := assign_res req.length (maxCompressed ((groups req).map (info req))) (pos req f.key 0) f (List.range f.size)
        { st with ptr := some (.res (pos req f.key 0)) } rfl hb
      have hpart : ∀ k e, e < (elems req k).length → st1.res (pos req k e) = st.res (pos req k e) + f.part k e := by
        intro k e he
        by_cases hc : f.key = k ∧ e < f.size
        · obtain ⟨rfl, hc⟩ := hc
          rw [hz f (by simp) e he, zero_add, ordered_pos he ho, h4 e (List.mem_range.2 hc), Free.part]
          simp
        · rw [h5]
          · rw [Free.part, if_neg, add_zero]
            rintro ⟨h, h'⟩
            exact hc ⟨h, hfo.below e h'⟩
          · intro a ha hp
            have ha' := List.mem_range.1 ha
            have hal : a < (elems req f.key).length := by have := hfo.size; omega
            rw [← ordered_pos hal ho] at hp
            obtain ⟨h, h'⟩ := pos_inj hn he hal hp
            exact hc ⟨h.symm, by omega⟩
      obtain ⟨st', last', h6, h7, h8⟩ := fin st1 false hpart fun h => by cases h
      refine ⟨st', last', ?_, h7, h8⟩
      rw [runFree, infoAt_ok hfo.some, Option.bind_some, if_pos ho, locAt_ok hfo.some, Option.bind_some, h1, Option.bind_some, h6]
    | false =>
      have hm := le_maxCompressed hfo.some ho
      have hptr : (if last = true then st.ptr else some Ptr.comp) = some .comp := by
        cases last with
        | true => rw [if_pos rfl, hl rfl]
        | false => rfl
      obtain ⟨st1, h1, h2, h3, h4, _⟩ := assign_comp req.length (maxCompressed ((groups req).map (info req))) f (List.range f.size)
        { st with ptr := if last = true then st.ptr else some .comp } hptr fun e he => by
          have := List.mem_range.1 he
          have := hfo.size
          omega
      have hel : ∀ e ∈ f.els, e < (elems req f.key).length := fun e he => Nat.lt_of_lt_of_le (hfo.below e he) hfo.size
      obtain ⟨st2, h5, h6, h7, h8⟩ := copyFree_ok req.length (maxCompressed ((groups req).map (info req))) ((groups req).map (info req)) f.key (pos req f.key)
        f.els st1 fun e he => ⟨locAt_ok (hel e he), pos_lt (hel e he), Nat.lt_of_lt_of_le (hel e he) hm⟩
      have hpart : ∀ k e, e < (elems req k).length → st2.res (pos req k e) = st.res (pos req k e) + f.part k e := by
        intro k e he
        rw [h8, h3, adds_part hn he f.key (hfo.els.imp fun h => Nat.ne_of_lt h) hel, Free.part]
        by_cases hc : f.key = k ∧ e ∈ f.els
        · rw [if_pos hc, if_pos hc, h4 e (List.mem_range.2 (hfo.below e hc.2)), if_pos hc.2]
        · rw [if_neg hc, if_neg hc]
      obtain ⟨st', last', h9, h10, h11⟩ := fin st2 true hpart fun _ => by rw [h6, h2]; exact hptr
      refine ⟨st', last', ?_, h10, h11⟩
      rw [runFree, infoAt_ok hfo.some, Option.bind_some, if_neg (by simp [ho]), h1, Option.bind_some, h5, Option.bind_some, h9]

/-! ### the function -/

theorem sparseMatrix_ok {req : List (Nat × Nat)} (hn : req.Nodup) {fs : List (Free α)} {cs : List (Call α)} (hf : ∀ f ∈ fs, f.Ok req)
    (hd : (fs.map (·.key)).Nodup) (hc : ∀ c ∈ cs, c.Ok req ∧ c.Room req) (it0 : Nat) (res comp : Nat → α) :
    ∃ out, sparseMatrix req fs cs it0 res comp = some out ∧ ∀ k e, e < (elems req k).length → out (pos req k e) = entry fs cs k e := by
  obtain ⟨gr, hgr⟩ : ∃ gr : Call α → Group, ∀ c ∈ cs, analyse ((groups req).map (info req)) c.keys = some (gr c) := by
    refine ⟨fun c => (analyse ((groups req).map (info req)) c.keys).getD ⟨0, .random [], none, []⟩, fun c h => ?_⟩
    simp only [analyse_ok (hc c h).1, Option.getD_some]
  have hall : allSome (cs.map fun c => (analyse ((groups req).map (info req)) c.keys).map fun g => (c, g)) = some (cs.map fun c => (c, gr c)) :=
    allSome_map _ fun c h => by rw [hgr c h]; rfl
  have hgood : GoodCalls req (cs.map fun c => (c, gr c)) := by
    intro q hq
    obtain ⟨c, h, rfl⟩ := List.mem_map.1 hq
    exact ⟨(hc c h).1, (hc c h).2, hgr c h⟩
  obtain ⟨st1, last, h1, h2, h3⟩ := runFree_ok hn fs false ⟨fun e => if e < req.length then 0 else res e, comp, none⟩ hf hd
    (fun f _ e he => if_pos (pos_lt he)) fun h => by cases h
  obtain ⟨st2, h4, h5⟩ := runBlocks_ok hn it0 _ hgood (((cs.map fun c => (c, gr c)).map (·.2.count)).foldl setInsert []) last st1 h2
  refine ⟨st2.res, ?_, fun k e he => ?_⟩
  · rw [sparseMatrix, Verif.Deriv.infos_ok]
    simp only
    rw [hall, Option.bind_some, h1, Option.bind_some, h4]
    rfl
  · rw [h5, h3 k e he]
    simp only
    rw [if_pos (pos_lt he), zero_add, sum_partition (fun q : Call α × Group => q.2.count) (fun q => total req q.1 (pos req k e)) (foldl_setInsert_nodup _)]
    · rw [entry, List.map_map]
      congr 2
      refine List.map_congr_left fun c h => ?_
      exact total_part hn he (hc c h).1
    · intro q hq
      exact (mem_foldl_setInsert _ _ _).2 (Or.inr (List.mem_map_of_mem hq))

end Verif.Loops.Usage
