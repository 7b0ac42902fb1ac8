import Verif.Loops.LemmasUsage

/-
What is run for one group of a loop: the right branch and patterns, so that each element is added at its location.
-/
namespace Verif.Loops.Usage

open Verif.Index (Pat detect detectV Sorted)
open Verif.Ranges (createIndexCondition printCond setInsert sizeMax)
open Verif.Deriv (Info infos maxCompressed groups info loc)

/-! ### patterns of a group -/

def elPat (req : List (Nat × Nat)) (sel : List ((Nat × List Nat) × Nat)) (e : Nat) : Pat Int × Pat Int :=
  (detect (sel.map fun p => (p.2, ((pos req p.1.1 (p.1.2.getD e 0) : Nat) : Int))), detect (sel.map fun p => (p.2, ((p.1.2.getD e 0 : Nat) : Int))))

def elG (req : List (Nat × Nat)) (keys : List (Nat × List Nat)) (n : Nat) : ElGroup :=
  ⟨(sameCount keys n).map (·.1.1), (List.range n).map (elPat req (sameCount keys n))⟩

theorem mem_sameCount {keys : List (Nat × List Nat)} {n : Nat} {q : (Nat × List Nat) × Nat} :
    q ∈ sameCount keys n ↔ keys[q.2]? = some q.1 ∧ q.1.2.length = n := by
  rw [sameCount, List.mem_filter, List.mem_zipIdx_iff_getElem?]
  simp

theorem elGroup_ok {α : Type} {req : List (Nat × Nat)} {c : Call α} (hc : c.Ok req) (n : Nat) :
    elGroup ((groups req).map (info req)) c.keys n = some (elG req c.keys n) := by
  have h : ∀ e ∈ List.range n, element ((groups req).map (info req)) (sameCount c.keys n) e = some (elPat req (sameCount c.keys n) e) := by
    intro e he
    have hget : ∀ p ∈ sameCount c.keys n, p.1.2[e]? = some (p.1.2.getD e 0) ∧ p.1.2.getD e 0 < (elems req p.1.1).length := by
      intro p hp
      obtain ⟨h1, h2⟩ := mem_sameCount.1 hp
      have hlt : e < p.1.2.length := by rw [h2]; exact List.mem_range.1 he
      have hg : p.1.2[e]? = some (p.1.2.getD e 0) := by
        rw [List.getD_eq_getElem?_getD, List.getElem?_eq_getElem hlt]
        rfl
      exact ⟨hg, hc.below _ (List.mem_of_getElem? h1) _ (List.mem_of_getElem? hg)⟩
    rw [element, allSome_map (g := fun p => (p.2, ((pos req p.1.1 (p.1.2.getD e 0) : Nat) : Int))),
      allSome_map (g := fun p => (p.2, ((p.1.2.getD e 0 : Nat) : Int)))]
    · rfl
    · intro p hp
      rw [(hget p hp).1]
      rfl
    · intro p hp
      rw [(hget p hp).1, Option.bind_some, locAt_ok (hget p hp).2]
      rfl
  rw [elGroup, allSome_map _ h]
  rfl

/-- all rows of the group are ordered -/
def allOrdered (req : List (Nat × Nat)) (keys : List (Nat × List Nat)) : Bool := keys.all fun p => (info req (p.1, elems req p.1)).ordered

theorem Call.Ok.len {α : Type} {req : List (Nat × Nat)} {c : Call α} (hc : c.Ok req) {p : Nat × List Nat} (hp : p ∈ c.keys) : 0 < (elems req p.1).length := by
  obtain ⟨h, _⟩ := hc.els p hp
  obtain ⟨e, he⟩ := List.exists_mem_of_ne_nil _ h
  have := hc.below p hp e he
  omega

theorem analyse_ok {α : Type} {req : List (Nat × Nat)} {c : Call α} (hc : c.Ok req) :
    analyse ((groups req).map (info req)) c.keys = some
      (if allOrdered req c.keys then
        ⟨c.keys.length, detectV ((c.keys.map (·.1)).map fun (y : Nat) => (y : Int)),
          some (detectV ((c.keys.map fun p => pos req p.1 0).map fun (y : Nat) => (y : Int))), []⟩
      else ⟨c.keys.length, detectV ((c.keys.map (·.1)).map fun (y : Nat) => (y : Int)), none, (counts c.keys).map (elG req c.keys)⟩) := by
  rw [analyse, allSome_map (g := fun p => info req (p.1, elems req p.1)) _ fun p hp => infoAt_ok (hc.len hp)]
  simp only
  rw [List.all_map]
  have : (c.keys.all ((fun x => x.ordered) ∘ fun p => info req (p.1, elems req p.1))) = allOrdered req c.keys := rfl
  rw [this]
  cases allOrdered req c.keys with
  | true =>
    rw [if_pos rfl, if_pos rfl, allSome_map (g := fun p => pos req p.1 0) _ fun p hp => locAt_ok (hc.len hp)]
    simp [List.map_map, Function.comp_def]
  | false =>
    rw [if_neg (by simp), if_neg (by simp), allSome_map (g := elG req c.keys) _ fun n _ => elGroup_ok hc n]
    simp [List.map_map, Function.comp_def]

/-! ### the branch -/

theorem gaps_spec : ∀ (ks : List Nat) (e : Nat), ks.Pairwise (· < ·) → (∀ k ∈ ks, e ≤ k) → ∀ x ∈ gaps e ks, e ≤ x ∧ x ∉ ks ∧ ∃ k ∈ ks, x < k
  | [], _, _, _, x, hx => by simp [gaps] at hx
  | k :: ks, e, hs, he, x, hx => by
    rw [List.pairwise_cons] at hs
    rw [gaps, List.mem_append] at hx
    rcases hx with hx | hx
    · rw [List.mem_range'] at hx
      obtain ⟨i, hi, rfl⟩ := hx
      refine ⟨by omega, ?_, k, by simp, by omega⟩
      intro hm
      rcases List.mem_cons.1 hm with h | h
      · omega
      · have := hs.1 _ h
        omega
    · obtain ⟨h1, h2, k', h3, h4⟩ := gaps_spec ks (k + 1) hs.2 (fun a ha => hs.1 a ha) x hx
      refine ⟨by have := he k (by simp); omega, ?_, k', by simp [h3], h4⟩
      intro hm
      rcases List.mem_cons.1 hm with h | h
      · omega
      · exact h2 h

theorem key_unique {keys : List (Nat × List Nat)} (hs : keys.Pairwise fun p q => p.1 < q.1) {p q : Nat × List Nat} (hp : p ∈ keys) (hq : q ∈ keys)
    (h : p.1 = q.1) : p = q := by
  induction keys with
  | nil => cases hp
  | cons a keys ih =>
    rw [List.pairwise_cons] at hs
    rcases List.mem_cons.1 hp with rfl | hp' <;> rcases List.mem_cons.1 hq with rfl | hq'
    · rfl
    · have := hs.1 q hq'
      omega
    · have := hs.1 p hp'
      omega
    · exact ih hs.2 hp' hq'

theorem mem_foldl_setInsert : ∀ (l m : List Nat) (x : Nat), x ∈ l.foldl setInsert m ↔ x ∈ m ∨ x ∈ l
  | [], m, x => by simp
  | a :: l, m, x => by
    rw [List.foldl_cons, mem_foldl_setInsert l, Verif.Ranges.mem_setInsert, List.mem_cons]
    constructor
    · rintro ((h | h) | h) <;> simp [h]
    · rintro (h | h | h) <;> simp [h]

theorem setInsert_sorted (k : Nat) : ∀ (m : List Nat), m.Pairwise (· < ·) → (setInsert m k).Pairwise (· < ·)
  | [], _ => by simp [setInsert]
  | a :: m, h => by
    have h' := List.pairwise_cons.1 h
    rw [setInsert]
    by_cases h1 : k < a
    · rw [if_pos h1]
      refine List.pairwise_cons.2 ⟨fun b hb => ?_, h⟩
      rcases List.mem_cons.1 hb with rfl | hb
      · exact h1
      · exact Nat.lt_trans h1 (h'.1 b hb)
    · rw [if_neg h1]
      by_cases h2 : k = a
      · rw [if_pos h2]
        exact h
      · rw [if_neg h2]
        refine List.pairwise_cons.2 ⟨fun b hb => ?_, setInsert_sorted k m h'.2⟩
        rw [Verif.Ranges.mem_setInsert] at hb
        rcases hb with rfl | hb
        · omega
        · exact h'.1 b hb

theorem foldl_setInsert_sorted : ∀ (l m : List Nat), m.Pairwise (· < ·) → (l.foldl setInsert m).Pairwise (· < ·)
  | [], _, h => h
  | a :: l, m, h => by
    rw [List.foldl_cons]
    exact foldl_setInsert_sorted l _ (setInsert_sorted a m h)

theorem foldl_setInsert_nodup (l : List Nat) : (l.foldl setInsert []).Nodup :=
  (foldl_setInsert_sorted l [] List.Pairwise.nil).imp fun h => Nat.ne_of_lt h

theorem pick_cons {maxKey k : Nat} {used : List Nat} {g g' : ElGroup} {gs : List ElGroup} {e : Verif.Ranges.CCond}
    (he : printCond (createIndexCondition g.keys used maxKey) = some e) :
    pick maxKey (some k) used (g :: g' :: gs) = if e.eval k then some g else pick maxKey (some k) (g.keys.foldl setInsert used) (g' :: gs) := by
  simp [pick, he]

theorem pick_ok {req : List (Nat × Nat)} {keys : List (Nat × List Nat)} (hs : keys.Pairwise fun p q => p.1 < q.1) {maxKey : Nat} (hm : maxKey ≤ sizeMax)
    (hk : ∀ p ∈ keys, p.1 ≤ maxKey) {p : Nat × List Nat} (hp : p ∈ keys) : ∀ (ns used : List Nat), p.2.length ∈ ns → ns.Nodup →
    (∀ n ∈ ns, sameCount keys n ≠ []) → (∀ u ∈ used, u ≤ maxKey) → p.1 ∉ used →
    pick maxKey (some p.1) used (ns.map (elG req keys)) = some (elG req keys p.2.length)
  | [], _, h, _, _, _, _ => by cases h
  | [n], _, h, _, _, _, _ => by
    rw [List.mem_singleton] at h
    rw [h]
    rfl
  | n :: n' :: ns, used, h, hnd, hne, hu, hpu => by
    have hits : ∀ i ∈ (elG req keys n).keys, ∃ q ∈ keys, q.1 = i ∧ q.2.length = n := by
      intro i hi
      obtain ⟨q, hq, rfl⟩ := List.mem_map.1 hi
      obtain ⟨h1, h2⟩ := mem_sameCount.1 hq
      exact ⟨q.1, List.mem_of_getElem? h1, rfl, h2⟩
    have hmax : ∀ i ∈ (elG req keys n).keys, i ≤ maxKey := by
      intro i hi
      obtain ⟨q, hq, rfl, _⟩ := hits i hi
      exact hk q hq
    obtain ⟨e, he, ht, hf⟩ := Verif.Ranges.condition_selects (elG req keys n).keys used maxKey hm hmax hu
      (by simpa [elG] using hne n (by simp)) p.1 (hk p hp)
    rw [List.map_cons, List.map_cons, pick_cons he]
    by_cases hn : p.2.length = n
    · have : p.1 ∈ (elG req keys n).keys := by
        obtain ⟨i, hi⟩ := List.mem_iff_getElem?.1 hp
        exact List.mem_map.2 ⟨(p, i), mem_sameCount.2 ⟨hi, hn⟩, rfl⟩
      rw [if_pos (ht this), hn]
    · have hni : p.1 ∉ (elG req keys n).keys := by
        intro hi
        obtain ⟨q, hq, h1, h2⟩ := hits _ hi
        rw [key_unique hs hp hq h1.symm] at hn
        exact hn h2
      rw [if_neg (by rw [hf hni hpu]; simp)]
      refine pick_ok hs hm hk hp (n' :: ns) _ ?_ (List.nodup_cons.1 hnd).2 (fun a ha => hne a (by simp [List.mem_cons.1 ha])) ?_ ?_
      · rcases List.mem_cons.1 h with h | h
        · exact absurd h hn
        · exact h
      · intro u hu'
        rcases (mem_foldl_setInsert _ _ _).1 hu' with h | h
        · exact hu u h
        · exact hmax u h
      · intro hu'
        rcases (mem_foldl_setInsert _ _ _).1 hu' with h | h
        · exact hpu h
        · exact hni h

theorem mem_counts {keys : List (Nat × List Nat)} {n : Nat} : n ∈ counts keys ↔ ∃ p ∈ keys, p.2.length = n := by
  rw [counts, mem_foldl_setInsert]
  simp

theorem le_last {keys : List (Nat × List Nat)} (hs : keys.Pairwise fun p q => p.1 < q.1) :
    ∀ p ∈ keys, p.1 ≤ ((keys.getLast?).map (·.1)).getD 0 := by
  intro p hp
  cases hl : keys.getLast? with
  | none =>
    rw [List.getLast?_eq_none_iff] at hl
    rw [hl] at hp
    cases hp
  | some q =>
    obtain ⟨ks, rfl⟩ := List.getLast?_eq_some_iff.1 hl
    rw [List.mem_append, List.mem_singleton] at hp
    rcases hp with hp | rfl
    · exact Nat.le_of_lt ((List.pairwise_append.1 hs).2.2 p hp q (by simp))
    · exact Nat.le_refl _

/-! ### one group -/

/-- the element patterns at the call for a key -/
theorem elG_els {req : List (Nat × Nat)} {keys : List (Nat × List Nat)} {it : Nat} {p : Nat × List Nat} (hit : keys[it]? = some p ∨ keys = [p]) :
    List.Forall₂ (fun q e => index q.1 it = some (pos req p.1 e) ∧ index q.2 it = some e) (elG req keys p.2.length).els p.2 := by
  have hes : p.2 = (List.range p.2.length).map fun e => p.2.getD e 0 := by
    refine List.ext_getElem (by simp) fun i h1 h2 => ?_
    simp [List.getD_eq_getElem?_getD, List.getElem?_eq_getElem h1]
  conv => arg 3; rw [hes]
  simp only [elG]
  rw [List.forall₂_map_left_iff, List.forall₂_map_right_iff, List.forall₂_same]
  intro e _
  rcases hit with hit | hit
  · have hm : (p, it) ∈ sameCount keys p.2.length := mem_sameCount.2 ⟨hit, rfl⟩
    have hsort : ∀ f : (Nat × List Nat) × Nat → Int, Sorted ((sameCount keys p.2.length).map fun q => (q.2, f q)) := by
      intro f
      refine List.Pairwise.map _ (R := fun a b => a.2 < b.2) (fun a b h => h) ?_
      refine List.Pairwise.filter _ ?_
      rw [List.pairwise_iff_getElem]
      intro i j hi hj hij
      simpa using hij
    exact ⟨index_detect (hsort _) (List.mem_map.2 ⟨_, hm, rfl⟩), index_detect (hsort _) (List.mem_map.2 ⟨_, hm, rfl⟩)⟩
  · have : sameCount keys p.2.length = [(p, 0)] := by
      rw [hit, sameCount]
      simp
    rw [this]
    exact ⟨index_single 0 _ it, index_single 0 _ it⟩

theorem runGroup_ok {α : Type} [AddCommMonoid α] {req : List (Nat × Nat)} (hn : req.Nodup) {c : Call α} (hc : c.Ok req) (hr : c.Room req) {g : Group}
    (hg : analyse ((groups req).map (info req)) c.keys = some g) {it : Nat} {p : Nat × List Nat} (hit : c.keys[it]? = some p ∨ c.keys = [p])
    (last : Bool) (st : State α) (hl : last = true → st.ptr = some .comp) :
    ∃ st', runGroup req.length (maxCompressed ((groups req).map (info req))) it c g last st = some st' ∧
      (g.start.isNone = true → st'.ptr = some .comp) ∧ ∀ x, st'.res x = st.res x + adds (pos req p.1) (c.val p.1) p.2 x := by
  have hp : p ∈ c.keys := by
    rcases hit with h | h
    · exact List.mem_of_getElem? h
    · rw [h]
      simp
  have hfind : c.keys.find? (·.1 == p.1) = some p := by
    cases hf : c.keys.find? (·.1 == p.1) with
    | none =>
      have := List.find?_eq_none.1 hf p hp
      simp at this
    | some q =>
      have h1 := List.mem_of_find?_eq_some hf
      have h2 := List.find?_some hf
      rw [key_unique hc.sorted h1 hp (by simpa using h2)]
  have hpat : ∀ f : Nat × List Nat → Nat, index (detectV ((c.keys.map f).map fun (y : Nat) => (y : Int))) it = some (f p) := by
    intro f
    rcases hit with h | h
    · exact index_detectV (by rw [List.getElem?_map, h]; rfl)
    · rw [h]
      exact index_singleV _ it
  have hkey : (if c.keys.length > 1 then index (detectV ((c.keys.map (·.1)).map fun (y : Nat) => (y : Int))) it else (c.keys.head?).map (·.1)) = some p.1 := by
    by_cases h1 : c.keys.length > 1
    · rw [if_pos h1]
      exact hpat (·.1)
    · rw [if_neg h1]
      cases hk : c.keys with
      | nil => exact absurd hk hc.ne
      | cons a as =>
        rw [hk] at h1 hp
        have : as = [] := List.eq_nil_of_length_eq_zero (by rw [List.length_cons] at h1; omega)
        rw [this, List.mem_singleton] at hp
        rw [hp]
        rfl
  obtain ⟨hes, hsrt⟩ := hc.els p hp
  have hnd : p.2.Nodup := hsrt.imp fun h => Nat.ne_of_lt h
  rw [analyse_ok hc] at hg
  cases ho : allOrdered req c.keys with
  | true =>
    rw [ho, if_pos rfl] at hg
    cases hg
    have hop : (info req (p.1, elems req p.1)).ordered = true := List.all_eq_true.1 ho p hp
    obtain ⟨st', h1, h2, h3, h4⟩ := addAll_res req.length (maxCompressed ((groups req).map (info req))) (pos req p.1 0) (c.val p.1) p.2
      { st with ptr := some (.res (pos req p.1 0)) } rfl fun e he => by
        have := hc.below p hp e he
        rw [← ordered_pos this hop]
        exact pos_lt this
    refine ⟨st', ?_, by simp, fun x => ?_⟩
    · simp only [runGroup]
      rw [hkey, hpat fun q => pos req q.1 0, Option.bind_some, Option.bind_some, callFun, hfind, Option.bind_some, h1]
    · rw [h4]
      congr 1
      exact adds_congr (fun e he => (ordered_pos (hc.below p hp e he) hop).symm) fun _ _ => rfl
  | false =>
    rw [ho, if_neg (by simp)] at hg
    cases hg
    have hroom : ∀ e ∈ p.2, e < maxCompressed ((groups req).map (info req)) := by
      intro e he
      rcases hr with h | h
      · have : allOrdered req c.keys = true := List.all_eq_true.2 fun q hq => ordered_of_consecutive hn (hc.len hq) (h q hq)
        rw [ho] at this
        cases this
      · obtain ⟨k, h1, h2⟩ := h p hp e he
        refine Nat.lt_of_lt_of_le h2 (le_maxCompressed (by omega) ?_)
        cases hb : (info req (k, elems req k)).ordered with
        | false => rfl
        | true => exact absurd (consecutive_of_ordered hb) h1
    generalize hm : maxCompressed ((groups req).map (info req)) = m at hroom ⊢
    have hptr : (if last = true then st.ptr else some Ptr.comp) = some .comp := by
      cases last with
      | true => rw [if_pos rfl, hl rfl]
      | false => rfl
    obtain ⟨st1, h1, h2, h3, h4⟩ := addAll_comp req.length m (c.val p.1) p.2
      { st with ptr := if last = true then st.ptr else some .comp, comp := fun e => if e < m then 0 else st.comp e } hptr hroom
    obtain ⟨st2, h5, h6, h7, h8⟩ := copyAll_ok req.length m it (pos req p.1) (elG req c.keys p.2.length).els p.2 st1 (elG_els hit)
      fun e he => ⟨pos_lt (hc.below p hp e he), hroom e he⟩
    have hpick : pick (((c.keys.getLast?).map (·.1)).getD 0) (if c.keys.length > 1 then some p.1 else none) (gaps 0 (c.keys.map (·.1)))
        ((counts c.keys).map (elG req c.keys)) = some (elG req c.keys p.2.length) := by
      by_cases hk : c.keys.length > 1
      · rw [if_pos hk]
        have hgap := gaps_spec (c.keys.map (·.1)) 0 (List.pairwise_map.2 hc.sorted) fun _ _ => Nat.zero_le _
        refine pick_ok hc.sorted ?_ (le_last hc.sorted) hp _ _ (mem_counts.2 ⟨p, hp, rfl⟩) (foldl_setInsert_nodup _) ?_ ?_ ?_
        · cases hlast : c.keys.getLast? with
          | none => simp
          | some q =>
            have := hc.size q (List.mem_of_getLast? hlast)
            simp only [Option.map_some, Option.getD_some, sizeMax]
            omega
        · intro a ha
          obtain ⟨q, hq, h⟩ := mem_counts.1 ha
          obtain ⟨i, hi⟩ := List.mem_iff_getElem?.1 hq
          exact List.ne_nil_of_mem (mem_sameCount (q := (q, i)).2 ⟨hi, h⟩)
        · intro u hu
          obtain ⟨_, _, k, hk', hlt⟩ := hgap u hu
          obtain ⟨q, hq, rfl⟩ := List.mem_map.1 hk'
          have := le_last hc.sorted q hq
          omega
        · intro hu
          exact (hgap _ hu).2.1 (List.mem_map_of_mem hp)
      · rw [if_neg hk]
        cases hkk : c.keys with
        | nil => exact absurd hkk hc.ne
        | cons a as =>
          rw [hkk] at hk hp
          have : as = [] := List.eq_nil_of_length_eq_zero (by rw [List.length_cons] at hk; omega)
          rw [this, List.mem_singleton] at hp
          rw [this, hp]
          simp [counts, setInsert, pick]
    refine ⟨st2, ?_, fun _ => by rw [h6, h2]; exact hptr, fun x => ?_⟩
    · simp only [runGroup]
      rw [hkey, Option.bind_some, callFun, hfind, Option.bind_some, h1, Option.bind_some, hpick, Option.bind_some, h5]
    · rw [h8, h3]
      congr 1
      refine adds_congr (fun _ _ => rfl) fun e he => ?_
      rw [h4]
      simp only
      rw [if_pos (hroom e he), zero_add]
      exact adds_one hnd he fun a _ => Iff.rfl

end Verif.Loops.Usage
