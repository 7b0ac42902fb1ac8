import Verif.Loops.LemmasRev2Group
import Verif.Loops.LemmasOn
import Verif.Loops.LemmasFor1

/-
What the function of one group of rows adds.
-/
namespace Verif.Loops.Rev2

open Verif.Index Verif.Ranges For1

variable {α : Type} [CommRing α]

/-! ### contributions with locations which depend on the iteration -/

theorem meetsOn_direct {S : List Nat} {b : Body α} {cs : List (Contr α)} (hb : MeetsOn S true b cs) {locs : List (Nat × Nat)} (hs : Sorted locs)
    (hsub : ∀ p ∈ locs, p.1 ∈ S) (hl : locs.length = S.length) (val : Nat → α) :
    MeetsOn S true { b with args := b.args ++ [.direct ⟨val, locPat locs, true⟩] } (cs ++ [⟨val, locAt locs⟩]) := by
  have hall : ∀ it ∈ S, ∃ e, (it, e) ∈ locs := by
    intro it hit
    have hnd : (locs.map (·.1)).Nodup := by
      rw [List.Nodup, List.pairwise_map]
      exact hs.imp fun h => by omega
    have hsp : (locs.map (·.1)).Subperm S := by
      refine List.subperm_of_subset hnd ?_
      intro i hi
      obtain ⟨p, hp, rfl⟩ := List.mem_map.mp hi
      exact hsub p hp
    have hperm := hsp.perm_of_length_le (by simp [hl])
    obtain ⟨p, hp, rfl⟩ := List.mem_map.mp (hperm.mem_iff.mpr hit)
    exact ⟨p.2, hp⟩
  obtain ⟨h1, h2⟩ := directOn_ok hb.1 (a := ⟨val, locPat locs, true⟩) fun it hit => by
    obtain ⟨e, he⟩ := hall it hit
    rw [locAsg_write hs he]; simp
  refine ⟨h1, fun it hit => (h2 it).trans ?_⟩
  obtain ⟨e, he⟩ := hall it hit
  rw [atIter, List.filterMap_append, List.map_append, locAsg_write hs he]
  refine (List.Perm.append_right _ (hb.2 it hit)).trans ?_
  simp [(locAt_iff hs).mpr he, atIter]

theorem rep_mul (v : Nat → α) (t : α) : ∀ c, rep (fun it => v it * t) c = fun it => rep v c it * t
  | 0 => rfl
  | 1 => rfl
  | c + 2 => by
    funext it
    simp only [rep]
    rw [rep_mul v t (c + 1), add_mul]

theorem restrict_get (S : List Nat) (es : List El) (it : Nat) :
    (restrict S es)[it]? = es[it]?.map fun x => if it ∈ S then ⟨some x.loc, x.cnt⟩ else ⟨none, 0⟩ := by
  unfold restrict
  rw [List.getElem?_map, List.getElem?_zipIdx]
  cases es[it]? <;> simp

/-- what one table of elements adds at an iteration of the group -/
def esAdd (es : List El) (val : Nat → α) (tx1 : α) (e it : Nat) : α :=
  match es[it]? with
  | some x => if x.loc = e then (x.cnt : α) * val it * tx1 else 0
  | none => 0

theorem revContr_ok {isZ : (Nat → α) → Bool} (hz : ∀ f, isZ f = true → ∀ it, f it = 0) {S : List Nat} {es : List El}
    (hmax : es.length - 1 ≤ sizeMax) (hS : ∀ it ∈ S, it < es.length) (val : Nat → α) (tx1 : α) {b : Body α} {cs : List (Contr α)} (hb : MeetsOn S true b cs) :
    ∃ b' cs', revContr isZ S es val tx1 b = .ok b' ∧ MeetsOn S true b' (cs ++ cs') ∧ ∀ it ∈ S, ∀ e, csum cs' e it = esAdd es val tx1 e it := by
  have hzero : (∀ it, val it = 0) → ∀ it e, esAdd es val tx1 e it = 0 := by
    intro hv it e
    unfold esAdd
    split
    · rw [hv]; simp
    · rfl
  unfold revContr
  by_cases hzv : isZ val = true
  · rw [if_pos hzv]
    exact ⟨b, [], rfl, by simpa using hb, fun it _ e => by rw [hzero (hz val hzv)]; simp [csum]⟩
  · rw [if_neg hzv]
    simp only
    have hl : Located' (restrict S es) := by
      intro h hm hc
      obtain ⟨it, hit⟩ := List.getElem?_of_mem hm
      rw [restrict_get, Option.map_eq_some_iff] at hit
      obtain ⟨x, _, rfl⟩ := hit
      split at hc
      · rename_i h; rw [if_pos h]; simp
      · simp at hc
    have hpv : ∀ it ∈ S, ∀ e, posVal (restrict S es) (fun it => val it * tx1) e it = esAdd es val tx1 e it := by
      intro it hit e
      unfold posVal esAdd
      rw [restrict_get]
      cases es[it]? with
      | none => rfl
      | some x => simp only [Option.map_some, if_pos hit, Option.some.injEq, mul_assoc]
    have hcs := fun it (hit : it ∈ S) e => (counts_csum hl (fun it => val it * tx1) e it).trans (hpv it hit e)
    simp only [rep_mul] at hcs
    have hmemS : ∀ {c it e}, 0 < c → (it, e) ∈ countLocs (restrict S es) c → it ∈ S := by
      intro c it e hc hp
      obtain ⟨h, h1, h2, h3⟩ := mem_countLocs.mp hp
      rw [restrict_get, Option.map_eq_some_iff] at h1
      obtain ⟨x, _, rfl⟩ := h1
      by_contra hit
      rw [if_neg hit] at h3
      simp at h3
    have hcne : ∀ c ∈ counts (restrict S es), countLocs (restrict S es) c ≠ [] := by
      intro c hc h'
      obtain ⟨h1, h, h2, h3⟩ := mem_counts.mp hc
      obtain ⟨e, he⟩ := Option.ne_none_iff_exists'.mp (hl h h2 (by omega))
      obtain ⟨it, hit⟩ := List.getElem?_of_mem h2
      have : (it, e) ∈ countLocs (restrict S es) c := mem_countLocs.mpr ⟨h, hit, h3, he⟩
      rw [h'] at this; simp at this
    have hcond : counts (restrict S es) ≠ [] → (∀ c, counts (restrict S es) = [c] → (countLocs (restrict S es) c).length ≠ S.length) →
        ∃ b', condContr ((counts (restrict S es)).map fun c => (⟨fun it => rep val c it * tx1, countLocs (restrict S es) c⟩ : BrData α)) (es.length - 1) S.length b = some b' ∧
          MeetsOn S true b' (cs ++ (counts (restrict S es)).map fun c => (⟨fun it => rep val c it * tx1, locAt (countLocs (restrict S es) c)⟩ : Contr α)) := by
      intro hne hfull
      obtain ⟨b', h1, h2⟩ := meetsOn_condContr (brs := (counts (restrict S es)).map fun c => (⟨fun it => rep val c it * tx1, countLocs (restrict S es) c⟩ : BrData α))
        hmax (fun i hi => by have := hS i hi; omega) hb
        (by
          intro d hd
          obtain ⟨c, _, rfl⟩ := List.mem_map.mp hd
          exact countLocs_sorted _ c)
        (by
          intro d hd
          obtain ⟨c, hc, rfl⟩ := List.mem_map.mp hd
          rintro ⟨it, e⟩ hp
          exact hmemS (mem_counts.mp hc).1 hp)
        (by
          intro d hd
          obtain ⟨c, hc, rfl⟩ := List.mem_map.mp hd
          exact hcne c hc)
        (by
          unfold sets
          rw [List.map_map, List.nodup_flatten]
          constructor
          · intro x hx
            obtain ⟨c, _, rfl⟩ := List.mem_map.mp hx
            simp only [Function.comp]
            rw [List.Nodup, List.pairwise_map]
            refine (countLocs_sorted _ c).imp fun h => ?_
            exact Nat.ne_of_lt h
          · rw [List.pairwise_map]
            refine (counts_nodup _).imp fun {c c'} hcc => ?_
            simp only [Function.comp, List.disjoint_left]
            rintro it h1 h2
            obtain ⟨⟨it1, e1⟩, h3, rfl⟩ := List.mem_map.mp h1
            obtain ⟨⟨it2, e2⟩, h4, h5⟩ := List.mem_map.mp h2
            simp only at h5
            subst h5
            obtain ⟨x, hx1, hx2, _⟩ := mem_countLocs.mp h3
            obtain ⟨y, hy1, hy2, _⟩ := mem_countLocs.mp h4
            rw [hx1] at hy1
            obtain rfl := Option.some.inj hy1
            exact hcc (hx2.symm.trans hy2))
        (by
          intro h'
          exact hne (List.map_eq_nil_iff.mp h'))
        (by
          intro d hd
          obtain ⟨c, hc, rfl⟩ := List.map_eq_singleton_iff.mp hd
          exact hfull c hc)
      refine ⟨b', h1, ?_⟩
      rw [List.map_map] at h2
      exact h2
    match hcnt : counts (restrict S es) with
    | [] =>
      simp only
      refine ⟨b, [], rfl, by simpa using hb, fun it hit e => ?_⟩
      have := hcs it hit e
      rw [hcnt] at this
      simpa [csum] using this
    | [c] =>
      simp only
      rw [hcnt] at hcs hcond hcne
      by_cases hfull : (countLocs (restrict S es) c).length = S.length
      · rw [if_pos hfull]
        by_cases hzr : isZ (fun it => rep val c it * tx1) = true
        · rw [if_pos hzr]
          refine ⟨b, [], rfl, by simpa using hb, fun it hit e => ?_⟩
          rw [← hcs it hit e]
          have := hz _ hzr it
          simp [csum, this]
        · rw [if_neg hzr]
          have hc0 : 0 < c := (mem_counts.mp (by rw [hcnt]; exact List.mem_singleton.mpr rfl)).1
          exact ⟨_, _, rfl, meetsOn_direct hb (countLocs_sorted _ c) (fun p hp => hmemS (it := p.1) (e := p.2) hc0 hp) hfull _, fun it hit e => hcs it hit e⟩
      · rw [if_neg hfull]
        obtain ⟨b', h1, h2⟩ := hcond (by simp) (by
          intro c' hc'
          obtain rfl : c = c' := by simpa using hc'
          exact hfull)
        simp only [List.map_cons, List.map_nil] at h1
        rw [h1]
        exact ⟨b', _, rfl, h2, fun it hit e => hcs it hit e⟩
    | c :: c' :: rest =>
      simp only
      rw [hcnt] at hcs hcond
      obtain ⟨b', h1, h2⟩ := hcond (by simp) (by intro c'' h; simp at h)
      rw [h1]
      exact ⟨b', _, rfl, h2, fun it hit e => hcs it hit e⟩

/-- what a contribution of one group of equations adds -/
def termAdd (tx1 : α) (e it : Nat) (g : EqGroup α) : Term → α
  | .pos k K => ((posOf g k K).map fun es => esAdd es (g.val k K) tx1 e it).getD 0
  | .const _ => 0

theorem genTerms_ok {isZ : (Nat → α) → Bool} (hz : ∀ f, isZ f = true → ∀ it, f it = 0) {N : Nat} (hmax : N - 1 ≤ sizeMax) {S : List Nat}
    (hS : ∀ it ∈ S, it < N) (tx1 : α) {g : EqGroup α} (hlen : ∀ k, ∀ p ∈ g.pos k, p.2.length = N) : ∀ (tms : List Term) {b : Body α} {cs : List (Contr α)},
    MeetsOn S true b cs → ∃ b' cs', genTerms isZ S tx1 g tms b = .ok b' ∧ MeetsOn S true b' (cs ++ cs') ∧
      ∀ it ∈ S, ∀ e, csum cs' e it = lsum tms (termAdd tx1 e it g)
  | [], b, cs, hb => ⟨b, [], rfl, by simpa using hb, fun it _ e => by simp [csum]⟩
  | .const K :: tms, b, cs, hb => by
    obtain ⟨b', cs', h1, h2, h3⟩ := genTerms_ok hz hmax hS tx1 hlen tms hb
    refine ⟨b', cs', h1, h2, fun it hit e => ?_⟩
    rw [h3 it hit e, lsum_cons, termAdd, zero_add]
  | .pos k K :: tms, b, cs, hb => by
    rw [genTerms]
    cases hp : posOf g k K with
    | none =>
      simp only
      obtain ⟨b', cs', h1, h2, h3⟩ := genTerms_ok hz hmax hS tx1 hlen tms hb
      refine ⟨b', cs', h1, h2, fun it hit e => ?_⟩
      rw [h3 it hit e, lsum_cons, termAdd, hp]
      simp
    | some es =>
      simp only
      have hes : es.length = N := by
        unfold posOf at hp
        obtain ⟨p, hp', rfl⟩ := Option.map_eq_some_iff.mp hp
        exact hlen k p (List.mem_of_find?_eq_some hp')
      obtain ⟨b1, cs1, g1, g2, g3⟩ := revContr_ok hz (es := es) (by rw [hes]; exact hmax) (by rw [hes]; exact hS) (g.val k K) tx1 hb
      rw [g1]
      simp only
      obtain ⟨b', cs', h1, h2, h3⟩ := genTerms_ok hz hmax hS tx1 hlen tms g2
      refine ⟨b', cs1 ++ cs', h1, by rwa [List.append_assoc] at h2, fun it hit e => ?_⟩
      rw [csum_append, g3 it hit e, h3 it hit e, lsum_cons, termAdd, hp]
      rfl

theorem genAll_ok {isZ : (Nat → α) → Bool} (hz : ∀ f, isZ f = true → ∀ it, f it = 0) {N : Nat} (hmax : N - 1 ≤ sizeMax) {S : List Nat}
    (hS : ∀ it ∈ S, it < N) (tx1 : α) (tms : List Term) : ∀ (gs : List (EqGroup α)), (∀ g ∈ gs, ∀ k, ∀ p ∈ g.pos k, p.2.length = N) →
    ∀ {b : Body α} {cs : List (Contr α)}, MeetsOn S true b cs → ∃ b' cs', genAll isZ S tx1 tms gs b = .ok b' ∧ MeetsOn S true b' (cs ++ cs') ∧
      ∀ it ∈ S, ∀ e, csum cs' e it = lsum gs fun g => lsum tms (termAdd tx1 e it g)
  | [], _, b, cs, hb => ⟨b, [], rfl, by simpa using hb, fun it _ e => by simp [csum]⟩
  | g :: gs, hlen, b, cs, hb => by
    obtain ⟨b1, cs1, g1, g2, g3⟩ := genTerms_ok hz hmax hS tx1 (hlen g List.mem_cons_self) tms hb
    obtain ⟨b', cs', h1, h2, h3⟩ := genAll_ok hz hmax hS tx1 tms gs (fun g' h' => hlen g' (List.mem_cons_of_mem _ h')) g2
    refine ⟨b', cs1 ++ cs', ?_, by rwa [List.append_assoc] at h2, fun it hit e => ?_⟩
    · rw [genAll, g1]; exact h1
    · rw [csum_append, g3 it hit e, h3 it hit e, lsum_cons]

/-! ### constant locations -/

/-- the groups of equations which are not in all iterations are not multiplied with `tx1` -/
def factor (N : Nat) (tx1 : α) (g : EqGroup α) : α := if ∀ it < N, it ∈ g.its then tx1 else 1

theorem genConstGroups_ok {isZ : (Nat → α) → Bool} (hz : ∀ f, isZ f = true → ∀ it, f it = 0) {N : Nat} (hmax : N - 1 ≤ sizeMax) (tx1 : α) (K : Nat × Nat) (e : Nat) :
    ∀ (gs : List (EqGroup α)), (∀ g ∈ gs, g.its ≠ [] ∧ ∀ it ∈ g.its, it < N) → ∀ (v : Nat → α) {b : Body α} {cs : List (Contr α)}, MeetsOn (List.range N) true b cs →
    ∃ v' b' cs', genConstGroups isZ (List.range N) K e gs v b = .ok (v', b') ∧ MeetsOn (List.range N) true b' (cs ++ cs') ∧
      ∀ it < N, ∀ e', csum cs' e' it + (if e = e' then v' it * tx1 else 0) =
        (if e = e' then v it * tx1 else 0) + if e = e' then lsum gs (fun g => if it ∈ g.its then g.cval K it * factor N tx1 g else 0) else 0
  | [], _, v, b, cs, hb => ⟨v, b, [], rfl, by simpa using hb, fun it _ e' => by simp [csum]⟩
  | g :: gs, hg, v, b, cs, hb => by
    have rest := fun v {b : Body α} {cs : List (Contr α)} (hb : MeetsOn (List.range N) true b cs) =>
      genConstGroups_ok hz hmax tx1 K e gs (fun g' h' => hg g' (List.mem_cons_of_mem _ h')) v hb
    obtain ⟨hne, hlt⟩ := hg g List.mem_cons_self
    have hfull : ((List.range N).filter fun it => it ∈ g.its).length = (List.range N).length ↔ ∀ it < N, it ∈ g.its := by
      rw [List.length_filter_eq_length_iff]
      simp
    rw [genConstGroups]
    by_cases hf : ∀ it < N, it ∈ g.its
    · rw [if_neg (by rw [not_not]; exact hfull.mpr hf)]
      obtain ⟨v', b', cs', h1, h2, h3⟩ := rest (fun it => v it + g.cval K it) hb
      refine ⟨v', b', cs', h1, h2, fun it hit e' => ?_⟩
      rw [h3 it hit e', lsum_cons, if_pos (hf it hit), factor, if_pos hf]
      by_cases he : e = e'
      · simp only [if_pos he]; ring
      · simp only [if_neg he]
    · rw [if_pos (fun h => hf (hfull.mp h))]
      by_cases hzv : isZ (g.cval K) = true
      · rw [if_pos hzv]
        obtain ⟨v', b', cs', h1, h2, h3⟩ := rest v hb
        refine ⟨v', b', cs', h1, h2, fun it hit e' => ?_⟩
        rw [h3 it hit e', lsum_cons, hz _ hzv it]
        simp
      · rw [if_neg hzv]
        have hN : 0 < N := by
          obtain ⟨i, hi⟩ := List.exists_mem_of_ne_nil _ hne
          have := hlt i hi; omega
        have hlast : (List.range N).getLast?.getD 0 = N - 1 := by
          rw [List.getLast?_range, if_neg (by omega)]; rfl
        obtain ⟨b1, g1, g2⟩ := meetsOn_constContr (m := N - 1) hmax (fun i hi => by rw [List.mem_range] at hi; omega) hb e
          (its := (List.range N).filter fun it => it ∈ g.its) (fun i hi => (List.mem_filter.mp hi).1) (by
            obtain ⟨i, hi⟩ := List.exists_mem_of_ne_nil _ hne
            exact List.ne_nil_of_mem (List.mem_filter.mpr ⟨List.mem_range.mpr (hlt i hi), by simpa using hi⟩)) (g.cval K)
        rw [hlast, g1]
        simp only
        obtain ⟨v', b', cs', h1, h2, h3⟩ := rest v g2
        refine ⟨v', b', _ :: cs', h1, by rwa [List.append_assoc] at h2, fun it hit e' => ?_⟩
        have := h3 it hit e'
        rw [csum, List.map_cons, List.sum_cons]
        change _ + csum cs' e' it + _ = _
        rw [add_assoc, this, lsum_cons, factor, if_neg hf]
        have hm : it ∈ (List.range N).filter (fun it => it ∈ g.its) ↔ it ∈ g.its := by
          rw [List.mem_filter, List.mem_range]; simp [hit]
        by_cases he : e = e'
        · by_cases hi : it ∈ g.its
          · simp only [if_pos (hm.mpr hi), if_pos hi, if_pos he, Option.some.injEq]; ring
          · simp only [if_neg fun h => hi (hm.mp h), if_neg hi, if_pos he]; simp
        · by_cases hi : it ∈ g.its
          · simp only [if_pos (hm.mpr hi), if_neg he, Option.some.injEq]; simp
          · simp only [if_neg fun h => hi (hm.mp h), if_neg he]; simp

/-- what is added to constant locations -/
def constVal (I : Info α) (tx1 : α) (it : Nat) (K : Nat × Nat) : α :=
  lsum I.groups (fun g => if it ∈ g.its then g.cval K it * factor I.iters tx1 g else 0) + I.tmp K it * tx1

def constAdd (I : Info α) (tx1 : α) (e it : Nat) : Term → α
  | .pos _ _ => 0
  | .const K => match I.const.find? fun p => p.1 == K with
    | some p => if p.2 = e then constVal I tx1 it K else 0
    | none => 0

theorem genConsts_ok {isZ : (Nat → α) → Bool} (hz : ∀ f, isZ f = true → ∀ it, f it = 0) {I : Info α} {n : Nat} (hI : I.Ok n) (tx1 : α) {S : List Nat} :
    ∀ (tms : List Term), (∀ K, .const K ∈ tms → K ∈ I.const.map (·.1) ∧ S = List.range I.iters) → ∀ {b : Body α} {cs : List (Contr α)}, MeetsOn S true b cs →
    ∃ b' cs', genConsts isZ I S tx1 tms b = .ok b' ∧ MeetsOn S true b' (cs ++ cs') ∧ ∀ it ∈ S, ∀ e, csum cs' e it = lsum tms (constAdd I tx1 e it)
  | [], _, b, cs, hb => ⟨b, [], rfl, by simpa using hb, fun it _ e => by simp [csum]⟩
  | .pos k K :: tms, h, b, cs, hb => by
    obtain ⟨b', cs', h1, h2, h3⟩ := genConsts_ok hz hI tx1 tms (fun K hK => h K (List.mem_cons_of_mem _ hK)) hb
    refine ⟨b', cs', h1, h2, fun it hit e => ?_⟩
    rw [h3 it hit e, lsum_cons, constAdd, zero_add]
  | .const K :: tms, h, b, cs, hb => by
    obtain ⟨hK, hSr⟩ := h K List.mem_cons_self
    have hmax : I.iters - 1 ≤ sizeMax := by have := hI.size; unfold sizeMax; omega
    rw [genConsts]
    cases hf : I.const.find? fun p => p.1 == K with
    | none =>
      exfalso
      obtain ⟨p, hp, rfl⟩ := List.mem_map.mp hK
      have := List.find?_eq_none.mp hf p hp
      simp at this
    | some p =>
      simp only
      rw [hSr] at hb
      obtain ⟨v, b1, cs1, g1, g2, g3⟩ := genConstGroups_ok hz hmax tx1 K p.2 I.groups (fun g hg => ⟨(hI.its g hg).1, (hI.its g hg).2.2⟩) (fun _ => 0) hb
      rw [hSr, g1]
      simp only
      have hgoal : ∀ {b2 : Body α} {cs2 : List (Contr α)}, MeetsOn (List.range I.iters) true b2 (cs ++ cs1 ++ cs2) →
          (∀ it ∈ S, ∀ e, csum cs2 e it = if p.2 = e then (v it + I.tmp K it) * tx1 else 0) →
          ∃ b' cs', genConsts isZ I (List.range I.iters) tx1 tms b2 = .ok b' ∧ MeetsOn (List.range I.iters) true b' (cs ++ cs') ∧
            ∀ it ∈ List.range I.iters, ∀ e, csum cs' e it = lsum (.const K :: tms) (constAdd I tx1 e it) := by
        intro b2 cs2 hm hc
        obtain ⟨b', cs', h1, h2, h3⟩ := genConsts_ok hz hI tx1 tms (S := List.range I.iters) (fun K' hK' => ⟨(h K' (List.mem_cons_of_mem _ hK')).1, rfl⟩) hm
        refine ⟨b', cs1 ++ cs2 ++ cs', h1, by simpa [List.append_assoc] using h2, fun it hit e => ?_⟩
        rw [csum_append, csum_append, h3 it hit e, lsum_cons, hc it (by rw [hSr]; exact hit) e, constAdd, hf]
        congr 1
        simp only
        have := g3 it (List.mem_range.mp hit) e
        by_cases he : p.2 = e
        · simp only [if_pos he] at this ⊢
          rw [constVal, add_mul, ← add_assoc, this]
          simp
        · simp only [if_neg he] at this ⊢
          simpa using this
      by_cases hzh : isZ (fun it => (v it + I.tmp K it) * tx1) = true
      · rw [if_pos hzh]
        refine hgoal (cs2 := []) (by simpa using g2) fun it _ e => ?_
        have := hz _ hzh it
        rw [this]
        simp [csum]
      · rw [if_neg hzh]
        refine hgoal (meetsOn_const g2 p.2 _) fun it _ e => ?_
        simp [csum]

theorem genGroup_ok {isZ : (Nat → α) → Bool} (hz : ∀ f, isZ f = true → ∀ it, f it = 0) {I : Info α} {n : Nat} (hI : I.Ok n) (tx1 : α) {g : RowGroup}
    (hS : g.iters.Sublist (List.range I.iters)) (hc : ∀ K, .const K ∈ g.terms → K ∈ I.const.map (·.1) ∧ g.iters = List.range I.iters) :
    ∃ b cs, genGroup isZ I tx1 g = .ok b ∧ MeetsOn g.iters true b cs ∧ ∀ it ∈ g.iters, ∀ e,
      csum cs e it = lsum g.terms fun tm => lsum I.groups (fun eg => termAdd tx1 e it eg tm) + constAdd I tx1 e it tm := by
  have hmax : I.iters - 1 ≤ sizeMax := by have := hI.size; unfold sizeMax; omega
  obtain ⟨b1, cs1, g1, g2, g3⟩ := genAll_ok hz hmax (fun it hit => List.mem_range.mp (hS.subset hit)) tx1 g.terms I.groups hI.len
    (meetsOn_empty g.iters true)
  obtain ⟨b, cs, h1, h2, h3⟩ := genConsts_ok hz hI tx1 g.terms hc g2
  refine ⟨b, cs1 ++ cs, ?_, by simpa using h2, fun it hit e => ?_⟩
  · rw [genGroup, g1]; exact h1
  · rw [csum_append, g3 it hit e, h3 it hit e, lsum_add, lsum_comm]

end Verif.Loops.Rev2
