import Verif.Codegen.LemmasLast
import Mathlib.Data.List.Nodup
/- Allocation of temporary variables. -/
namespace Verif.Codegen
variable {α : Type}

/-- result of the allocation: `vid'` are the final IDs -/
structure AFacts (minTemp : Nat) (queue : List Nat) (last vid vid' : Nat → Nat) (idCount' : Nat) :
    Prop where
  keep : ∀ n, (vid n < minTemp ∨ n ∉ queue) → vid' n = vid n
  temp : ∀ n ∈ queue, minTemp ≤ vid n → minTemp ≤ vid' n ∧ vid' n < idCount'
  clash : ∀ j k a b, queue[j]? = some a → queue[k]? = some b → minTemp ≤ vid a → minTemp ≤ vid b →
    j < k → vid' a = vid' b → last a ≤ k + 1

/-- state before step `i` -/
structure AInv (minTemp : Nat) (queue : List Nat) (last vid : Nat → Nat) (i : Nat) (s : ASt) :
    Prop where
  temp_iff : ∀ n, minTemp ≤ s.vid n ↔ minTemp ≤ vid n
  keep : ∀ n, (vid n < minTemp ∨ n ∉ queue) → s.vid n = vid n
  bound : ∀ j a, j < i → queue[j]? = some a → minTemp ≤ vid a → s.vid a < s.idCount
  freedNodup : s.freed.Nodup
  freedBound : ∀ d ∈ s.freed, minTemp ≤ d ∧ d < s.idCount
  freedDisj : ∀ j a, j < i → queue[j]? = some a → minTemp ≤ vid a → i < last a → s.vid a ∉ s.freed
  liveInj : ∀ j k a b, j < i → k < i → queue[j]? = some a → queue[k]? = some b → minTemp ≤ vid a →
    minTemp ≤ vid b → i < last a → i < last b → s.vid a = s.vid b → j = k
  clash : ∀ j k a b, queue[j]? = some a → queue[k]? = some b → minTemp ≤ vid a → minTemp ≤ vid b →
    j < k → k < i → s.vid a = s.vid b → last a ≤ k + 1
  idc : minTemp ≤ s.idCount

theorem nodup_map_filter_of_inj (queue : List Nat) (f : Nat → Nat) (p : Nat → Bool)
    (hnd : queue.Nodup)
    (h : ∀ a b, a ∈ queue → b ∈ queue → p a = true → p b = true → f a = f b → a = b) :
    ((queue.filter p).map f).Nodup := by
  apply List.Nodup.map_on _ (hnd.filter p)
  intro a ha b hb hab
  rw [List.mem_filter] at ha hb
  exact h a b ha.1 hb.1 ha.2 hb.2 hab

theorem allocStep_inv {minTemp : Nat} {queue : List Nat} {last vid : Nat → Nat} (hnd : queue.Nodup)
    (htemp : ∀ k t, queue[k]? = some t → minTemp ≤ vid t → k + 2 ≤ last t) {i n : Nat} {s : ASt}
    (hn : queue[i]? = some n) (h : AInv minTemp queue last vid i s) :
    AInv minTemp queue last vid (i + 1) (allocStep minTemp queue last s i n) := by
  have hidx : ∀ (j k a : Nat), queue[j]? = some a → queue[k]? = some a → j = k := by
    intro j k a hj hk
    exact (List.getElem?_inj (List.getElem?_eq_some_iff.1 hj).1 hnd).1 (by rw [hj, hk])
  have hget : ∀ a ∈ queue, ∃ j, queue[j]? = some a := fun a ha => List.mem_iff_getElem?.1 ha
  generalize hrel : queue.filter (fun q => decide (minTemp ≤ s.vid q) && decide (last q = i + 1)) = rel
  have hrelmem : ∀ a, a ∈ rel ↔ a ∈ queue ∧ minTemp ≤ vid a ∧ last a = i + 1 := by
    intro a
    rw [← hrel, List.mem_filter]
    simp [h.temp_iff]
  -- released nodes were allocated before
  have hrellt : ∀ a ∈ rel, ∃ j, j < i ∧ queue[j]? = some a := by
    intro a ha
    obtain ⟨h1, h2, h3⟩ := (hrelmem a).1 ha
    obtain ⟨j, hj⟩ := hget a h1
    have := htemp j a hj h2
    exact ⟨j, by omega, hj⟩
  generalize hfr : s.freed ++ rel.map s.vid = freed
  have hfreedMem : ∀ d, d ∈ freed ↔ d ∈ s.freed ∨ ∃ a ∈ rel, s.vid a = d := by
    intro d; rw [← hfr]; simp [List.mem_append, List.mem_map]
  have hfreedNodup : freed.Nodup := by
    rw [← hfr, List.nodup_append]
    refine ⟨h.freedNodup, ?_, ?_⟩
    · rw [← hrel]
      apply nodup_map_filter_of_inj _ _ _ hnd
      intro a b ha hb hpa hpb hab
      have ha' : a ∈ rel := by rw [← hrel, List.mem_filter]; exact ⟨ha, hpa⟩
      have hb' : b ∈ rel := by rw [← hrel, List.mem_filter]; exact ⟨hb, hpb⟩
      obtain ⟨j, hj, ja⟩ := hrellt a ha'
      obtain ⟨k, hk, kb⟩ := hrellt b hb'
      obtain ⟨_, ta, la⟩ := (hrelmem a).1 ha'
      obtain ⟨_, tb, lb⟩ := (hrelmem b).1 hb'
      have := h.liveInj j k a b hj hk ja kb ta tb (by omega) (by omega) hab
      subst this
      rw [ja] at kb; exact Option.some.inj kb
    · intro d hd e he hde
      subst hde
      obtain ⟨a, ha, e'⟩ := List.mem_map.1 he
      obtain ⟨j, hj, ja⟩ := hrellt a ha
      obtain ⟨_, ta, la⟩ := (hrelmem a).1 ha
      exact h.freedDisj j a hj ja ta (by omega) (e' ▸ hd)
  have hfreedBound : ∀ d ∈ freed, minTemp ≤ d ∧ d < s.idCount := by
    intro d hd
    rcases (hfreedMem d).1 hd with hd | ⟨a, ha, e⟩
    · exact h.freedBound d hd
    · obtain ⟨j, hj, ja⟩ := hrellt a ha
      obtain ⟨_, ta, _⟩ := (hrelmem a).1 ha
      have := h.bound j a hj ja ta
      have := (h.temp_iff a).2 ta
      omega
  -- IDs of nodes which stay live are not free
  have hlive : ∀ j a, j < i → queue[j]? = some a → minTemp ≤ vid a → i + 1 < last a →
      s.vid a ∉ freed := by
    intro j a hj ja ta la hmem
    rcases (hfreedMem _).1 hmem with hd | ⟨b, hb, e⟩
    · exact h.freedDisj j a hj ja ta (by omega) hd
    · obtain ⟨k, hk, kb⟩ := hrellt b hb
      obtain ⟨_, tb, lb⟩ := (hrelmem b).1 hb
      have := h.liveInj k j b a hk hj kb ja tb ta (by omega) (by omega) e
      subst this
      rw [ja] at kb
      have := Option.some.inj kb
      subst this
      omega
  have hnej : ∀ j a, j < i → queue[j]? = some a → a ≠ n := by
    rintro j a hj ja rfl
    have := hidx j i a ja hn
    omega
  unfold allocStep
  simp only
  rw [hrel, hfr]
  by_cases ht : minTemp ≤ s.vid n
  · rw [if_pos ht]
    have htn := (h.temp_iff n).1 ht
    -- common part: the new ID is not the ID of anything live and is not free any more
    have common : ∀ (id : Nat) (fr : List Nat) (ic : Nat), minTemp ≤ id → id < ic → s.idCount ≤ ic →
        fr.Nodup → (∀ d ∈ fr, d ∈ freed) → id ∉ fr →
        (∀ j a, j < i → queue[j]? = some a → minTemp ≤ vid a → i + 1 < last a → s.vid a ≠ id) →
        AInv minTemp queue last vid (i + 1) { vid := upd s.vid n id, freed := fr, idCount := ic } := by
      intro id fr ic h1 h2 h3 h4 h5 h6 h7
      refine ⟨?_, ?_, ?_, h4, ?_, ?_, ?_, ?_, ?_⟩
      · intro m; simp only [upd_apply]; split
        · rename_i e; subst e; exact ⟨fun _ => htn, fun _ => h1⟩
        · exact h.temp_iff m
      · intro m hm; simp only [upd_apply]; split
        · rename_i e; subst e
          rcases hm with hm | hm
          · omega
          · exact absurd (List.mem_of_getElem? hn) hm
        · exact h.keep m hm
      · intro j a hj ja ta
        simp only [upd_apply]; split
        · exact h2
        · rename_i hne
          have hji : j ≠ i := by
            rintro rfl; rw [hn] at ja; exact hne (Option.some.inj ja).symm
          have := h.bound j a (by omega) ja ta
          omega
      · intro d hd
        have := hfreedBound d (h5 d hd)
        exact ⟨this.1, by simp only; omega⟩
      · intro j a hj ja ta la
        simp only [upd_apply]; split
        · exact h6
        · rename_i hne
          have hji : j ≠ i := by
            rintro rfl; rw [hn] at ja; exact hne (Option.some.inj ja).symm
          intro hmem
          exact hlive j a (by omega) ja ta la (h5 _ hmem)
      · intro j k a b hj hk ja kb ta tb la lb hab
        simp only [upd_apply] at hab
        by_cases e1 : a = n <;> by_cases e2 : b = n
        · subst e1; subst e2; exact hidx j k _ ja kb
        · rw [if_pos e1, if_neg e2] at hab
          have hki : k ≠ i := by rintro rfl; rw [hn] at kb; exact e2 (Option.some.inj kb).symm
          exact absurd hab.symm (h7 k b (by omega) kb tb lb)
        · rw [if_neg e1, if_pos e2] at hab
          have hji : j ≠ i := by rintro rfl; rw [hn] at ja; exact e1 (Option.some.inj ja).symm
          exact absurd hab (h7 j a (by omega) ja ta la)
        · rw [if_neg e1, if_neg e2] at hab
          have hki : k ≠ i := by rintro rfl; rw [hn] at kb; exact e2 (Option.some.inj kb).symm
          have hji : j ≠ i := by rintro rfl; rw [hn] at ja; exact e1 (Option.some.inj ja).symm
          exact h.liveInj j k a b (by omega) (by omega) ja kb ta tb (by omega) (by omega) hab
      · intro j k a b ja kb ta tb hjk hk hab
        simp only [upd_apply] at hab
        by_cases hki : k = i
        · subst hki
          have e2 : b = n := by rw [hn] at kb; exact (Option.some.inj kb).symm
          have e1 : a ≠ n := hnej j a hjk ja
          rw [if_neg e1, if_pos e2] at hab
          apply Classical.byContradiction
          intro hgt
          exact h7 j a hjk ja ta (by omega) hab
        · have e1 : a ≠ n := hnej j a (by omega) ja
          have e2 : b ≠ n := hnej k b (by omega) kb
          rw [if_neg e1, if_neg e2] at hab
          exact h.clash j k a b ja kb ta tb hjk (by omega) hab
      · have := h.idc; simp only; omega
    cases hl : freed.getLast? with
    | none =>
      have hnil : freed = [] := List.getLast?_eq_none_iff.1 hl
      apply common s.idCount freed (s.idCount + 1) h.idc (by omega) (by omega) hfreedNodup
        (fun _ h => h)
      · intro hm; have := hfreedBound _ hm; omega
      · intro j a hj ja ta _ hab
        have := h.bound j a hj ja ta
        omega
    | some id =>
      have hsplit := List.getLast?_eq_some_iff.1 hl
      obtain ⟨ys, hys⟩ := hsplit
      have hidm : id ∈ freed := by rw [hys]; simp
      have hdl : freed.dropLast = ys := by rw [hys]; simp
      simp only [hdl]
      rw [hys, List.nodup_append] at hfreedNodup
      have hb := hfreedBound id hidm
      apply common id ys s.idCount hb.1 hb.2 (Nat.le_refl _) hfreedNodup.1
      · intro d hd; rw [hys]; exact List.mem_append_left _ hd
      · intro hm; exact hfreedNodup.2.2 id hm id (by simp) rfl
      · intro j a hj ja ta la hab
        exact hlive j a hj ja ta la (hab ▸ hidm)
  · rw [if_neg ht]
    have htn : ¬ minTemp ≤ vid n := fun hh => ht ((h.temp_iff n).2 hh)
    have hlt : ∀ j a, j < i + 1 → queue[j]? = some a → minTemp ≤ vid a → j < i := by
      intro j a hj ja ta
      apply Classical.byContradiction
      intro hge
      have : j = i := by omega
      subst this
      rw [hn] at ja
      have := Option.some.inj ja
      subst this
      exact htn ta
    refine ⟨h.temp_iff, h.keep, ?_, hfreedNodup, hfreedBound, ?_, ?_, ?_, h.idc⟩
    · intro j a hj ja ta; exact h.bound j a (hlt j a hj ja ta) ja ta
    · intro j a hj ja ta la; exact hlive j a (hlt j a hj ja ta) ja ta la
    · intro j k a b hj hk ja kb ta tb la lb hab
      exact h.liveInj j k a b (hlt j a hj ja ta) (hlt k b hk kb tb) ja kb ta tb (by omega) (by omega)
        hab
    · intro j k a b ja kb ta tb hjk hk hab
      exact h.clash j k a b ja kb ta tb hjk (hlt k b hk kb tb) hab

theorem allocLoop_spec {minTemp : Nat} {queue : List Nat} {last vid : Nat → Nat} (hnd : queue.Nodup)
    (htemp : ∀ k t, queue[k]? = some t → minTemp ≤ vid t → k + 2 ≤ last t) :
    ∀ (l : List Nat) (i : Nat) (s : ASt), queue.drop i = l → i ≤ queue.length →
      AInv minTemp queue last vid i s →
      AInv minTemp queue last vid queue.length (allocLoop minTemp queue last i l s) := by
  intro l
  induction l with
  | nil =>
    intro i s hl hi h
    have : i = queue.length := by
      rw [List.drop_eq_nil_iff] at hl; omega
    subst this; exact h
  | cons q l ih =>
    intro i s hl _ h
    have hi : i < queue.length := by
      apply Classical.byContradiction
      intro hge
      rw [List.drop_eq_nil_of_le (by omega)] at hl; cases hl
    have hdrop := List.drop_eq_getElem_cons hi
    rw [hl] at hdrop
    obtain ⟨hqe, hle⟩ := List.cons.inj hdrop
    have hqi : queue[i]? = some q := by rw [List.getElem?_eq_getElem hi, hqe]
    unfold allocLoop
    exact ih (i + 1) _ hle.symm (by omega) (allocStep_inv hnd htemp hqi h)

theorem alloc_facts {minTemp : Nat} {queue : List Nat} {last vid : Nat → Nat} (hnd : queue.Nodup)
    (htemp : ∀ k t, queue[k]? = some t → minTemp ≤ vid t → k + 2 ≤ last t) :
    AFacts minTemp queue last vid (allocLoop minTemp queue last 0 queue ⟨vid, [], minTemp⟩).vid
      (allocLoop minTemp queue last 0 queue ⟨vid, [], minTemp⟩).idCount := by
  have h := allocLoop_spec hnd htemp queue 0 ⟨vid, [], minTemp⟩ (by simp) (by omega)
    ⟨fun _ => Iff.rfl, fun _ _ => rfl, by simp, by simp, by simp, by simp, by simp, by simp,
      Nat.le_refl _⟩
  refine ⟨h.keep, ?_, ?_⟩
  · intro n hn ht
    obtain ⟨j, hj⟩ := List.mem_iff_getElem?.1 hn
    exact ⟨(h.temp_iff n).2 ht, h.bound j n (List.getElem?_eq_some_iff.1 hj).1 hj ht⟩
  · intro j k a b ja kb ta tb hjk hab
    exact h.clash j k a b ja kb ta tb hjk (List.getElem?_eq_some_iff.1 kb).1 hab

end Verif.Codegen
