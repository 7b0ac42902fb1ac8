import Verif.Loops.LemmasBody

/-! Helper lemmas: conditional contributions with several branches and to a constant location. -/

namespace Verif.Loops

open Verif.Index Verif.Ranges

variable {α : Type}

theorem putKey_perm {β : Type} (k : Nat × Nat) (v : β) : ∀ (m : List ((Nat × Nat) × β)), k ∉ m.map (·.1) →
    (putKey k v m).Perm ((k, v) :: m)
  | [], _ => by simp [putKey]
  | (k', v') :: m, h => by
    simp only [List.map_cons, List.mem_cons, not_or] at h
    rw [putKey]
    split
    · exact List.Perm.refl _
    · rw [if_neg h.1]
      exact ((putKey_perm k v m h.2).cons _).trans (List.Perm.swap _ _ _)

theorem foldPut_perm : ∀ (brs : List (BrData α)) (m : List ((Nat × Nat) × BrData α)),
    (m.map (·.1) ++ brs.map fun d => key d.locs).Nodup →
    (brs.foldl (fun m d => putKey (key d.locs) d m) m).Perm (m ++ brs.map fun d => (key d.locs, d))
  | [], m, _ => by simp
  | d :: brs, m, h => by
    rw [List.foldl_cons]
    have hk : key d.locs ∉ m.map (·.1) := by
      intro hk
      rw [List.nodup_append] at h
      exact h.2.2 _ hk _ (by simp) rfl
    have hp := putKey_perm (key d.locs) d m hk
    have hnd : ((putKey (key d.locs) d m).map (·.1) ++ brs.map fun d => key d.locs).Nodup := by
      have : ((putKey (key d.locs) d m).map (·.1) ++ brs.map fun d => key d.locs).Perm
          (m.map (·.1) ++ (d :: brs).map fun d => key d.locs) := by
        refine ((hp.map (·.1)).append_right _).trans ?_
        simp only [List.map_cons, List.cons_append]
        exact List.perm_middle.symm
      exact this.nodup_iff.mpr h
    refine (foldPut_perm brs _ hnd).trans ?_
    refine (hp.append_right _).trans ?_
    simp only [List.map_cons, List.cons_append]
    exact List.perm_middle.symm

/-- iterations of the branches -/
def sets (brs : List (BrData α)) : List (List Nat) := brs.map fun d => d.locs.map (·.1)

theorem keys_nodup : ∀ (brs : List (BrData α)), (sets brs).flatten.Nodup → (∀ d ∈ brs, d.locs ≠ []) →
    (brs.map fun d => key d.locs).Nodup
  | [], _, _ => by simp
  | d :: brs, h, hne => by
    simp only [sets, List.map_cons, List.flatten_cons] at h
    rw [List.nodup_append] at h
    rw [List.map_cons, List.nodup_cons]
    refine ⟨?_, keys_nodup brs h.2.1 fun d hd => hne d (by simp [hd])⟩
    intro hk
    obtain ⟨d', hd', hkk⟩ := List.mem_map.mp hk
    have h1 := hne d (by simp)
    have h2 := hne d' (by simp [hd'])
    obtain ⟨p, ps, hp⟩ := List.exists_cons_of_ne_nil h1
    obtain ⟨q, qs, hq⟩ := List.exists_cons_of_ne_nil h2
    simp only [key, hp, hq, List.map_cons, List.headD_cons, Prod.mk.injEq] at hkk
    refine h.2.2 p.1 (by rw [hp]; simp) q.1 ?_ hkk.2.symm
    rw [List.mem_flatten]
    exact ⟨d'.locs.map (·.1), List.mem_map.mpr ⟨d', hd', rfl⟩, by rw [hq]; simp⟩

theorem sortBranches_perm (brs : List (BrData α)) (h : (sets brs).flatten.Nodup) (hne : ∀ d ∈ brs, d.locs ≠ []) :
    (sortBranches brs).Perm brs := by
  have := foldPut_perm brs [] (by simpa using keys_nodup brs h hne)
  have := this.map (·.2)
  simpa [sortBranches, Function.comp_def] using this

theorem fresh_sorted (it : Nat) : ∀ (s : List (BrData α)), (∀ d ∈ s, Sorted d.locs) →
    fresh it (sets s) (s.map fun d => (⟨d.val, locPat d.locs, true⟩ : Asg α)) =
      s.filterMap fun d => (locAt d.locs it).map fun e => (e, d.val it, true)
  | [], _ => rfl
  | d :: s, h => by
    have ih := fresh_sorted it s fun d hd => h d (by simp [hd])
    have := locAsg_fresh (h d (by simp)) it d.val true
    simp only [fresh, sets, List.map_cons, List.zip_cons_cons, List.filterMap_cons] at ih ⊢
    rw [ih, this]

/-- `createConditionalContribution` adds its contributions -/
theorem condContr_ok {n : Nat} (hn : 0 < n) (hmax : n - 1 ≤ sizeMax) {b : Body α} (hb : BodyOk n b) {brs : List (BrData α)}
    (hs : ∀ d ∈ brs, Sorted d.locs) (hlt : ∀ d ∈ brs, ∀ p ∈ d.locs, p.1 < n) (hne : ∀ d ∈ brs, d.locs ≠ [])
    (hnd : (sets brs).flatten.Nodup) (hb0 : brs ≠ []) (hfull : ∀ d, brs = [d] → d.locs.length ≠ n) :
    ∃ b', condContr brs (n - 1) n b = some b' ∧ BodyOk n b' ∧
      ∀ it, (b'.effect it).Perm (b.effect it ++ brs.filterMap fun d => (locAt d.locs it).map fun e => (e, d.val it, true)) := by
  have hperm := sortBranches_perm brs hnd hne
  have hmem : ∀ d, d ∈ sortBranches brs ↔ d ∈ brs := fun d => hperm.mem_iff
  have hl : (sets (sortBranches brs)).length =
      ((sortBranches brs).map fun d => (⟨d.val, locPat d.locs, true⟩ : Asg α)).length := by simp [sets]
  have hloc : Located n (sets (sortBranches brs)) ((sortBranches brs).map fun d => (⟨d.val, locPat d.locs, true⟩ : Asg α)) := by
    intro it _ p hp hit
    obtain ⟨q, hq⟩ := List.getElem?_of_mem hp
    rw [List.getElem?_zip_eq_some] at hq
    simp only [sets, List.getElem?_map, Option.map_eq_some_iff] at hq
    obtain ⟨⟨d, hd, h1⟩, d', hd', h2⟩ := hq
    rw [hd] at hd'
    obtain rfl := Option.some.inj hd'
    rw [← h1] at hit
    obtain ⟨r, hr, rfl⟩ := List.mem_map.mp hit
    rw [← h2, locAsg_write (hs d ((hmem d).mp (List.mem_of_getElem? hd))) hr]
    simp
  have hfr : ∀ it, (fresh it (sets (sortBranches brs)) ((sortBranches brs).map fun d => (⟨d.val, locPat d.locs, true⟩ : Asg α))).Perm
      (brs.filterMap fun d => (locAt d.locs it).map fun e => (e, d.val it, true)) := by
    intro it
    rw [fresh_sorted it _ fun d hd => hs d ((hmem d).mp hd)]
    exact hperm.filterMap _
  rw [condContr]
  have hany : (brs.any (fun d => d.locs.isEmpty) || brs.isEmpty) = false := by
    rw [Bool.or_eq_false_iff]
    refine ⟨?_, by simpa using hb0⟩
    rw [List.any_eq_false]
    intro d hd
    simpa using hne d hd
  rw [hany]
  simp only [Bool.false_eq_true, if_false]
  change ∃ b', (match findIfElse b.ifs (sets (sortBranches brs)) with
    | some f => some (⟨b.args ++ [.endIf f], addTo f _ b.ifs⟩ : Body α)
    | none => match buildChain (n - 1) n true [] (sets (sortBranches brs)) with
      | none => none
      | some chain => some ⟨b.args ++ [.endIf b.ifs.length], b.ifs ++ [chain.zipWith _ _]⟩) = some b' ∧ _
  cases hf : findIfElse b.ifs (sets (sortBranches brs)) with
  | some f =>
    obtain ⟨h1, h2⟩ := reuse_ok hb hf hl hloc
    exact ⟨_, rfl, h1, fun it => (h2 it).trans ((hfr it).append_left _)⟩
  | none =>
    have hndS : (sets (sortBranches brs)).flatten.Nodup := by
      refine (List.Perm.flatten ?_).nodup_iff.mpr hnd
      exact hperm.map _
    have hsS : ∀ s ∈ sets (sortBranches brs), s ≠ [] ∧ ∀ i ∈ s, i < n := by
      intro s hs'
      obtain ⟨d, hd, rfl⟩ := List.mem_map.mp hs'
      refine ⟨by simpa using hne d ((hmem d).mp hd), ?_⟩
      intro i hi
      obtain ⟨p, hp, rfl⟩ := List.mem_map.mp hi
      exact hlt d ((hmem d).mp hd) p hp
    have hdef : ∃ chain, buildChain (n - 1) n true [] (sets (sortBranches brs)) = some chain := by
      cases hc : buildChain (n - 1) n true [] (sets (sortBranches brs)) with
      | some c => exact ⟨c, rfl⟩
      | none =>
        exfalso
        obtain ⟨g, rest, hg, hgl⟩ := (chain_defined_iff _ _ _).mp hc
        -- the first branch has all iterations, so it is the only one
        have hrest : rest = [] := by
          cases hr : rest with
          | nil => rfl
          | cons g' rest' =>
            exfalso
            rw [hg, hr] at hndS hsS
            have h1 := hsS g (by simp)
            have h2 := hsS g' (by simp)
            obtain ⟨i, is, hi⟩ := List.exists_cons_of_ne_nil h2.1
            simp only [List.flatten_cons] at hndS
            rw [List.nodup_append] at hndS
            have hsub : g.Subperm (List.range n) :=
              List.subperm_of_subset hndS.1 fun x hx => List.mem_range.mpr (h1.2 x hx)
            have hp := hsub.perm_of_length_le (by simp [hgl])
            have : i ∈ g := hp.mem_iff.mpr (List.mem_range.mpr (h2.2 i (by rw [hi]; simp)))
            exact hndS.2.2 i this i (by rw [hi]; simp) rfl
        rw [hrest] at hg
        have hlen : (sortBranches brs).length = 1 := by
          have := congrArg List.length hg
          simpa [sets] using this
        have hlen' : brs.length = 1 := by rw [← hperm.length_eq]; exact hlen
        obtain ⟨d, hd⟩ := List.length_eq_one_iff.mp hlen'
        obtain ⟨d', hd'⟩ := List.length_eq_one_iff.mp hlen
        have : d' = d := by
          have := (hmem d').mp (by rw [hd']; simp)
          rw [hd] at this
          simpa using this
        subst this
        refine hfull d' hd ?_
        rw [hd'] at hg
        simp only [sets, List.map_cons, List.map_nil, List.cons.injEq, and_true] at hg
        rw [← hgl, ← hg]
        simp
    obtain ⟨chain, hc⟩ := hdef
    obtain ⟨g1, g2⟩ := chain_good hn hmax hc hl hndS hsS hloc
    obtain ⟨h1, h2⟩ := new_ok hb g1
    rw [hc]
    exact ⟨_, rfl, h1, fun it => by rw [h2, g2]; exact (hfr it).append_left _⟩

theorem constAsg_write (e : Nat) (val : Nat → α) (it : Nat) : Asg.write it ⟨val, constPat e, true⟩ = some (e, val it, true) := by
  simp [Asg.write, constPat, Pat.eval, Lin.eval]

/-- the second `createConditionalContribution` adds its contribution -/
theorem constContr_ok {n : Nat} (hmax : n - 1 ≤ sizeMax) {b : Body α} (hb : BodyOk n b) (e : Nat) {its : List Nat}
    (hlt : ∀ i ∈ its, i < n) (hne : its ≠ []) (val : Nat → α) :
    ∃ b', constContr e its (n - 1) val b = some b' ∧ BodyOk n b' ∧
      ∀ it, (b'.effect it).Perm (b.effect it ++ if it ∈ its then [(e, val it, true)] else []) := by
  rw [constContr, if_neg hne]
  have hloc : Located n [its] [(⟨val, constPat e, true⟩ : Asg α)] := by
    intro it _ p hp _
    simp only [List.zip_cons_cons, List.zip_nil_left, List.mem_singleton] at hp
    subst hp
    rw [constAsg_write]
    simp
  have hfr : ∀ it, fresh it [its] [(⟨val, constPat e, true⟩ : Asg α)] = if it ∈ its then [(e, val it, true)] else [] := by
    intro it
    by_cases hi : it ∈ its <;> simp [fresh, hi, constAsg_write]
  cases hf : findIfElse b.ifs [its] with
  | some f =>
    obtain ⟨h1, h2⟩ := reuse_ok hb hf (by simp) hloc
    exact ⟨_, rfl, h1, fun it => by rw [← hfr]; exact h2 it⟩
  | none =>
    obtain ⟨g1, g2⟩ := single_good (n := n) hmax hne (by omega) (fun i hi => by have := hlt i hi; omega) hloc
    obtain ⟨h1, h2⟩ := new_ok hb g1
    exact ⟨_, rfl, h1, fun it => by rw [← hfr, ← g2, h2]⟩

theorem empty_ok (n : Nat) : BodyOk n (⟨[], []⟩ : Body α) where
  good := by simp
  used := by simp
  bound := by simp
  direct := by simp [directs]

end Verif.Loops
