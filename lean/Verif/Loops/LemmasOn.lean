import Verif.Loops.LemmasFor1Run
import Verif.Loops.LemmasHess

/-
Loop bodies which are only run at some of the iterations: each step of the construction of a body adds its contribution at the iterations of a set `S`.
The lemmas are those of `Lemmas`, `LemmasBody`, `LemmasCond` and `LemmasRun` with the set in place of all iterations.
-/
namespace Verif.Loops

open Verif.Index Verif.Ranges For1

variable {α : Type}

/-- a usable if-else: at each iteration of `S` the branch with that iteration runs, and its operations
have locations -/
structure GoodOn (S : List Nat) (f : IfElse α) : Prop where
  printable : Printable f
  own : ∀ it ∈ S, ∀ p b, f[p]? = some b → it ∈ b.iters → runChain it (f.map Br.toBranch) = some p
  other : ∀ it ∈ S, (∀ b ∈ f, it ∉ b.iters) → runChain it (f.map Br.toBranch) = none
  located : ∀ it ∈ S, ∀ b ∈ f, it ∈ b.iters → ∀ a ∈ b.body, a.write it ≠ none

theorem runBrsOn_effect {S : List Nat} {f : IfElse α} (h : GoodOn S f) {it : Nat} (hi : it ∈ S) :
    runBrs it f = some (effect it f) := by
  rw [runBrs_chain it f h.printable]
  by_cases hb : ∃ b ∈ f, it ∈ b.iters
  · obtain ⟨b, hb, hit⟩ := hb
    obtain ⟨p, hp⟩ := List.getElem?_of_mem hb
    rw [h.own it hi p b hp hit]
    simp only [hp, Option.bind_some]
    rw [runAsgs_some it _ (h.located it hi b hb hit), effect_single it f p b hp hit]
    intro q b' hq hi'
    have h1 := h.own it hi q b' hq hi'
    rw [h.own it hi p b hp hit] at h1
    exact (Option.some.inj h1).symm
  · have hb' : ∀ b ∈ f, it ∉ b.iters := fun b hb'' hi' => hb ⟨b, hb'', hi'⟩
    rw [h.other it hi hb']
    simp only
    rw [effect]
    congr 1
    symm
    rw [List.flatMap_eq_nil_iff]
    intro b hb''
    rw [if_neg (hb' b hb'')]

/-- a usable loop body for the iterations of `S` -/
structure BodyOkOn (S : List Nat) (b : Body α) : Prop where
  good : ∀ f ∈ b.ifs, GoodOn S f
  used : ∀ f < b.ifs.length, Arg.endIf f ∈ b.args
  bound : ∀ f, Arg.endIf f ∈ b.args → f < b.ifs.length
  direct : ∀ it ∈ S, ∀ a ∈ directs b.args, a.write it ≠ none

theorem bodyOn_runs {S : List Nat} {b : Body α} (h : BodyOkOn S b) {it : Nat} (hi : it ∈ S) :
    ∃ ws, runArgs it b.ifs [] b.args = some ws ∧ ws.Perm (b.effect it) := by
  obtain ⟨ws, hws, hp⟩ := runArgs_perm it b.ifs (fun f => ((b.ifs[f]?).map (effect it)).getD []) (by
    intro f brs hf
    rw [hf, runBrsOn_effect (h.good brs (List.mem_of_getElem? hf)) hi]
    rfl) [] b.args (h.direct it hi) h.bound
  refine ⟨ws, hws, hp.trans ?_⟩
  rw [Body.effect]
  refine List.Perm.append_left _ ?_
  rw [← flatMap_range]
  apply List.Perm.flatMap_right
  rw [List.perm_ext_iff_of_nodup (order_nodup _ _) List.nodup_range]
  intro f
  rw [mem_order, List.mem_range]
  exact ⟨fun hf => h.bound f hf.2, fun hf => ⟨by simp, h.used f hf⟩⟩

/-- the operations have locations -/
def LocatedOn (S : List Nat) (sets : List (List Nat)) (asgs : List (Asg α)) : Prop :=
  ∀ it ∈ S, ∀ p ∈ sets.zip asgs, it ∈ p.1 → p.2.write it ≠ none

theorem addBrsOn_good {S : List Nat} {brs : IfElse α} {asgs : List (Asg α)} (h : GoodOn S brs) (hl : brs.length = asgs.length)
    (hloc : LocatedOn S (brs.map (·.iters)) asgs) : GoodOn S (addBrs brs asgs) where
  printable := by
    intro b hb c hc
    obtain ⟨p, hp⟩ := List.getElem?_of_mem hb
    obtain ⟨b', a, h1, -, rfl⟩ := addBrs_get brs asgs p b hp
    exact h.printable b' (List.mem_of_getElem? h1) c hc
  own := by
    intro it hi p b hb hit
    obtain ⟨b', a, h1, -, rfl⟩ := addBrs_get brs asgs p b hb
    rw [addBrs_branches brs asgs hl]
    exact h.own it hi p b' h1 hit
  other := by
    intro it hi hno
    rw [addBrs_branches brs asgs hl]
    apply h.other it hi
    intro b hb hit
    obtain ⟨p, hp⟩ := List.getElem?_of_mem hb
    have hpl : p < brs.length := (List.getElem?_eq_some_iff.mp hp).1
    have ha : asgs[p]? = some asgs[p] := List.getElem?_eq_getElem (by omega)
    refine hno { b with body := b.body ++ [asgs[p]] } (List.mem_of_getElem? (i := p) ?_) hit
    rw [addBrs, List.getElem?_zipWith, hp, ha]
  located := by
    intro it hi b hb hit a ha
    obtain ⟨p, hp⟩ := List.getElem?_of_mem hb
    obtain ⟨b', a', h1, h2, rfl⟩ := addBrs_get brs asgs p b hp
    simp only [List.mem_append, List.mem_singleton] at ha
    rcases ha with ha | rfl
    · exact h.located it hi b' (List.mem_of_getElem? h1) hit a ha
    · refine hloc it hi (b'.iters, a) (List.mem_of_getElem? (i := p) ?_) hit
      rw [List.getElem?_zip_eq_some]
      simp [h1, h2]

/-- operations are added to an existing if-else -/
theorem reuseOn_ok {S : List Nat} {b : Body α} (hb : BodyOkOn S b) {sets : List (List Nat)} {asgs : List (Asg α)} {f : Nat}
    (hf : findIfElse b.ifs sets = some f) (hl : sets.length = asgs.length) (hloc : LocatedOn S sets asgs) :
    BodyOkOn S ⟨b.args ++ [.endIf f], addTo f asgs b.ifs⟩ ∧
      ∀ it, (Body.effect it ⟨b.args ++ [.endIf f], addTo f asgs b.ifs⟩).Perm (b.effect it ++ fresh it sets asgs) := by
  obtain ⟨brs, hbrs, rfl⟩ := findIfElse_some hf
  have hl' : brs.length = asgs.length := by simpa using hl
  obtain ⟨l₁, l₂, h1, h2⟩ := modify_eq_split b.ifs f (fun brs => addBrs brs asgs) brs hbrs
  rw [addTo_eq, h2]
  have hlen : (l₁ ++ addBrs brs asgs :: l₂).length = b.ifs.length := by rw [h1]; simp
  constructor
  · refine ⟨?_, ?_, ?_, ?_⟩
    · intro g hg
      simp only [List.mem_append, List.mem_cons] at hg
      rcases hg with hg | rfl | hg
      · exact hb.good g (by rw [h1]; simp [hg])
      · exact addBrsOn_good (hb.good brs (by rw [h1]; simp)) hl' hloc
      · exact hb.good g (by rw [h1]; simp [hg])
    · intro g hg
      simp only at hg
      rw [hlen] at hg
      exact List.mem_append_left _ (hb.used g hg)
    · intro g hg
      simp only [List.mem_append, List.mem_singleton] at hg
      simp only
      rw [hlen]
      rcases hg with hg | hg
      · exact hb.bound g hg
      · cases hg
        exact (List.getElem?_eq_some_iff.mp hbrs).1
    · intro it hi a ha
      rw [directs_append] at ha
      simp only [directs, List.append_nil] at ha
      exact hb.direct it hi a ha
  · intro it
    simp only [Body.effect]
    rw [directs_append]
    simp only [directs, List.append_nil]
    rw [h1, List.append_assoc]
    refine List.Perm.append_left _ ?_
    simp only [List.flatMap_append, List.flatMap_cons, List.append_assoc]
    refine List.Perm.append_left _ ?_
    refine ((addBrs_effect it brs asgs hl').append_right _).trans ?_
    rw [List.append_assoc]
    exact List.Perm.append_left _ List.perm_append_comm

/-- a new if-else is made -/
theorem newOn_ok {S : List Nat} {b : Body α} (hb : BodyOkOn S b) {g : IfElse α} (hg : GoodOn S g) :
    BodyOkOn S ⟨b.args ++ [.endIf b.ifs.length], b.ifs ++ [g]⟩ ∧
      ∀ it, Body.effect it ⟨b.args ++ [.endIf b.ifs.length], b.ifs ++ [g]⟩ = b.effect it ++ effect it g := by
  constructor
  · refine ⟨?_, ?_, ?_, ?_⟩
    · intro f hf
      simp only [List.mem_append, List.mem_singleton] at hf
      rcases hf with hf | rfl
      · exact hb.good f hf
      · exact hg
    · intro f hf
      simp only [List.length_append, List.length_singleton] at hf
      by_cases hf' : f < b.ifs.length
      · exact List.mem_append_left _ (hb.used f hf')
      · obtain rfl : f = b.ifs.length := by omega
        simp
    · intro f hf
      simp only [List.mem_append, List.mem_singleton] at hf
      simp only [List.length_append, List.length_singleton]
      rcases hf with hf | hf
      · have := hb.bound f hf; omega
      · cases hf; omega
    · intro it hi a ha
      rw [directs_append] at ha
      simp only [directs, List.append_nil] at ha
      exact hb.direct it hi a ha
  · intro it
    simp only [Body.effect]
    rw [directs_append]
    simp [directs]

/-- an operation without condition is added -/
theorem directOn_ok {S : List Nat} {b : Body α} (hb : BodyOkOn S b) {a : Asg α} (ha : ∀ it ∈ S, a.write it ≠ none) :
    BodyOkOn S ⟨b.args ++ [.direct a], b.ifs⟩ ∧
      ∀ it, (Body.effect it ⟨b.args ++ [.direct a], b.ifs⟩).Perm (b.effect it ++ (a.write it).toList) := by
  constructor
  · refine ⟨hb.good, fun f hf => List.mem_append_left _ (hb.used f hf), ?_, ?_⟩
    · intro f hf
      simp only [List.mem_append, List.mem_singleton, reduceCtorEq, or_false] at hf
      exact hb.bound f hf
    · intro it hi c hc
      rw [directs_append] at hc
      simp only [directs, List.mem_append, List.mem_singleton] at hc
      rcases hc with hc | rfl
      · exact hb.direct it hi c hc
      · exact ha it hi
  · intro it
    simp only [Body.effect]
    rw [directs_append, List.filterMap_append, List.append_assoc, List.append_assoc]
    refine List.Perm.append_left _ ?_
    have : ([a].filterMap (·.write it)) = (a.write it).toList := by
      cases h : a.write it <;> simp [h]
    rw [directs, directs, this]
    exact List.perm_append_comm

/-- an if-else made for disjoint iteration sets -/
theorem chainOn_good {S : List Nat} {m : Nat} (hmax : m ≤ sizeMax) (hS : ∀ i ∈ S, i ≤ m) {sets : List (List Nat)} {asgs : List (Asg α)} {chain : List Branch}
    (hc : buildChain m S.length true [] sets = some chain) (hl : sets.length = asgs.length) (hnd : sets.flatten.Nodup)
    (hs : ∀ s ∈ sets, s ≠ [] ∧ ∀ i ∈ s, i ∈ S) (hloc : LocatedOn S sets asgs) :
    GoodOn S (chain.zipWith (fun c a => (⟨c.iterations, c.cond, [a]⟩ : Br α)) asgs) ∧
    ∀ it, effect it (chain.zipWith (fun c a => (⟨c.iterations, c.cond, [a]⟩ : Br α)) asgs) = fresh it sets asgs := by
  have hsets := buildChain_sets _ _ _ _ _ _ hc
  have hlc : chain.length = asgs.length := by
    rw [← hl, ← hsets]; simp
  have hrun := chain_runs_own_branch m hmax S hS sets chain hc hnd (fun g hg => (hs g hg).1) fun g hg i hi => (hs g hg).2 i hi
  have hget : ∀ (p : Nat) (b : Br α), (chain.zipWith (fun c a => (⟨c.iterations, c.cond, [a]⟩ : Br α)) asgs)[p]? = some b →
      ∃ c a, chain[p]? = some c ∧ asgs[p]? = some a ∧ b = ⟨c.iterations, c.cond, [a]⟩ := by
    intro p b hb
    rw [List.getElem?_zipWith] at hb
    cases h1 : chain[p]? with
    | none => simp [h1] at hb
    | some c =>
      cases h2 : asgs[p]? with
      | none => simp [h1, h2] at hb
      | some a => exact ⟨c, a, rfl, rfl, by simpa [h1, h2] using hb.symm⟩
  refine ⟨⟨?_, ?_, ?_, ?_⟩, fun it => by rw [mkBrs_effect it chain asgs hlc, hsets]⟩
  · intro b hb c' hc'
    obtain ⟨p, hp⟩ := List.getElem?_of_mem hb
    obtain ⟨c, a, h1, h2, rfl⟩ := hget p b hp
    exact buildChain_printable m S.length hmax sets true [] chain hc (fun s hs' => ⟨(hs s hs').1, fun i hi => hS i ((hs s hs').2 i hi)⟩) (by simp) c (List.mem_of_getElem? h1) c' hc'
  · intro it hi p b hb hit
    obtain ⟨c, a, h1, h2, rfl⟩ := hget p b hb
    rw [mkBrs_branches chain asgs hlc]
    refine (hrun it hi).1 p c.iterations ?_ hit
    rw [← hsets, List.getElem?_map, h1]
    rfl
  · intro it hi hno
    rw [mkBrs_branches chain asgs hlc]
    refine (hrun it hi).2 ?_
    intro s hs' hit
    rw [← hsets, List.mem_map] at hs'
    obtain ⟨c, hcm, rfl⟩ := hs'
    obtain ⟨p, hp⟩ := List.getElem?_of_mem hcm
    have hpl : p < chain.length := (List.getElem?_eq_some_iff.mp hp).1
    have ha : asgs[p]? = some asgs[p] := List.getElem?_eq_getElem (by omega)
    refine hno ⟨c.iterations, c.cond, [asgs[p]]⟩ (List.mem_of_getElem? (i := p) ?_) hit
    rw [List.getElem?_zipWith, hp, ha]
  · intro it hi b hb hit a' ha'
    obtain ⟨p, hp⟩ := List.getElem?_of_mem hb
    obtain ⟨c, a, h1, h2, rfl⟩ := hget p b hp
    simp only [List.mem_singleton] at ha'
    subst ha'
    refine hloc it hi (c.iterations, a') (List.mem_of_getElem? (i := p) ?_) hit
    rw [List.getElem?_zip_eq_some]
    exact ⟨by rw [← hsets, List.getElem?_map, h1]; rfl, h2⟩

/-- an if with one branch -/
theorem singleOn_good {S : List Nat} {its : List Nat} {a : Asg α} {maxIter : Nat} (hmax : maxIter ≤ sizeMax) (hne : its ≠ [])
    (hm : ∀ i ∈ S, i ≤ maxIter) (hits : ∀ i ∈ its, i ≤ maxIter) (hloc : LocatedOn S [its] [a]) :
    GoodOn S [(⟨its, some (createIndexCondition its [] maxIter), [a]⟩ : Br α)] ∧
    ∀ it, effect it [(⟨its, some (createIndexCondition its [] maxIter), [a]⟩ : Br α)] = fresh it [its] [a] := by
  have hp := createIndexCondition_printable its [] maxIter hmax hits (by simp) hne
  refine ⟨⟨?_, ?_, ?_, ?_⟩, ?_⟩
  · intro b hb c hc
    simp only [List.mem_singleton] at hb
    subst hb
    simp only [Option.some.injEq] at hc
    rw [← hc]; exact hp
  · intro it hi p b hb hit
    have hp0 : p = 0 := by
      have := (List.getElem?_eq_some_iff.mp hb).1
      simpa using this
    subst hp0
    simp only [List.getElem?_cons_zero, Option.some.injEq] at hb
    subst hb
    obtain ⟨e, he, h1, -⟩ := condition_selects its [] maxIter hmax hits (by simp) hne it (hm it hi)
    simp [Br.toBranch, runChain, he, h1 hit]
  · intro it hi hno
    have hit : it ∉ its := hno _ (List.mem_singleton.mpr rfl)
    obtain ⟨e, he, -, h1⟩ := condition_selects its [] maxIter hmax hits (by simp) hne it (hm it hi)
    simp [Br.toBranch, runChain, he, h1 hit (by simp)]
  · intro it hi b hb hit a' ha'
    simp only [List.mem_singleton] at hb
    subst hb
    simp only [List.mem_singleton] at ha'
    subst ha'
    exact hloc it hi (its, a') (by simp) hit
  · intro it
    by_cases hi : it ∈ its
    · cases hw : a.write it <;> simp [effect, fresh, hi, hw]
    · simp [effect, fresh, hi]

/-- `createConditionalContribution` adds its contributions -/
theorem condContrOn_ok {S : List Nat} {m : Nat} (hmax : m ≤ sizeMax) (hS : ∀ i ∈ S, i ≤ m) {b : Body α} (hb : BodyOkOn S b) {brs : List (BrData α)}
    (hs : ∀ d ∈ brs, Sorted d.locs) (hlt : ∀ d ∈ brs, ∀ p ∈ d.locs, p.1 ∈ S) (hne : ∀ d ∈ brs, d.locs ≠ [])
    (hnd : (sets brs).flatten.Nodup) (hb0 : brs ≠ []) (hfull : ∀ d, brs = [d] → d.locs.length ≠ S.length) :
    ∃ b', condContr brs m S.length b = some b' ∧ BodyOkOn S b' ∧
      ∀ it, (b'.effect it).Perm (b.effect it ++ brs.filterMap fun d => (locAt d.locs it).map fun e => (e, d.val it, true)) := by
  have hperm := sortBranches_perm brs hnd hne
  have hmem : ∀ d, d ∈ sortBranches brs ↔ d ∈ brs := fun d => hperm.mem_iff
  have hl : (sets (sortBranches brs)).length =
      ((sortBranches brs).map fun d => (⟨d.val, locPat d.locs, true⟩ : Asg α)).length := by simp [sets]
  have hloc : LocatedOn S (sets (sortBranches brs)) ((sortBranches brs).map fun d => (⟨d.val, locPat d.locs, true⟩ : Asg α)) := by
    intro it _ p hp hit
    obtain ⟨q, hq⟩ := List.getElem?_of_mem hp
    rw [List.getElem?_zip_eq_some] at hq
    simp only [sets, List.getElem?_map, Option.map_eq_some_iff] at hq
    obtain ⟨⟨d, hd, h1⟩, d', hd', h2⟩ := hq
    rw [hd] at hd'
    obtain rfl := Option.some.inj hd'
    rw [← h1] at hit
    obtain ⟨r, hr, rfl⟩ := List.mem_map.mp hit
    rw [← h2, locAsg_write (hs d ((hmem d).mp (List.mem_of_getElem? hd))) hr]
    simp
  have hfr : ∀ it, (fresh it (sets (sortBranches brs)) ((sortBranches brs).map fun d => (⟨d.val, locPat d.locs, true⟩ : Asg α))).Perm
      (brs.filterMap fun d => (locAt d.locs it).map fun e => (e, d.val it, true)) := by
    intro it
    rw [fresh_sorted it _ fun d hd => hs d ((hmem d).mp hd)]
    exact hperm.filterMap _
  rw [condContr]
  have hany : (brs.any (fun d => d.locs.isEmpty) || brs.isEmpty) = false := by
    rw [Bool.or_eq_false_iff]
    refine ⟨?_, by simpa using hb0⟩
    rw [List.any_eq_false]
    intro d hd
    simpa using hne d hd
  rw [hany]
  simp only [Bool.false_eq_true, if_false]
  change ∃ b', (match findIfElse b.ifs (sets (sortBranches brs)) with
    | some f => some (⟨b.args ++ [.endIf f], addTo f _ b.ifs⟩ : Body α)
    | none => match buildChain m S.length true [] (sets (sortBranches brs)) with
      | none => none
      | some chain => some ⟨b.args ++ [.endIf b.ifs.length], b.ifs ++ [chain.zipWith _ _]⟩) = some b' ∧ _
  cases hf : findIfElse b.ifs (sets (sortBranches brs)) with
  | some f =>
    obtain ⟨h1, h2⟩ := reuseOn_ok hb hf hl hloc
    exact ⟨_, rfl, h1, fun it => (h2 it).trans ((hfr it).append_left _)⟩
  | none =>
    have hndS : (sets (sortBranches brs)).flatten.Nodup := by
      refine (List.Perm.flatten ?_).nodup_iff.mpr hnd
      exact hperm.map _
    have hsS : ∀ s ∈ sets (sortBranches brs), s ≠ [] ∧ ∀ i ∈ s, i ∈ S := by
      intro s hs'
      obtain ⟨d, hd, rfl⟩ := List.mem_map.mp hs'
      refine ⟨by simpa using hne d ((hmem d).mp hd), ?_⟩
      intro i hi
      obtain ⟨p, hp, rfl⟩ := List.mem_map.mp hi
      exact hlt d ((hmem d).mp hd) p hp
    have hdef : ∃ chain, buildChain m S.length true [] (sets (sortBranches brs)) = some chain := by
      cases hc : buildChain m S.length true [] (sets (sortBranches brs)) with
      | some c => exact ⟨c, rfl⟩
      | none =>
        exfalso
        obtain ⟨g, rest, hg, hgl⟩ := (chain_defined_iff _ _ _).mp hc
        -- the first branch has all iterations, so it is the only one
        have hrest : rest = [] := by
          cases hr : rest with
          | nil => rfl
          | cons g' rest' =>
            exfalso
            rw [hg, hr] at hndS hsS
            have h1 := hsS g (by simp)
            have h2 := hsS g' (by simp)
            obtain ⟨i, is, hi⟩ := List.exists_cons_of_ne_nil h2.1
            simp only [List.flatten_cons] at hndS
            rw [List.nodup_append] at hndS
            have hsub : g.Subperm S := List.subperm_of_subset hndS.1 fun x hx => h1.2 x hx
            have hp := hsub.perm_of_length_le (by omega)
            have : i ∈ g := hp.mem_iff.mpr (h2.2 i (by rw [hi]; simp))
            exact hndS.2.2 i this i (by rw [hi]; simp) rfl
        rw [hrest] at hg
        have hlen : (sortBranches brs).length = 1 := by
          have := congrArg List.length hg
          simpa [sets] using this
        have hlen' : brs.length = 1 := by rw [← hperm.length_eq]; exact hlen
        obtain ⟨d, hd⟩ := List.length_eq_one_iff.mp hlen'
        obtain ⟨d', hd'⟩ := List.length_eq_one_iff.mp hlen
        have : d' = d := by
          have := (hmem d').mp (by rw [hd']; simp)
          rw [hd] at this
          simpa using this
        subst this
        refine hfull d' hd ?_
        rw [hd'] at hg
        simp only [sets, List.map_cons, List.map_nil, List.cons.injEq, and_true] at hg
        rw [← hgl, ← hg]
        simp
    obtain ⟨chain, hc⟩ := hdef
    obtain ⟨g1, g2⟩ := chainOn_good hmax hS hc hl hndS hsS hloc
    obtain ⟨h1, h2⟩ := newOn_ok hb g1
    rw [hc]
    exact ⟨_, rfl, h1, fun it => by rw [h2, g2]; exact (hfr it).append_left _⟩

/-- the second `createConditionalContribution` adds its contribution -/
theorem constContrOn_ok {S : List Nat} {m : Nat} (hmax : m ≤ sizeMax) (hS : ∀ i ∈ S, i ≤ m) {b : Body α} (hb : BodyOkOn S b) (e : Nat) {its : List Nat}
    (hlt : ∀ i ∈ its, i ∈ S) (hne : its ≠ []) (val : Nat → α) :
    ∃ b', constContr e its m val b = some b' ∧ BodyOkOn S b' ∧
      ∀ it, (b'.effect it).Perm (b.effect it ++ if it ∈ its then [(e, val it, true)] else []) := by
  rw [constContr, if_neg hne]
  have hloc : LocatedOn S [its] [(⟨val, constPat e, true⟩ : Asg α)] := by
    intro it _ p hp _
    simp only [List.zip_cons_cons, List.zip_nil_left, List.mem_singleton] at hp
    subst hp
    rw [constAsg_write]
    simp
  have hfr : ∀ it, fresh it [its] [(⟨val, constPat e, true⟩ : Asg α)] = if it ∈ its then [(e, val it, true)] else [] := by
    intro it
    by_cases hi : it ∈ its <;> simp [fresh, hi, constAsg_write]
  cases hf : findIfElse b.ifs [its] with
  | some f =>
    obtain ⟨h1, h2⟩ := reuseOn_ok hb hf (by simp) hloc
    exact ⟨_, rfl, h1, fun it => by rw [← hfr]; exact h2 it⟩
  | none =>
    obtain ⟨g1, g2⟩ := singleOn_good hmax hne hS (fun i hi => hS i (hlt i hi)) hloc
    obtain ⟨h1, h2⟩ := newOn_ok hb g1
    exact ⟨_, rfl, h1, fun it => by rw [← hfr, ← g2, h2]⟩

theorem emptyOn_ok (S : List Nat) : BodyOkOn S (⟨[], []⟩ : Body α) where
  good := by simp
  used := by simp
  bound := by simp
  direct := by simp [directs]

/-- the body executes exactly these contributions, all of them adding (or all of them assigning) -/
def MeetsOn (S : List Nat) (add : Bool) (b : Body α) (cs : List (Contr α)) : Prop :=
  BodyOkOn S b ∧ ∀ it ∈ S, (b.effect it).Perm ((atIter it cs).map fun p => (p.1, p.2, add))

theorem meetsOn_empty (S : List Nat) (add : Bool) : MeetsOn S add (⟨[], []⟩ : Body α) [] :=
  ⟨emptyOn_ok S, fun it _ => by simp [Body.effect, directs, atIter]⟩

theorem meetsOn_condContr {S : List Nat} {m : Nat} (hmax : m ≤ sizeMax) (hS : ∀ i ∈ S, i ≤ m) {b : Body α} {cs : List (Contr α)} (hb : MeetsOn S true b cs) {brs : List (BrData α)}
    (hs : ∀ d ∈ brs, Sorted d.locs) (hlt : ∀ d ∈ brs, ∀ p ∈ d.locs, p.1 ∈ S) (hne : ∀ d ∈ brs, d.locs ≠ [])
    (hnd : (sets brs).flatten.Nodup) (hb0 : brs ≠ []) (hfull : ∀ d, brs = [d] → d.locs.length ≠ S.length) :
    ∃ b', condContr brs m S.length b = some b' ∧ MeetsOn S true b' (cs ++ brs.map fun d => ⟨d.val, locAt d.locs⟩) := by
  obtain ⟨b', h1, h2, h3⟩ := condContrOn_ok hmax hS hb.1 hs hlt hne hnd hb0 hfull
  refine ⟨b', h1, h2, fun it hit => (h3 it).trans ?_⟩
  rw [atIter, List.filterMap_append, List.map_append]
  refine (List.Perm.append_right _ (hb.2 it hit)).trans ?_
  refine List.Perm.append_left _ ?_
  rw [List.filterMap_map, List.map_filterMap]
  simp only [Function.comp_def, Option.map_map]
  exact List.Perm.refl _

theorem meetsOn_constContr {S : List Nat} {m : Nat} (hmax : m ≤ sizeMax) (hS : ∀ i ∈ S, i ≤ m) {b : Body α} {cs : List (Contr α)} (hb : MeetsOn S true b cs) (e : Nat) {its : List Nat}
    (hlt : ∀ i ∈ its, i ∈ S) (hne : its ≠ []) (val : Nat → α) :
    ∃ b', constContr e its m val b = some b' ∧ MeetsOn S true b' (cs ++ [⟨val, fun it => if it ∈ its then some e else none⟩]) := by
  obtain ⟨b', h1, h2, h3⟩ := constContrOn_ok hmax hS hb.1 e hlt hne val
  refine ⟨b', h1, h2, fun it hit => (h3 it).trans ?_⟩
  rw [atIter, List.filterMap_append, List.map_append]
  refine (List.Perm.append_right _ (hb.2 it hit)).trans ?_
  refine List.Perm.append_left _ ?_
  simp only [List.filterMap_cons, List.filterMap_nil]
  by_cases h : it ∈ its <;> simp [h]

theorem meetsOn_const {S : List Nat} {b : Body α} {cs : List (Contr α)} (hb : MeetsOn S true b cs) (e : Nat) (val : Nat → α) :
    MeetsOn S true ⟨b.args ++ [.direct ⟨val, constPat e, true⟩], b.ifs⟩ (cs ++ [⟨val, fun _ => some e⟩]) := by
  obtain ⟨h1, h2⟩ := directOn_ok hb.1 (a := ⟨val, constPat e, true⟩) fun it _ => by rw [constAsg_write]; simp
  refine ⟨h1, fun it hit => (h2 it).trans ?_⟩
  rw [atIter, List.filterMap_append, List.map_append, constAsg_write]
  refine (List.Perm.append_right _ (hb.2 it hit)).trans ?_
  simp only [Option.toList_some, List.filterMap_cons, List.filterMap_nil, Option.map_some]
  exact List.Perm.refl _

variable [CommRing α]

theorem meetsOn_iter {S : List Nat} {b : Body α} {cs : List (Contr α)} (hb : MeetsOn S true b cs) {it : Nat} (hit : it ∈ S) (out : Nat → α) :
    ∃ o, runAt b (some (it : Int)) out = some o ∧ ∀ e, o e = out e + csum cs e it := by
  obtain ⟨ws, hws, hp⟩ := bodyOn_runs hb.1 hit
  refine ⟨ws.foldl applyWrite out, ?_, fun e => ?_⟩
  · rw [runAt, Option.bind_some, if_pos (by omega), Int.toNat_natCast, runIter, hws]
    rfl
  · rw [foldl_add e ws]
    · congr 1
      rw [← addSum_atIter]
      exact ((hp.trans (hb.2 it hit)).map _).sum_eq
    · intro w hw
      have := (hp.trans (hb.2 it hit)).mem_iff.mp hw
      obtain ⟨p, _, rfl⟩ := List.mem_map.mp this
      rfl

theorem runLocalOn_ok {S : List Nat} {b : Body α} {cs : List (Contr α)} (hb : MeetsOn S true b cs) {g : ColGroup} (hs : Sorted g.cols) {j : Nat} {its : List Nat}
    (hj : (j, its) ∈ g.cols) (hits : ∀ it ∈ its, it ∈ S) (out : Nat → α) : ∀ k ≤ its.length,
    ∃ o, runLocal b g j k out = some o ∧ ∀ e, o e = out e + lsum (its.take k) (csum cs e)
  | 0, _ => ⟨out, rfl, fun e => by simp⟩
  | k + 1, hk => by
    obtain ⟨o, h1, h2⟩ := runLocalOn_ok hb hs hj hits out k (by omega)
    have hget : its[k]? = some its[k] := List.getElem?_eq_getElem (by omega)
    obtain ⟨o', g1, g2⟩ := meetsOn_iter hb (hits _ (List.mem_of_getElem? hget)) o
    refine ⟨o', ?_, fun e => ?_⟩
    · rw [runLocal, h1, Option.bind_some, modelIt_eq hs hj hget, g1]
    · rw [g2, h2, List.take_add_one, hget, lsum_append, add_assoc]
      simp

/-- the function of a group adds the contributions of the iterations of the column -/
theorem runGroupOn_ok {S : List Nat} {b : Body α} {cs : List (Contr α)} (hb : MeetsOn S true b cs) {g : ColGroup} (hs : Sorted g.cols) {j : Nat} {its : List Nat}
    (hj : (j, its) ∈ g.cols) (hits : ∀ it ∈ its, it ∈ S) (out : Nat → α) :
    ∃ o, runGroup b g j out = some o ∧ ∀ e, o e = out e + lsum its (csum cs e) := by
  unfold runGroup
  cases hc : createsLoop g with
  | true =>
    simp only [if_true]
    rw [count_eq hs hj, Option.bind_some]
    obtain ⟨o, h1, h2⟩ := runLocalOn_ok hb hs hj hits out its.length (Nat.le_refl _)
    exact ⟨o, h1, fun e => by rw [h2, List.take_length]⟩
  | false =>
    simp only [Bool.false_eq_true, if_false]
    obtain ⟨it, rfl, h1⟩ := modelIt1_eq hs hc hj
    obtain ⟨o, g1, g2⟩ := meetsOn_iter hb (hits it (by simp)) out
    rw [h1]
    exact ⟨o, g1, fun e => by rw [g2]; simp⟩

end Verif.Loops
