import Verif.Loops.Lemmas

/-! Helper lemmas: each step of the construction of a loop body adds its contribution and changes nothing else. -/

namespace Verif.Loops

open Verif.Index Verif.Ranges

variable {α : Type}

/-- what new operations in the branches with the given iteration sets execute -/
def fresh (it : Nat) (sets : List (List Nat)) (asgs : List (Asg α)) : List (Write α) :=
  (sets.zip asgs).filterMap fun p => if it ∈ p.1 then p.2.write it else none

/-- the operations have locations -/
def Located (n : Nat) (sets : List (List Nat)) (asgs : List (Asg α)) : Prop :=
  ∀ it < n, ∀ p ∈ sets.zip asgs, it ∈ p.1 → p.2.write it ≠ none

def addBrs (brs : IfElse α) (asgs : List (Asg α)) : IfElse α :=
  brs.zipWith (fun b a => { b with body := b.body ++ [a] }) asgs

theorem addTo_eq (f : Nat) (asgs : List (Asg α)) (ifs : List (IfElse α)) :
    addTo f asgs ifs = ifs.modify f fun brs => addBrs brs asgs := rfl

theorem addBrs_branches : ∀ (brs : IfElse α) (asgs : List (Asg α)), brs.length = asgs.length →
    (addBrs brs asgs).map Br.toBranch = brs.map Br.toBranch
  | [], [], _ => rfl
  | b :: brs, a :: asgs, h => by
    have := addBrs_branches brs asgs (by simpa using h)
    simp only [addBrs, List.zipWith_cons_cons, List.map_cons] at this ⊢
    rw [this]
    rfl
  | [], _ :: _, h => by simp at h
  | _ :: _, [], h => by simp at h

theorem addBrs_get (brs : IfElse α) (asgs : List (Asg α)) (p : Nat) (b : Br α)
    (h : (addBrs brs asgs)[p]? = some b) : ∃ b' a, brs[p]? = some b' ∧ asgs[p]? = some a ∧
      b = { b' with body := b'.body ++ [a] } := by
  rw [addBrs, List.getElem?_zipWith] at h
  cases hb : brs[p]? with
  | none => simp [hb] at h
  | some b' =>
    cases ha : asgs[p]? with
    | none => simp [hb, ha] at h
    | some a => exact ⟨b', a, rfl, rfl, by simpa [hb, ha] using h.symm⟩

theorem addBrs_effect (it : Nat) : ∀ (brs : IfElse α) (asgs : List (Asg α)), brs.length = asgs.length →
    (effect it (addBrs brs asgs)).Perm (effect it brs ++ fresh it (brs.map (·.iters)) asgs)
  | [], [], _ => by simp [effect, addBrs, fresh]
  | b :: brs, a :: asgs, h => by
    have ih := addBrs_effect it brs asgs (by simpa using h)
    simp only [addBrs, effect, fresh, List.zipWith_cons_cons, List.map_cons, List.flatMap_cons,
      List.zip_cons_cons, List.filterMap_cons] at ih ⊢
    by_cases hi : it ∈ b.iters
    · simp only [hi, if_true, List.filterMap_append, List.filterMap_cons, List.filterMap_nil]
      cases hw : a.write it with
      | none =>
        simp only [List.append_nil, List.append_assoc]
        exact ih.append_left _
      | some w =>
        simp only [List.append_assoc]
        refine List.Perm.append_left _ ?_
        refine (ih.append_left [w]).trans ?_
        simp only [List.cons_append, List.nil_append]
        exact (List.perm_middle).symm
    · simpa only [hi, if_false, List.nil_append] using ih
  | [], _ :: _, h => by simp at h
  | _ :: _, [], h => by simp at h

theorem addBrs_good {n : Nat} {brs : IfElse α} {asgs : List (Asg α)} (h : Good n brs) (hl : brs.length = asgs.length)
    (hloc : Located n (brs.map (·.iters)) asgs) : Good n (addBrs brs asgs) where
  printable := by
    intro b hb c hc
    obtain ⟨p, hp⟩ := List.getElem?_of_mem hb
    obtain ⟨b', a, h1, -, rfl⟩ := addBrs_get brs asgs p b hp
    exact h.printable b' (List.mem_of_getElem? h1) c hc
  own := by
    intro it hi p b hb hit
    obtain ⟨b', a, h1, -, rfl⟩ := addBrs_get brs asgs p b hb
    rw [addBrs_branches brs asgs hl]
    exact h.own it hi p b' h1 hit
  other := by
    intro it hi hno
    rw [addBrs_branches brs asgs hl]
    apply h.other it hi
    intro b hb hit
    obtain ⟨p, hp⟩ := List.getElem?_of_mem hb
    have hpl : p < brs.length := (List.getElem?_eq_some_iff.mp hp).1
    have ha : asgs[p]? = some asgs[p] := List.getElem?_eq_getElem (by omega)
    refine hno { b with body := b.body ++ [asgs[p]] } (List.mem_of_getElem? (i := p) ?_) hit
    rw [addBrs, List.getElem?_zipWith, hp, ha]
  located := by
    intro it hi b hb hit a ha
    obtain ⟨p, hp⟩ := List.getElem?_of_mem hb
    obtain ⟨b', a', h1, h2, rfl⟩ := addBrs_get brs asgs p b hp
    simp only [List.mem_append, List.mem_singleton] at ha
    rcases ha with ha | rfl
    · exact h.located it hi b' (List.mem_of_getElem? h1) hit a ha
    · refine hloc it hi (b'.iters, a) (List.mem_of_getElem? (i := p) ?_) hit
      rw [List.getElem?_zip_eq_some]
      simp [h1, h2]

theorem modify_eq_split {β : Type} (l : List β) (f : Nat) (g : β → β) (x : β) (h : l[f]? = some x) :
    ∃ l₁ l₂, l = l₁ ++ x :: l₂ ∧ l.modify f g = l₁ ++ g x :: l₂ := by
  induction l generalizing f with
  | nil => simp at h
  | cons a l ih =>
    cases f with
    | zero =>
      simp only [List.getElem?_cons_zero, Option.some.injEq] at h
      subst h
      exact ⟨[], l, rfl, rfl⟩
    | succ f =>
      simp only [List.getElem?_cons_succ] at h
      obtain ⟨l₁, l₂, h1, h2⟩ := ih f h
      exact ⟨a :: l₁, l₂, by rw [h1]; rfl, by rw [List.modify_succ_cons, h2]; rfl⟩

theorem findIfElse_some {ifs : List (IfElse α)} {sets : List (List Nat)} {f : Nat} (h : findIfElse ifs sets = some f) :
    ∃ brs, ifs[f]? = some brs ∧ brs.map (·.iters) = sets := by
  rw [findIfElse, List.findIdx?_eq_some_iff_getElem] at h
  obtain ⟨h1, h2, -⟩ := h
  exact ⟨ifs[f], List.getElem?_eq_getElem h1, by simpa using h2⟩

/-- operations are added to an existing if-else -/
theorem reuse_ok {n : Nat} {b : Body α} (hb : BodyOk n b) {sets : List (List Nat)} {asgs : List (Asg α)} {f : Nat}
    (hf : findIfElse b.ifs sets = some f) (hl : sets.length = asgs.length) (hloc : Located n sets asgs) :
    BodyOk n ⟨b.args ++ [.endIf f], addTo f asgs b.ifs⟩ ∧
      ∀ it, (Body.effect it ⟨b.args ++ [.endIf f], addTo f asgs b.ifs⟩).Perm (b.effect it ++ fresh it sets asgs) := by
  obtain ⟨brs, hbrs, rfl⟩ := findIfElse_some hf
  have hl' : brs.length = asgs.length := by simpa using hl
  obtain ⟨l₁, l₂, h1, h2⟩ := modify_eq_split b.ifs f (fun brs => addBrs brs asgs) brs hbrs
  rw [addTo_eq, h2]
  have hlen : (l₁ ++ addBrs brs asgs :: l₂).length = b.ifs.length := by rw [h1]; simp
  constructor
  · refine ⟨?_, ?_, ?_, ?_⟩
    · intro g hg
      simp only [List.mem_append, List.mem_cons] at hg
      rcases hg with hg | rfl | hg
      · exact hb.good g (by rw [h1]; simp [hg])
      · exact addBrs_good (hb.good brs (by rw [h1]; simp)) hl' hloc
      · exact hb.good g (by rw [h1]; simp [hg])
    · intro g hg
      simp only at hg
      rw [hlen] at hg
      exact List.mem_append_left _ (hb.used g hg)
    · intro g hg
      simp only [List.mem_append, List.mem_singleton] at hg
      simp only
      rw [hlen]
      rcases hg with hg | hg
      · exact hb.bound g hg
      · cases hg
        exact (List.getElem?_eq_some_iff.mp hbrs).1
    · intro it hi a ha
      rw [directs_append] at ha
      simp only [directs, List.append_nil] at ha
      exact hb.direct it hi a ha
  · intro it
    simp only [Body.effect]
    rw [directs_append]
    simp only [directs, List.append_nil]
    rw [h1, List.append_assoc]
    refine List.Perm.append_left _ ?_
    simp only [List.flatMap_append, List.flatMap_cons, List.append_assoc]
    refine List.Perm.append_left _ ?_
    refine ((addBrs_effect it brs asgs hl').append_right _).trans ?_
    rw [List.append_assoc]
    exact List.Perm.append_left _ List.perm_append_comm

/-- a new if-else is made -/
theorem new_ok {n : Nat} {b : Body α} (hb : BodyOk n b) {g : IfElse α} (hg : Good n g) :
    BodyOk n ⟨b.args ++ [.endIf b.ifs.length], b.ifs ++ [g]⟩ ∧
      ∀ it, Body.effect it ⟨b.args ++ [.endIf b.ifs.length], b.ifs ++ [g]⟩ = b.effect it ++ effect it g := by
  constructor
  · refine ⟨?_, ?_, ?_, ?_⟩
    · intro f hf
      simp only [List.mem_append, List.mem_singleton] at hf
      rcases hf with hf | rfl
      · exact hb.good f hf
      · exact hg
    · intro f hf
      simp only [List.length_append, List.length_singleton] at hf
      by_cases hf' : f < b.ifs.length
      · exact List.mem_append_left _ (hb.used f hf')
      · obtain rfl : f = b.ifs.length := by omega
        simp
    · intro f hf
      simp only [List.mem_append, List.mem_singleton] at hf
      simp only [List.length_append, List.length_singleton]
      rcases hf with hf | hf
      · have := hb.bound f hf; omega
      · cases hf; omega
    · intro it hi a ha
      rw [directs_append] at ha
      simp only [directs, List.append_nil] at ha
      exact hb.direct it hi a ha
  · intro it
    simp only [Body.effect]
    rw [directs_append]
    simp [directs]

/-- an operation without condition is added -/
theorem direct_ok {n : Nat} {b : Body α} (hb : BodyOk n b) {a : Asg α} (ha : ∀ it < n, a.write it ≠ none) :
    BodyOk n ⟨b.args ++ [.direct a], b.ifs⟩ ∧
      ∀ it, (Body.effect it ⟨b.args ++ [.direct a], b.ifs⟩).Perm (b.effect it ++ (a.write it).toList) := by
  constructor
  · refine ⟨hb.good, fun f hf => List.mem_append_left _ (hb.used f hf), ?_, ?_⟩
    · intro f hf
      simp only [List.mem_append, List.mem_singleton, reduceCtorEq, or_false] at hf
      exact hb.bound f hf
    · intro it hi c hc
      rw [directs_append] at hc
      simp only [directs, List.mem_append, List.mem_singleton] at hc
      rcases hc with hc | rfl
      · exact hb.direct it hi c hc
      · exact ha it hi
  · intro it
    simp only [Body.effect]
    rw [directs_append, List.filterMap_append, List.append_assoc, List.append_assoc]
    refine List.Perm.append_left _ ?_
    have : ([a].filterMap (·.write it)) = (a.write it).toList := by
      cases h : a.write it <;> simp [h]
    rw [directs, directs, this]
    exact List.perm_append_comm

/-! ### new if-elses -/

theorem mkBrs_branches : ∀ (chain : List Branch) (asgs : List (Asg α)), chain.length = asgs.length →
    (chain.zipWith (fun c a => (⟨c.iterations, c.cond, [a]⟩ : Br α)) asgs).map Br.toBranch = chain
  | [], [], _ => rfl
  | c :: chain, a :: asgs, h => by
    rw [List.zipWith_cons_cons, List.map_cons, mkBrs_branches chain asgs (by simpa using h)]
    rfl
  | [], _ :: _, h => by simp at h
  | _ :: _, [], h => by simp at h

theorem mkBrs_effect (it : Nat) : ∀ (chain : List Branch) (asgs : List (Asg α)), chain.length = asgs.length →
    effect it (chain.zipWith (fun c a => (⟨c.iterations, c.cond, [a]⟩ : Br α)) asgs) =
      fresh it (chain.map (·.iterations)) asgs
  | [], [], _ => rfl
  | c :: chain, a :: asgs, h => by
    have ih := mkBrs_effect it chain asgs (by simpa using h)
    simp only [effect, fresh, List.zipWith_cons_cons, List.map_cons, List.flatMap_cons,
      List.zip_cons_cons, List.filterMap_cons] at ih ⊢
    rw [ih]
    by_cases hi : it ∈ c.iterations
    · simp only [hi, if_true, List.filterMap_nil]
      cases hw : a.write it <;> simp
    · simp [hi]
  | [], _ :: _, h => by simp at h
  | _ :: _, [], h => by simp at h

/-- the chains made by `buildChain` -/
theorem buildChain_sets (maxIter nLocal : Nat) : ∀ (sets : List (List Nat)) (first : Bool) (used : List Nat) (chain : List Branch),
    buildChain maxIter nLocal first used sets = some chain → chain.map (·.iterations) = sets
  | [], _, _, _, h => by simp [buildChain] at h; simp [← h]
  | its :: rest, first, used, chain, h => by
    rw [buildChain] at h
    split at h
    · split at h
      · simp at h
      · rw [Option.map_eq_some_iff] at h
        obtain ⟨c, hc, rfl⟩ := h
        simp [buildChain_sets maxIter nLocal rest _ _ c hc]
    · rw [Option.map_eq_some_iff] at h
      obtain ⟨c, hc, rfl⟩ := h
      simp [buildChain_sets maxIter nLocal rest _ _ c hc]

theorem createIndexCondition_printable (its used : List Nat) (maxIter : Nat) (hmax : maxIter ≤ sizeMax)
    (hits : ∀ i ∈ its, i ≤ maxIter) (hused : ∀ i ∈ used, i ≤ maxIter) (hne : its ≠ []) :
    printCond (createIndexCondition its used maxIter) ≠ none := by
  obtain ⟨e, he, -⟩ := condition_selects its used maxIter hmax hits hused hne 0 (Nat.zero_le _)
  rw [he]; simp

theorem buildChain_printable (maxIter nLocal : Nat) (hmax : maxIter ≤ sizeMax) : ∀ (sets : List (List Nat)) (first : Bool)
    (used : List Nat) (chain : List Branch), buildChain maxIter nLocal first used sets = some chain →
    (∀ s ∈ sets, s ≠ [] ∧ ∀ i ∈ s, i ≤ maxIter) → (∀ i ∈ used, i ≤ maxIter) →
    ∀ b ∈ chain, ∀ c, b.cond = some c → printCond c ≠ none
  | [], _, _, _, h, _, _ => by simp [buildChain] at h; simp [h]
  | its :: rest, first, used, chain, h, hs, hu => by
    rw [buildChain] at h
    split at h
    · split at h
      · simp at h
      · rw [Option.map_eq_some_iff] at h
        obtain ⟨c, hc, rfl⟩ := h
        intro b hb c' hc'
        rcases List.mem_cons.mp hb with rfl | hb
        · simp at hc'
        · exact buildChain_printable maxIter nLocal hmax rest _ _ c hc (fun s hs' => hs s (by simp [hs'])) hu b hb c' hc'
    · rw [Option.map_eq_some_iff] at h
      obtain ⟨c, hc, rfl⟩ := h
      intro b hb c' hc'
      have h1 := hs its (by simp)
      rcases List.mem_cons.mp hb with rfl | hb
      · simp only [Option.some.injEq] at hc'
        rw [← hc']
        exact createIndexCondition_printable its used maxIter hmax h1.2 hu h1.1
      · refine buildChain_printable maxIter nLocal hmax rest _ _ c hc (fun s hs' => hs s (by simp [hs'])) ?_ b hb c' hc'
        have : ∀ (l m : List Nat), (∀ i ∈ l, i ≤ maxIter) → (∀ i ∈ m, i ≤ maxIter) →
            ∀ i ∈ l.foldl setInsert m, i ≤ maxIter := by
          intro l
          induction l with
          | nil => intro m _ hm; exact hm
          | cons a l ih =>
            intro m hl hm
            rw [List.foldl_cons]
            refine ih _ (fun i hi => hl i (by simp [hi])) ?_
            intro i hi
            rw [mem_setInsert] at hi
            rcases hi with rfl | hi
            · exact hl i (by simp)
            · exact hm i hi
        exact this its used h1.2 hu

/-- an if-else made for disjoint iteration sets -/
theorem chain_good {n : Nat} (hn : 0 < n) (hmax : n - 1 ≤ sizeMax) {sets : List (List Nat)} {asgs : List (Asg α)} {chain : List Branch}
    (hc : buildChain (n - 1) n true [] sets = some chain) (hl : sets.length = asgs.length) (hnd : sets.flatten.Nodup)
    (hs : ∀ s ∈ sets, s ≠ [] ∧ ∀ i ∈ s, i < n) (hloc : Located n sets asgs) :
    Good n (chain.zipWith (fun c a => (⟨c.iterations, c.cond, [a]⟩ : Br α)) asgs) ∧
    ∀ it, effect it (chain.zipWith (fun c a => (⟨c.iterations, c.cond, [a]⟩ : Br α)) asgs) = fresh it sets asgs := by
  have hsets := buildChain_sets _ _ _ _ _ _ hc
  have hlc : chain.length = asgs.length := by
    rw [← hl, ← hsets]; simp
  have hrun := chain_runs_own_branch (n - 1) hmax (List.range n) (fun i hi => by
    rw [List.mem_range] at hi; omega) sets chain (by simpa using hc) hnd (fun g hg => (hs g hg).1)
    (fun g hg i hi => List.mem_range.mpr ((hs g hg).2 i hi))
  have hget : ∀ (p : Nat) (b : Br α), (chain.zipWith (fun c a => (⟨c.iterations, c.cond, [a]⟩ : Br α)) asgs)[p]? = some b →
      ∃ c a, chain[p]? = some c ∧ asgs[p]? = some a ∧ b = ⟨c.iterations, c.cond, [a]⟩ := by
    intro p b hb
    rw [List.getElem?_zipWith] at hb
    cases h1 : chain[p]? with
    | none => simp [h1] at hb
    | some c =>
      cases h2 : asgs[p]? with
      | none => simp [h1, h2] at hb
      | some a => exact ⟨c, a, rfl, rfl, by simpa [h1, h2] using hb.symm⟩
  refine ⟨⟨?_, ?_, ?_, ?_⟩, fun it => by rw [mkBrs_effect it chain asgs hlc, hsets]⟩
  · intro b hb c' hc'
    obtain ⟨p, hp⟩ := List.getElem?_of_mem hb
    obtain ⟨c, a, h1, h2, rfl⟩ := hget p b hp
    exact buildChain_printable (n - 1) n hmax sets true [] chain hc (fun s hs' => ⟨(hs s hs').1, fun i hi => by
      have := (hs s hs').2 i hi; omega⟩) (by simp) c (List.mem_of_getElem? h1) c' hc'
  · intro it hi p b hb hit
    obtain ⟨c, a, h1, h2, rfl⟩ := hget p b hb
    rw [mkBrs_branches chain asgs hlc]
    refine (hrun it (List.mem_range.mpr hi)).1 p c.iterations ?_ hit
    rw [← hsets, List.getElem?_map, h1]
    rfl
  · intro it hi hno
    rw [mkBrs_branches chain asgs hlc]
    refine (hrun it (List.mem_range.mpr hi)).2 ?_
    intro s hs' hit
    rw [← hsets, List.mem_map] at hs'
    obtain ⟨c, hcm, rfl⟩ := hs'
    obtain ⟨p, hp⟩ := List.getElem?_of_mem hcm
    have hpl : p < chain.length := (List.getElem?_eq_some_iff.mp hp).1
    have ha : asgs[p]? = some asgs[p] := List.getElem?_eq_getElem (by omega)
    refine hno ⟨c.iterations, c.cond, [asgs[p]]⟩ (List.mem_of_getElem? (i := p) ?_) hit
    rw [List.getElem?_zipWith, hp, ha]
  · intro it hi b hb hit a' ha'
    obtain ⟨p, hp⟩ := List.getElem?_of_mem hb
    obtain ⟨c, a, h1, h2, rfl⟩ := hget p b hp
    simp only [List.mem_singleton] at ha'
    subst ha'
    refine hloc it hi (c.iterations, a') (List.mem_of_getElem? (i := p) ?_) hit
    rw [List.getElem?_zip_eq_some]
    exact ⟨by rw [← hsets, List.getElem?_map, h1]; rfl, h2⟩

/-- an if with one branch -/
theorem single_good {n : Nat} {its : List Nat} {a : Asg α} {maxIter : Nat} (hmax : maxIter ≤ sizeMax) (hne : its ≠ [])
    (hm : n ≤ maxIter + 1) (hits : ∀ i ∈ its, i ≤ maxIter) (hloc : Located n [its] [a]) :
    Good n [(⟨its, some (createIndexCondition its [] maxIter), [a]⟩ : Br α)] ∧
    ∀ it, effect it [(⟨its, some (createIndexCondition its [] maxIter), [a]⟩ : Br α)] = fresh it [its] [a] := by
  have hp := createIndexCondition_printable its [] maxIter hmax hits (by simp) hne
  refine ⟨⟨?_, ?_, ?_, ?_⟩, ?_⟩
  · intro b hb c hc
    simp only [List.mem_singleton] at hb
    subst hb
    simp only [Option.some.injEq] at hc
    rw [← hc]; exact hp
  · intro it hi p b hb hit
    have hp0 : p = 0 := by
      have := (List.getElem?_eq_some_iff.mp hb).1
      simpa using this
    subst hp0
    simp only [List.getElem?_cons_zero, Option.some.injEq] at hb
    subst hb
    obtain ⟨e, he, h1, -⟩ := condition_selects its [] maxIter hmax hits (by simp) hne it (by omega)
    simp [Br.toBranch, runChain, he, h1 hit]
  · intro it hi hno
    have hit : it ∉ its := hno _ (List.mem_singleton.mpr rfl)
    obtain ⟨e, he, -, h1⟩ := condition_selects its [] maxIter hmax hits (by simp) hne it (by omega)
    simp [Br.toBranch, runChain, he, h1 hit (by simp)]
  · intro it hi b hb hit a' ha'
    simp only [List.mem_singleton] at hb
    subst hb
    simp only [List.mem_singleton] at ha'
    subst ha'
    exact hloc it hi (its, a') (by simp) hit
  · intro it
    by_cases hi : it ∈ its
    · cases hw : a.write it <;> simp [effect, fresh, hi, hw]
    · simp [effect, fresh, hi]

/-! ### locations -/

/-- location at an iteration -/
def locAt (locs : List (Nat × Nat)) (it : Nat) : Option Nat := (locs.find? fun p => p.1 == it).map (·.2)

theorem locAt_none {locs : List (Nat × Nat)} {it : Nat} : locAt locs it = none ↔ it ∉ locs.map (·.1) := by
  simp only [locAt, Option.map_eq_none_iff, List.find?_eq_none, beq_iff_eq, List.mem_map, not_exists, not_and]

theorem locAt_mem {locs : List (Nat × Nat)} {it e : Nat} (h : locAt locs it = some e) : (it, e) ∈ locs := by
  rw [locAt, Option.map_eq_some_iff] at h
  obtain ⟨p, hp, rfl⟩ := h
  have h1 := List.mem_of_find?_eq_some hp
  have h2 := List.find?_some hp
  simp only [beq_iff_eq] at h2
  rw [← h2]; exact h1

theorem locPat_eval {locs : List (Nat × Nat)} (hs : Sorted locs) {it e : Nat} (h : (it, e) ∈ locs) :
    (locPat locs).eval it = some (e : Int) := by
  have hs' : Sorted (locs.map fun p => (p.1, (p.2 : Int))) := by
    rw [Sorted, List.pairwise_map]
    exact hs
  exact detect_reproduces _ hs' (it, (e : Int)) (List.mem_map.mpr ⟨(it, e), h, rfl⟩)

theorem locAsg_write {locs : List (Nat × Nat)} (hs : Sorted locs) {it e : Nat} (h : (it, e) ∈ locs) (val : Nat → α) (add : Bool) :
    Asg.write it ⟨val, locPat locs, add⟩ = some (e, val it, add) := by
  rw [Asg.write, locPat_eval hs h]
  simp

theorem locAsg_fresh {locs : List (Nat × Nat)} (hs : Sorted locs) (it : Nat) (val : Nat → α) (add : Bool) :
    (if it ∈ locs.map (·.1) then Asg.write it ⟨val, locPat locs, add⟩ else none) =
      (locAt locs it).map fun e => (e, val it, add) := by
  cases h : locAt locs it with
  | none => rw [if_neg (locAt_none.mp h)]; rfl
  | some e =>
    have hm := locAt_mem h
    rw [if_pos (List.mem_map.mpr ⟨_, hm, rfl⟩), locAsg_write hs hm]
    rfl

theorem located_single {n : Nat} {locs : List (Nat × Nat)} (hs : Sorted locs) (val : Nat → α) (add : Bool) :
    Located n [locs.map (·.1)] [⟨val, locPat locs, add⟩] := by
  intro it _ p hp hit
  simp only [List.zip_cons_cons, List.zip_nil_left, List.mem_singleton] at hp
  subst hp
  obtain ⟨q, hq, hqi⟩ := List.mem_map.mp hit
  subst hqi
  rw [locAsg_write hs hq]
  simp

/-- `createLoopResult` adds its contribution -/
theorem loopResult_ok {n : Nat} (hmax : n - 1 ≤ sizeMax) {b : Body α} (hb : BodyOk n b) {locs : List (Nat × Nat)}
    (hs : Sorted locs) (hn : ∀ p ∈ locs, p.1 < n) (hne : locs ≠ []) (val : Nat → α) (add : Bool) :
    ∃ b', loopResult locs n val (locPat locs) add b = some b' ∧ BodyOk n b' ∧
      ∀ it < n, (b'.effect it).Perm (b.effect it ++ ((locAt locs it).map fun e => (e, val it, add)).toList) := by
  rw [loopResult]
  simp only
  by_cases hfull : locs.length = n
  · rw [if_pos hfull]
    have hall : ∀ it < n, ∃ e, (it, e) ∈ locs := by
      intro it hit
      have hnd : (locs.map (·.1)).Nodup := by
        rw [List.Nodup, List.pairwise_map]
        exact hs.imp fun h => by omega
      have hsub : (locs.map (·.1)).Subperm (List.range n) := by
        refine List.subperm_of_subset hnd ?_
        intro i hi
        obtain ⟨p, hp, rfl⟩ := List.mem_map.mp hi
        exact List.mem_range.mpr (hn p hp)
      have hperm := hsub.perm_of_length_le (by simp [hfull])
      have : it ∈ locs.map (·.1) := hperm.mem_iff.mpr (List.mem_range.mpr hit)
      obtain ⟨p, hp, rfl⟩ := List.mem_map.mp this
      exact ⟨p.2, hp⟩
    obtain ⟨h1, h2⟩ := direct_ok hb (a := ⟨val, locPat locs, add⟩) fun it hit => by
      obtain ⟨e, he⟩ := hall it hit
      rw [locAsg_write hs he]; simp
    refine ⟨_, rfl, h1, fun it hit => ?_⟩
    refine (h2 it).trans ?_
    obtain ⟨e, he⟩ := hall it hit
    have := locAsg_fresh hs it val add
    rw [if_pos (List.mem_map.mpr ⟨_, he, rfl⟩)] at this
    rw [this]
  · rw [if_neg hfull]
    have hne' : locs.map (·.1) ≠ [] := by simpa using hne
    rw [if_neg hne']
    have hfr : ∀ it, fresh it [locs.map (·.1)] [(⟨val, locPat locs, add⟩ : Asg α)] =
        ((locAt locs it).map fun e => (e, val it, add)).toList := by
      intro it
      have := locAsg_fresh hs it val add
      simp only [fresh, List.zip_cons_cons, List.zip_nil_left, List.filterMap_cons, List.filterMap_nil]
      rw [this]
      cases locAt locs it <;> rfl
    cases hf : findIfElse b.ifs [locs.map (·.1)] with
    | some f =>
      obtain ⟨h1, h2⟩ := reuse_ok hb hf (by simp) (located_single hs val add)
      exact ⟨_, rfl, h1, fun it _ => by rw [← hfr]; exact h2 it⟩
    | none =>
      have hits : ∀ i ∈ locs.map (·.1), i ≤ n - 1 := by
        intro i hi
        obtain ⟨p, hp, rfl⟩ := List.mem_map.mp hi
        have := hn p hp
        omega
      obtain ⟨g1, g2⟩ := single_good (n := n) hmax hne' (by omega) hits (located_single hs val add)
      obtain ⟨h1, h2⟩ := new_ok hb g1
      exact ⟨_, rfl, h1, fun it _ => by rw [← hfr, ← g2, h2]⟩

end Verif.Loops
