import Verif.Deriv.Lemmas
/-
Lemmas about the assembly of sparse derivatives from one function per key.
-/
namespace Verif.Deriv

/-- the function of every key gives the values `val` -/
def Good {V : Type} (fn : Fun V) (args : Args V) (val : Nat → Nat → V) (req : List (Nat × Nat)) : Prop :=
  ∀ k vs, (k, vs) ∈ groups req → fn k args = some (vs.map (val k))

def loc (req : List (Nat × Nat)) (k i : Nat) : Nat := (locate req k i).getD 0

def orderedOf (ls : List (Option Nat)) : Bool := match isOrdered ls with | .ok b => b | .error _ => false

def info (req : List (Nat × Nat)) (g : Nat × List Nat) : Info :=
  ⟨g.1, g.2, (g.2.map (loc req g.1)).map some, orderedOf ((g.2.map (loc req g.1)).map some)⟩

theorem loc_get {req : List (Nat × Nat)} {k i : Nat} (h : (k, i) ∈ req) : req[loc req k i]? = some (k, i) := by
  obtain ⟨l, hl⟩ := locate_mem h
  rw [loc, hl]
  exact locate_some hl

theorem locate_loc {req : List (Nat × Nat)} {g : Nat × List Nat} (hg : g ∈ groups req) :
    g.2.map (locate req g.1) = (g.2.map (loc req g.1)).map some := by
  rw [List.map_map]
  refine List.map_congr_left fun i hi => ?_
  have hm := (mem_groups (k := g.1) (vs := g.2)).1 hg
  rw [hm.1, mem_grp] at hi
  obtain ⟨l, hl⟩ := locate_mem hi
  simp [loc, hl]

theorem group_ne {req : List (Nat × Nat)} {g : Nat × List Nat} (hg : g ∈ groups req) : g.2 ≠ [] :=
  ((mem_groups (k := g.1) (vs := g.2)).1 hg).2

theorem infos_ok (req : List (Nat × Nat)) : infos req = .ok ((groups req).map (info req)) := by
  refine mapE_ok _ fun g hg => ?_
  have hne : g.2.map (loc req g.1) ≠ [] := by simpa using group_ne hg
  obtain ⟨b, hb, _⟩ := isOrdered_ok hne
  rw [infoOf, locate_loc hg]
  simp only [hb, info, orderedOf]

/-- locations of an ordered group -/
theorem info_ordered {req : List (Nat × Nat)} {g : Nat × List Nat} (hg : g ∈ groups req)
    (ho : (info req g).ordered = true) : ∃ l ls, g.2.map (loc req g.1) = l :: ls ∧
      ∀ (i : Nat), ∀ l', (l :: ls)[i]? = some l' → l' = l + i := by
  have hne : g.2.map (loc req g.1) ≠ [] := by simpa using group_ne hg
  obtain ⟨b, hb, hall⟩ := isOrdered_ok hne
  have : b = true := by
    simp only [info, orderedOf, hb] at ho
    exact ho
  have hall := hall this
  cases hl : g.2.map (loc req g.1) with
  | nil => exact absurd hl hne
  | cons l ls =>
    refine ⟨l, ls, rfl, fun i l' hi => ?_⟩
    rw [← hl] at hi
    have := hall i l' hi
    simpa [hl] using this

/-- the stores for one group -/
def wr {V : Type} (req : List (Nat × Nat)) (val : Nat → Nat → V) (g : Nat × List Nat) : List (Nat × V) :=
  zipStores (g.2.map (loc req g.1)) (g.2.map (val g.1))

theorem mem_wr {V : Type} {req : List (Nat × Nat)} {val : Nat → Nat → V} {g : Nat × List Nat} {w : Nat × V} :
    w ∈ wr req val g ↔ ∃ i ∈ g.2, w = (loc req g.1 i, val g.1 i) := by
  rw [wr, mem_zipStores]
  constructor
  · rintro ⟨e, h1, h2⟩
    rw [List.getElem?_map] at h1 h2
    cases hi : g.2[e]? with
    | none => rw [hi] at h1; simp at h1
    | some i =>
      rw [hi] at h1 h2
      refine ⟨i, List.mem_of_getElem? hi, Prod.ext ?_ ?_⟩
      · simpa using h1.symm
      · simpa using h2.symm
  · rintro ⟨i, hi, rfl⟩
    obtain ⟨e, he⟩ := List.mem_iff_getElem?.1 hi
    exact ⟨e, by simp [he], by simp [he]⟩

theorem wr_value {V : Type} {req : List (Nat × Nat)} {val : Nat → Nat → V} {g : Nat × List Nat} {w : Nat × V}
    (hg : g ∈ groups req) (hw : w ∈ wr req val g) : ∃ i, req[w.1]? = some (g.1, i) ∧ w.2 = val g.1 i := by
  obtain ⟨i, hi, rfl⟩ := mem_wr.1 hw
  have hm := (mem_groups (k := g.1) (vs := g.2)).1 hg
  rw [hm.1, mem_grp] at hi
  exact ⟨i, loc_get hi, rfl⟩

theorem wr_cover {V : Type} {req : List (Nat × Nat)} (hn : req.Nodup) (val : Nat → Nat → V) {l k i : Nat}
    (h : req[l]? = some (k, i)) : ∃ g ∈ groups req, ∃ w ∈ wr req val g, w.1 = l := by
  have hmem := List.mem_of_getElem? h
  have hi : i ∈ grp req k := mem_grp.2 hmem
  have hg : (k, grp req k) ∈ groups req := mem_groups.2 ⟨rfl, List.ne_nil_of_mem hi⟩
  refine ⟨_, hg, _, mem_wr.2 ⟨i, hi, rfl⟩, ?_⟩
  simp [loc, locate_get hn h]

/-- any sequence of stores which consists of those of all groups -/
theorem holds_of_stores {V : Type} {req : List (Nat × Nat)} (hn : req.Nodup) {val : Nat → Nat → V} {ws : List (Nat × V)}
    {a : Mem V} (hlen : a.length = req.length) (hws : ∀ w, w ∈ ws ↔ ∃ g ∈ groups req, w ∈ wr req val g) :
    ∃ a', storeList a ws = .ok a' ∧ Holds val req a' := by
  have hval : ∀ w ∈ ws, ∃ k i, req[w.1]? = some (k, i) ∧ w.2 = val k i := by
    intro w hw
    obtain ⟨g, hg, hw⟩ := (hws w).1 hw
    obtain ⟨i, h⟩ := wr_value hg hw
    exact ⟨_, i, h⟩
  obtain ⟨a', he, hl, hall⟩ := storeList_ok ws a (fun w hw => by
    obtain ⟨k, i, h, _⟩ := hval w hw
    rw [hlen]
    exact (List.getElem?_eq_some_iff.1 h).1)
  refine ⟨a', he, hl.trans hlen, fun e i j hij => ?_⟩
  have := (hall (fun l => match req[l]? with | some p => val p.1 p.2 | none => val 0 0) (fun w hw => by
    obtain ⟨k, i, h, hv⟩ := hval w hw
    simp only [h, hv]) e).1 (by
      obtain ⟨g, hg, w, hw, hwl⟩ := wr_cover hn val hij
      exact ⟨w, (hws w).2 ⟨g, hg, hw⟩, hwl⟩)
  rw [this, hij]

/-! ### one thread -/

theorem single_ok {V : Type} {fn : Fun V} {args : Args V} {val : Nat → Nat → V} {req : List (Nat × Nat)}
    {g : Nat × List Nat} (hg : g ∈ groups req) (hf : fn g.1 args = some (g.2.map (val g.1))) {prev : Bool}
    {s : State V} (hprev : prev = true → s.out = .compressed)
    (hcomp : (info req g).ordered = false → g.2.length ≤ s.comp.length) {a : Mem V}
    (hs : storeList s.jac (wr req val g) = .ok a) :
    ∃ s', execAll fn args (single prev (info req g)) s = .ok s' ∧ s'.jac = a ∧ s'.comp.length = s.comp.length ∧
      ((!(info req g).ordered) = true → s'.out = .compressed) := by
  cases ho : (info req g).ordered with
  | true =>
    obtain ⟨l, ls, hl, hcons⟩ := info_ordered hg ho
    have hloc : (info req g).locations = some l :: ls.map some := by simp [info, hl]
    refine ⟨{ s with jac := a, out := .jac l }, ?_, rfl, rfl, by simp⟩
    rw [single, if_pos ho, hloc]
    simp only [List.singleton_append]
    rw [execAll, Instr.exec]
    simp only
    rw [execAll, Instr.exec, show (info req g).key = g.1 from rfl, hf]
    simp only
    rw [storeAll_direct, direct_zip (g.2.map (loc req g.1)) _ l (by simp) (by rw [hl]; exact hcons)]
    change storeList s.jac (zipStores _ _) = _ at hs
    rw [hs]
    rfl
  | false =>
    have hlen : (g.2.map (val g.1)).length ≤ s.comp.length := by simpa using hcomp ho
    obtain ⟨c, hc, hclen, hcget⟩ := storeAll_ok s.comp (g.2.map (val g.1)) hlen
    refine ⟨{ jac := a, comp := c, out := .compressed }, ?_, rfl, hclen, fun _ => rfl⟩
    rw [single, if_neg (by simp [ho]), List.append_assoc, execAll_append]
    have hpre : execAll fn args (if prev then [] else [Instr.outCompressed]) s =
        .ok { s with out := .compressed } := by
      cases prev with
      | true => rw [if_pos rfl, execAll]; congr 1; rw [← hprev rfl]
      | false => rfl
    rw [hpre]
    simp only
    rw [List.singleton_append, execAll, Instr.exec, show (info req g).key = g.1 from rfl, hf]
    simp only
    rw [hc]
    simp only [Except.map]
    rw [show (info req g).locations = (g.2.map (loc req g.1)).map some from rfl,
      copyInstrs_ok fn args (g.2.map (loc req g.1)) (g.2.map (val g.1)) 0 _ (by simp) (fun i v hi => by
        rw [Nat.zero_add]; exact hcget i v hi)]
    simp only
    change storeList s.jac (zipStores _ _) = _ at hs
    rw [hs]
    rfl

theorem singleSource_ok {V : Type} {fn : Fun V} {args : Args V} {val : Nat → Nat → V} {req : List (Nat × Nat)} :
    ∀ (gs : List (Nat × List Nat)) (prev : Bool) (s : State V) (a : Mem V), (∀ g ∈ gs, g ∈ groups req) →
      (∀ g ∈ gs, fn g.1 args = some (g.2.map (val g.1))) → (prev = true → s.out = .compressed) →
      (∀ g ∈ gs, (info req g).ordered = false → g.2.length ≤ s.comp.length) →
      storeList s.jac (gs.flatMap (wr req val)) = .ok a →
      ∃ s', execAll fn args (singleSource prev (gs.map (info req))) s = .ok s' ∧ s'.jac = a
  | [], _, s, a, _, _, _, _, hs => by
    refine ⟨s, rfl, ?_⟩
    simp only [List.flatMap_nil, storeList, Except.ok.injEq] at hs
    exact hs
  | g :: gs, prev, s, a, hg, hf, hprev, hcomp, hs => by
    rw [List.flatMap_cons, storeList_append] at hs
    cases h1 : storeList s.jac (wr req val g) with
    | error e => rw [h1] at hs; cases hs
    | ok a1 =>
      rw [h1] at hs
      obtain ⟨s1, he, hj, hc, ho⟩ := single_ok (hg g (by simp)) (hf g (by simp)) hprev (hcomp g (by simp)) h1
      obtain ⟨s2, he2, hj2⟩ := singleSource_ok gs (!(info req g).ordered) s1 a (fun g' h => hg g' (by simp [h]))
        (fun g' h => hf g' (by simp [h])) ho (fun g' h hu => by rw [hc]; exact hcomp g' (by simp [h]) hu)
        (by rw [hj]; exact hs)
      refine ⟨s2, ?_, hj2⟩
      rw [List.map_cons, singleSource, execAll_append, he]
      exact he2

theorem maxCompressed_aux : ∀ (is : List Info) (m : Nat),
    m ≤ is.foldl (fun m i => if i.indexes.length > m && !i.ordered then i.indexes.length else m) m ∧
    ∀ i ∈ is, i.ordered = false →
      i.indexes.length ≤ is.foldl (fun m i => if i.indexes.length > m && !i.ordered then i.indexes.length else m) m
  | [], m => ⟨Nat.le_refl _, by simp⟩
  | i :: is, m => by
    rw [List.foldl_cons]
    obtain ⟨h1, h2⟩ := maxCompressed_aux is (if i.indexes.length > m && !i.ordered then i.indexes.length else m)
    by_cases hc : (decide (i.indexes.length > m) && !i.ordered) = true
    · rw [if_pos hc] at h1 h2 ⊢
      have : i.indexes.length > m := by
        simp only [Bool.and_eq_true, decide_eq_true_eq] at hc
        exact hc.1
      refine ⟨by omega, fun j hj ho => ?_⟩
      rcases List.mem_cons.1 hj with rfl | hj
      · exact h1
      · exact h2 j hj ho
    · rw [if_neg hc] at h1 h2 ⊢
      refine ⟨h1, fun j hj ho => ?_⟩
      rcases List.mem_cons.1 hj with rfl | hj
      · have : ¬ j.indexes.length > m := by
          intro hgt
          exact hc (by simp [hgt, ho])
        omega
      · exact h2 j hj ho

theorem runSingle_ok {V : Type} {mkArgs : Args V → Except Err (Args V)} {fn : Fun V} {req : List (Nat × Nat)}
    (hn : req.Nodup) {inp args : Args V} (hargs : mkArgs inp = .ok args) {val : Nat → Nat → V}
    (hf : Good fn args val req) {jac : Mem V} (hlen : jac.length = req.length) :
    ∃ a, runSingle mkArgs fn req inp jac = .ok a ∧ Holds val req a := by
  obtain ⟨a, ha, hh⟩ := holds_of_stores hn (val := val) (ws := (groups req).flatMap (wr req val)) hlen
    (fun w => by rw [List.mem_flatMap])
  obtain ⟨s', he, hj⟩ := singleSource_ok (fn := fn) (args := args) (val := val) (req := req) (groups req) true
    ⟨jac, List.replicate (maxCompressed ((groups req).map (info req))) none, .compressed⟩ a (fun g h => h)
    (fun g h => hf g.1 g.2 h) (fun _ => rfl) (fun g hg ho => by
      rw [List.length_replicate]
      exact (maxCompressed_aux ((groups req).map (info req)) 0).2 (info req g) (List.mem_map_of_mem hg) ho) ha
  refine ⟨a, ?_, hh⟩
  rw [runSingle, infos_ok]
  simp only [hargs, he, Except.map, hj]

/-! ### several threads -/

theorem task_ok {V : Type} {mkArgs : Args V → Except Err (Args V)} {fn : Fun V} {args args' : Args V}
    {val : Nat → Nat → V} {req : List (Nat × Nat)} {g : Nat × List Nat} (hg : g ∈ groups req)
    (hf : (info req g).ordered = true → fn g.1 args = some (g.2.map (val g.1)))
    (hargs : (info req g).ordered = false → mkArgs args = .ok args' ∧ fn g.1 args' = some (g.2.map (val g.1))) :
    task mkArgs fn args (info req g) = .ok (wr req val g) := by
  cases ho : (info req g).ordered with
  | true =>
    obtain ⟨l, ls, hl, hcons⟩ := info_ordered hg ho
    have hloc : (info req g).locations = some l :: ls.map some := by simp [info, hl]
    rw [task, if_pos ho, hloc, show (info req g).key = g.1 from rfl, hf ho]
    simp only
    rw [direct_zip (g.2.map (loc req g.1)) _ l (by simp) (by rw [hl]; exact hcons)]
    rfl
  | false =>
    obtain ⟨h1, h2⟩ := hargs ho
    rw [task, if_neg (by simp [ho]), h1]
    simp only
    rw [show (info req g).key = g.1 from rfl, h2]
    simp only
    obtain ⟨c, hc, hclen, hcget⟩ := storeAll_ok (List.replicate (info req g).indexes.length none) (g.2.map (val g.1))
      (by simp [info])
    rw [hc]
    simp only
    rw [show (info req g).locations = (g.2.map (loc req g.1)).map some from rfl,
      copies_ok c (g.2.map (loc req g.1)) (g.2.map (val g.1)) 0 (by simp) (fun i v hi => by
        rw [Nat.zero_add]; exact hcget i v hi)]
    rfl

theorem interleaves_mem {α : Type} {ws : List (List α)} {l : List α} (h : Interleaves ws l) (a : α) :
    a ∈ l ↔ ∃ w ∈ ws, a ∈ w := by
  induction h with
  | nil h =>
    constructor
    · intro h'; cases h'
    · rintro ⟨w, hw, ha⟩
      rw [h w hw] at ha; cases ha
  | @step ws i b rest l hi _ ih =>
    rw [List.mem_cons, ih]
    obtain ⟨hlt, hget⟩ := List.getElem?_eq_some_iff.1 hi
    constructor
    · rintro (rfl | ⟨w, hw, ha⟩)
      · exact ⟨_, List.mem_of_getElem? hi, by simp⟩
      · rcases List.mem_or_eq_of_mem_set hw with hw | rfl
        · exact ⟨w, hw, ha⟩
        · exact ⟨_, List.mem_of_getElem? hi, by simp [ha]⟩
    · rintro ⟨w, hw, ha⟩
      obtain ⟨j, hj⟩ := List.mem_iff_getElem?.1 hw
      by_cases e : i = j
      · subst e
        rw [hi] at hj
        cases hj
        rcases List.mem_cons.1 ha with rfl | ha
        · exact .inl rfl
        · exact .inr ⟨rest, List.mem_iff_getElem?.2 ⟨i, by rw [List.getElem?_set_self hlt]⟩, ha⟩
      · exact .inr ⟨w, List.mem_iff_getElem?.2 ⟨j, by rw [List.getElem?_set_ne e]; exact hj⟩, ha⟩

theorem tasks_ok {V : Type} {mkArgs : Args V → Except Err (Args V)} {fn : Fun V} {req : List (Nat × Nat)}
    {inp args args' : Args V} (hargs : mkArgs inp = .ok args) {val : Nat → Nat → V}
    (hf : ∀ g ∈ groups req, (info req g).ordered = true → fn g.1 args = some (g.2.map (val g.1)))
    (hf' : ∀ g ∈ groups req, (info req g).ordered = false →
      mkArgs args = .ok args' ∧ fn g.1 args' = some (g.2.map (val g.1))) :
    tasks mkArgs fn req inp = .ok ((groups req).map (wr req val)) := by
  rw [tasks, infos_ok]
  simp only [hargs]
  have : ∀ (gs : List (Nat × List Nat)), (∀ g ∈ gs, g ∈ groups req) →
      mapE (task mkArgs fn args) (gs.map (info req)) = .ok (gs.map (wr req val)) := by
    intro gs
    induction gs with
    | nil => intro _; rfl
    | cons g gs ih =>
      intro h
      rw [List.map_cons, mapE, task_ok (args' := args') (h g (by simp)) (hf g (h g (by simp))) (hf' g (h g (by simp)))]
      simp only
      rw [ih fun g' h' => h g' (by simp [h'])]
      rfl
  exact this _ fun g h => h

/-- different threads store to different locations -/
theorem wr_disjoint {V : Type} {req : List (Nat × Nat)} {val : Nat → Nat → V} {a b : Nat} {wa wb : List (Nat × V)}
    (ha : ((groups req).map (wr req val))[a]? = some wa) (hb : ((groups req).map (wr req val))[b]? = some wb) {x y : Nat × V}
    (hx : x ∈ wa) (hy : y ∈ wb) (he : x.1 = y.1) : a = b := by
  rw [List.getElem?_map] at ha hb
  obtain ⟨g, hg, rfl⟩ := Option.map_eq_some_iff.1 ha
  obtain ⟨g', hg', rfl⟩ := Option.map_eq_some_iff.1 hb
  obtain ⟨i, h1, _⟩ := wr_value (List.mem_of_getElem? hg) hx
  obtain ⟨j, h2, _⟩ := wr_value (List.mem_of_getElem? hg') hy
  rw [he, h2] at h1
  have hk : g'.1 = g.1 := by
    have := congrArg (Option.map Prod.fst) h1
    simpa using this
  by_contra hne
  obtain ⟨ha', ea⟩ := List.getElem?_eq_some_iff.1 hg
  obtain ⟨hb', eb⟩ := List.getElem?_eq_some_iff.1 hg'
  rcases Nat.lt_or_gt_of_ne hne with h | h
  · have := List.pairwise_iff_getElem.1 (groups_sorted req) a b ha' hb' h
    rw [ea, eb] at this; omega
  · have := List.pairwise_iff_getElem.1 (groups_sorted req) b a hb' ha' h
    rw [ea, eb] at this; omega

/-! ### the functions for one key -/

theorem position_some {indexes : List Nat} (hn : indexes.Nodup) {e i : Nat} (h : indexes[e]? = some i) :
    position indexes i = some e := by
  unfold position
  have hmem : (i, e) ∈ indexes.zipIdx.filter (fun p => p.1 == i) := by
    refine List.mem_filter.2 ⟨?_, by simp⟩
    exact List.mk_mem_zipIdx_iff_getElem?.2 h
  have hall : ∀ p ∈ indexes.zipIdx.filter (fun p => p.1 == i), p = (i, e) := by
    intro p hp
    obtain ⟨hp, hpi⟩ := List.mem_filter.1 hp
    have hpi : p.1 = i := by simpa using hpi
    have h2 : indexes[p.2]? = some p.1 := List.mk_mem_zipIdx_iff_getElem?.1 hp
    rw [hpi] at h2
    exact Prod.ext hpi (nodup_get hn h2 h)
  cases hl : (indexes.zipIdx.filter (fun p => p.1 == i)).getLast? with
  | none =>
    rw [List.getLast?_eq_none_iff] at hl
    rw [hl] at hmem; cases hmem
  | some p =>
    have := hall p (List.mem_of_getLast? hl)
    rw [this]; rfl

theorem organize_aux {V : Type} {val : Nat → Nat → V} {key : Nat} {indexes : List Nat} (hn : indexes.Nodup) :
    ∀ (els : List (Nat × Nat)) (vec : List V), (∀ p ∈ els, p.1 = key → p.2 ∈ indexes) → vec.length = indexes.length →
    ∃ vec', (els.zip (els.map fun p => val p.1 p.2)).foldl (organizeStep key indexes) (.ok vec) = .ok vec' ∧
      vec'.length = indexes.length ∧ ∀ (e : Nat), ∀ i, indexes[e]? = some i →
        ((key, i) ∈ els → vec'[e]? = some (val key i)) ∧ ((key, i) ∉ els → vec'[e]? = vec[e]?)
  | [], vec, _, hlen => ⟨vec, rfl, hlen, by simp⟩
  | p :: els, vec, hmem, hlen => by
    rw [List.map_cons, List.zip_cons_cons, List.foldl_cons]
    by_cases hk : p.1 = key
    · obtain ⟨e0, he0⟩ := List.mem_iff_getElem?.1 (hmem p (by simp) hk)
      have hlt : e0 < vec.length := by rw [hlen]; exact (List.getElem?_eq_some_iff.1 he0).1
      have hstep : organizeStep key indexes (.ok vec) (p, val p.1 p.2) = .ok (vec.set e0 (val p.1 p.2)) := by
        rw [organizeStep]
        simp only [if_pos hk, position_some hn he0, if_pos hlt]
      rw [hstep]
      obtain ⟨vec', h1, h2, h3⟩ := organize_aux (val := val) hn els (vec.set e0 (val p.1 p.2))
        (fun q hq => hmem q (by simp [hq])) (by rw [List.length_set]; exact hlen)
      refine ⟨vec', h1, h2, fun e i hi => ?_⟩
      obtain ⟨h4, h5⟩ := h3 e i hi
      by_cases hin : (key, i) ∈ els
      · exact ⟨fun _ => h4 hin, fun hno => absurd (by simp [hin]) hno⟩
      · refine ⟨fun hin' => ?_, fun hno => ?_⟩
        · rcases List.mem_cons.1 hin' with e1 | h'
          · have e2 : p.2 = i := by rw [← e1]
            rw [e2] at he0
            have := nodup_get hn he0 hi
            subst this
            rw [h5 hin, List.getElem?_set_self hlt, ← e1]
          · exact absurd h' hin
        · rw [h5 hin, List.getElem?_set_ne]
          rintro rfl
          rw [he0] at hi
          refine hno (List.mem_cons.2 (.inl ?_))
          exact Prod.ext hk.symm (Option.some.inj hi).symm
    · have hstep : organizeStep key indexes (.ok vec) (p, val p.1 p.2) = .ok vec := by
        rw [organizeStep]
        simp only [if_neg hk]
      rw [hstep]
      obtain ⟨vec', h1, h2, h3⟩ := organize_aux (val := val) hn els vec (fun q hq => hmem q (by simp [hq])) hlen
      refine ⟨vec', h1, h2, fun e i hi => ?_⟩
      obtain ⟨h4, h5⟩ := h3 e i hi
      refine ⟨fun hin => ?_, fun hno => h5 fun h => hno (by simp [h])⟩
      rcases List.mem_cons.1 hin with e1 | h'
      · exact absurd (by rw [← e1]) hk
      · exact h4 h'

theorem organize_ok {V : Type} [Zero V] {req : List (Nat × Nat)} (hn : req.Nodup) (val : Nat → Nat → V) {k : Nat}
    {vs : List Nat} (hg : (k, vs) ∈ groups req) :
    organize req (req.map fun p => val p.1 p.2) k vs = .ok (vs.map (val k)) := by
  have hvs := (mem_groups.1 hg).1
  have hnd : vs.Nodup := by rw [hvs]; exact grp_nodup hn k
  obtain ⟨vec, h1, h2, h3⟩ := organize_aux (val := val) (key := k) hnd req (List.replicate vs.length 0)
    (fun p hp hk => by rw [hvs, mem_grp, ← hk]; exact hp) (by simp)
  rw [organize, h1]
  congr 1
  refine List.ext_getElem? fun e => ?_
  rw [List.getElem?_map]
  cases hi : vs[e]? with
  | none =>
    rw [List.getElem?_eq_none_iff] at hi
    exact List.getElem?_eq_none_iff.2 (by omega)
  | some i =>
    have : (k, i) ∈ req := by rw [← mem_grp, ← hvs]; exact List.mem_of_getElem? hi
    rw [(h3 e i hi).1 this]; rfl

end Verif.Deriv
