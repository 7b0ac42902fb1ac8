import Verif.Loops.LemmasSum

/-
Hessian contributions: what `createHessianContribution` adds to the loop body.
-/
namespace Verif.Loops

open Verif.Index Verif.Ranges

variable {α : Type} [CommRing α]

theorem rep_eq (v : Nat → α) (it : Nat) : ∀ c, 0 < c → rep v c it = c * v it
  | 1, _ => by simp [rep]
  | c + 2, _ => by
    rw [rep]
    simp only
    rw [rep_eq v it (c + 1) (by omega)]
    push_cast
    ring

theorem mem_countLocs {pos : List HEl} {c it e : Nat} : (it, e) ∈ countLocs pos c ↔ ∃ h, pos[it]? = some h ∧ h.cnt = c ∧ h.loc = some e := by
  unfold countLocs
  rw [List.mem_filterMap]
  constructor
  · rintro ⟨it', h1, h2⟩
    cases hp : pos[it']? with
    | none => rw [hp] at h2; simp at h2
    | some h =>
      rw [hp] at h2
      simp only at h2
      split at h2
      · rename_i hc
        obtain ⟨e', h3, h4⟩ := Option.map_eq_some_iff.mp h2
        obtain ⟨rfl, rfl⟩ := Prod.mk.inj h4
        exact ⟨h, hp, hc, h3⟩
      · simp at h2
  · rintro ⟨h, h1, h2, h3⟩
    refine ⟨it, List.mem_range.mpr (List.getElem?_eq_some_iff.mp h1).1, ?_⟩
    rw [h1]
    simp only [h2, if_true, h3, Option.map_some]

theorem countLocs_sorted (pos : List HEl) (c : Nat) : Sorted (countLocs pos c) := by
  unfold countLocs Sorted
  rw [List.pairwise_filterMap]
  refine List.pairwise_lt_range.imp ?_
  have key : ∀ (a : Nat) (p : Nat × Nat), (match pos[a]? with | some h => if h.cnt = c then h.loc.map fun e => (a, e) else none | none => none) = some p → p.1 = a := by
    intro a p hp
    split at hp
    · split at hp
      · obtain ⟨e, _, rfl⟩ := Option.map_eq_some_iff.mp hp; rfl
      · simp at hp
    · simp at hp
  intro a b hab p hp q hq
  rw [key a p hp, key b q hq]
  exact hab

theorem le_sum_of_mem {l : List Nat} {x : Nat} (h : x ∈ l) : x ≤ l.sum := by
  induction l with
  | nil => simp at h
  | cons y l ih =>
    rw [List.sum_cons]
    rcases List.mem_cons.mp h with rfl | h
    · omega
    · have := ih h; omega

theorem mem_counts {pos : List HEl} {c : Nat} : c ∈ counts pos ↔ 0 < c ∧ ∃ h ∈ pos, h.cnt = c := by
  unfold counts
  rw [List.mem_filter, List.mem_range]
  simp only [Bool.and_eq_true, decide_eq_true_eq, List.any_eq_true, beq_iff_eq]
  constructor
  · exact fun h => h.2
  · rintro ⟨h1, h, h2, h3⟩
    refine ⟨?_, h1, h, h2, h3⟩
    have := le_sum_of_mem (List.mem_map_of_mem (f := (·.cnt)) h2)
    omega

theorem counts_nodup (pos : List HEl) : (counts pos).Nodup := List.nodup_range.filter _

/-- the positions have locations where something is added -/
def Located' (pos : List HEl) : Prop := ∀ h ∈ pos, 0 < h.cnt → h.loc ≠ none

theorem meets_condContr {n : Nat} (hn : 0 < n) (hmax : n - 1 ≤ sizeMax) {b : Body α} {cs : List (Contr α)} (hb : Meets n true b cs) {brs : List (BrData α)}
    (hs : ∀ d ∈ brs, Sorted d.locs) (hlt : ∀ d ∈ brs, ∀ p ∈ d.locs, p.1 < n) (hne : ∀ d ∈ brs, d.locs ≠ [])
    (hnd : (sets brs).flatten.Nodup) (hb0 : brs ≠ []) (hfull : ∀ d, brs = [d] → d.locs.length ≠ n) :
    ∃ b', condContr brs (n - 1) n b = some b' ∧ Meets n true b' (cs ++ brs.map fun d => ⟨d.val, locAt d.locs⟩) := by
  obtain ⟨b', h1, h2, h3⟩ := condContr_ok hn hmax hb.1 hs hlt hne hnd hb0 hfull
  refine ⟨b', h1, h2, fun it hit => (h3 it).trans ?_⟩
  rw [atIter, List.filterMap_append, List.map_append]
  refine (List.Perm.append_right _ (hb.2 it hit)).trans ?_
  refine List.Perm.append_left _ ?_
  rw [List.filterMap_map, List.map_filterMap]
  simp only [Function.comp_def, Option.map_map]
  exact List.Perm.refl _

theorem meets_constContr {n : Nat} (hmax : n - 1 ≤ sizeMax) {b : Body α} {cs : List (Contr α)} (hb : Meets n true b cs) (e : Nat) {its : List Nat}
    (hlt : ∀ i ∈ its, i < n) (hne : its ≠ []) (val : Nat → α) :
    ∃ b', constContr e its (n - 1) val b = some b' ∧ Meets n true b' (cs ++ [⟨val, fun it => if it ∈ its then some e else none⟩]) := by
  obtain ⟨b', h1, h2, h3⟩ := constContr_ok hmax hb.1 e hlt hne val
  refine ⟨b', h1, h2, fun it hit => (h3 it).trans ?_⟩
  rw [atIter, List.filterMap_append, List.map_append]
  refine (List.Perm.append_right _ (hb.2 it hit)).trans ?_
  refine List.Perm.append_left _ ?_
  simp only [List.filterMap_cons, List.filterMap_nil]
  by_cases h : it ∈ its <;> simp [h]

theorem meets_const {n : Nat} {b : Body α} {cs : List (Contr α)} (hb : Meets n true b cs) (e : Nat) (val : Nat → α) :
    Meets n true ⟨b.args ++ [.direct ⟨val, constPat e, true⟩], b.ifs⟩ (cs ++ [⟨val, fun _ => some e⟩]) := by
  obtain ⟨h1, h2⟩ := direct_ok hb.1 (a := ⟨val, constPat e, true⟩) fun it _ => by rw [constAsg_write]; simp
  refine ⟨h1, fun it hit => (h2 it).trans ?_⟩
  rw [atIter, List.filterMap_append, List.map_append, constAsg_write]
  refine (List.Perm.append_right _ (hb.2 it hit)).trans ?_
  simp only [Option.toList_some, List.filterMap_cons, List.filterMap_nil, Option.map_some]
  exact List.Perm.refl _

/-- what a list of positions adds -/
def posVal (pos : List HEl) (val : Nat → α) (e it : Nat) : α :=
  match pos[it]? with
  | some h => if h.loc = some e then (h.cnt : α) * val it else 0
  | none => 0

theorem counts_csum {pos : List HEl} (hl : Located' pos) (val : Nat → α) (e it : Nat) :
    csum ((counts pos).map fun c => (⟨rep val c, locAt (countLocs pos c)⟩ : Contr α)) e it = posVal pos val e it := by
  rw [csum, List.map_map]
  change lsum (counts pos) (fun c => if locAt (countLocs pos c) it = some e then rep val c it else 0) = _
  have hm : ∀ c, locAt (countLocs pos c) it = some e ↔ ∃ h, pos[it]? = some h ∧ h.cnt = c ∧ h.loc = some e := fun c => by
    rw [locAt_iff (countLocs_sorted pos c), mem_countLocs]
  unfold posVal
  cases hp : pos[it]? with
  | none =>
    simp only
    refine lsum_zero fun c _ => if_neg fun h => ?_
    obtain ⟨h, h1, _⟩ := (hm c).mp h
    rw [hp] at h1; simp at h1
  | some h =>
    simp only
    by_cases hc : 0 < h.cnt
    · have hin : h.cnt ∈ counts pos := mem_counts.mpr ⟨hc, h, List.mem_of_getElem? hp, rfl⟩
      rw [lsum_single (counts_nodup pos) hin]
      · by_cases he : h.loc = some e
        · rw [if_pos ((hm _).mpr ⟨h, hp, rfl, he⟩), if_pos he, rep_eq val it _ hc]
        · rw [if_neg he, if_neg]
          intro h'
          obtain ⟨h2, h3, _, h4⟩ := (hm _).mp h'
          rw [hp] at h3
          obtain rfl := Option.some.inj h3
          exact he h4
      · intro c _ hne
        refine if_neg fun h' => hne ?_
        obtain ⟨h2, h3, h4, _⟩ := (hm _).mp h'
        rw [hp] at h3
        obtain rfl := Option.some.inj h3
        exact h4.symm
    · have h0 : h.cnt = 0 := by omega
      rw [h0, lsum_zero]
      · simp
      · intro c hc'
        refine if_neg fun h' => ?_
        obtain ⟨h2, h3, h4, _⟩ := (hm _).mp h'
        rw [hp] at h3
        obtain rfl := Option.some.inj h3
        have := (mem_counts.mp hc').1
        omega

theorem hessContr_ok {isZ : (Nat → α) → Bool} (hz : ∀ f, isZ f = true → ∀ it, f it = 0) {pos : List HEl}
    (hmax : pos.length - 1 ≤ sizeMax) (hl : Located' pos) (hne : ∃ h ∈ pos, 0 < h.cnt) (val : Nat → α)
    {b : Body α} {cs : List (Contr α)} (hb : Meets pos.length true b cs) :
    ∃ b' cs', hessContr isZ pos val b = .ok b' ∧ Meets pos.length true b' (cs ++ cs') ∧
      ∀ e it, csum cs' e it = posVal pos val e it := by
  unfold hessContr
  by_cases hzv : isZ val = true
  · rw [if_pos hzv]
    refine ⟨b, [], rfl, by simpa using hb, fun e it => ?_⟩
    simp only [csum, List.map_nil, List.sum_nil, posVal]
    split
    · rw [hz val hzv it]; simp
    · rfl
  · rw [if_neg hzv]
    obtain ⟨h0, hm0, hc0⟩ := hne
    have hn : 0 < pos.length := List.length_pos_of_mem hm0
    have hlt : ∀ c, ∀ p ∈ countLocs pos c, p.1 < pos.length := by
      rintro c ⟨it, e⟩ hp
      obtain ⟨h, h1, _⟩ := mem_countLocs.mp hp
      exact (List.getElem?_eq_some_iff.mp h1).1
    have hcne : ∀ c ∈ counts pos, countLocs pos c ≠ [] := by
      intro c hc h'
      obtain ⟨h1, h, h2, h3⟩ := mem_counts.mp hc
      obtain ⟨e, he⟩ := Option.ne_none_iff_exists'.mp (hl h h2 (by omega))
      obtain ⟨it, hit⟩ := List.getElem?_of_mem h2
      have : (it, e) ∈ countLocs pos c := mem_countLocs.mpr ⟨h, hit, h3, he⟩
      rw [h'] at this; simp at this
    have hcond : (∀ c, counts pos = [c] → (countLocs pos c).length ≠ pos.length) →
        ∃ b', condContr ((counts pos).map fun c => (⟨rep val c, countLocs pos c⟩ : BrData α)) (pos.length - 1) pos.length b = some b' ∧
          Meets pos.length true b' (cs ++ (counts pos).map fun c => (⟨rep val c, locAt (countLocs pos c)⟩ : Contr α)) := by
      intro hfull
      obtain ⟨b', h1, h2⟩ := meets_condContr (brs := (counts pos).map fun c => (⟨rep val c, countLocs pos c⟩ : BrData α)) hn hmax hb
        (by
          intro d hd
          obtain ⟨c, _, rfl⟩ := List.mem_map.mp hd
          exact countLocs_sorted pos c)
        (by
          intro d hd
          obtain ⟨c, _, rfl⟩ := List.mem_map.mp hd
          exact hlt c)
        (by
          intro d hd
          obtain ⟨c, hc, rfl⟩ := List.mem_map.mp hd
          exact hcne c hc)
        (by
          unfold sets
          rw [List.map_map, List.nodup_flatten]
          constructor
          · intro x hx
            obtain ⟨c, _, rfl⟩ := List.mem_map.mp hx
            simp only [Function.comp]
            rw [List.Nodup, List.pairwise_map]
            refine (countLocs_sorted pos c).imp fun h => ?_
            exact Nat.ne_of_lt h
          · rw [List.pairwise_map]
            refine (counts_nodup pos).imp fun {c c'} hcc => ?_
            simp only [Function.comp, List.disjoint_left]
            rintro it h1 h2
            obtain ⟨⟨it1, e1⟩, h3, rfl⟩ := List.mem_map.mp h1
            obtain ⟨⟨it2, e2⟩, h4, h5⟩ := List.mem_map.mp h2
            simp only at h5
            subst h5
            obtain ⟨x, hx1, hx2, _⟩ := mem_countLocs.mp h3
            obtain ⟨y, hy1, hy2, _⟩ := mem_countLocs.mp h4
            rw [hx1] at hy1
            obtain rfl := Option.some.inj hy1
            exact hcc (hx2.symm.trans hy2))
        (by
          intro h'
          have : h0.cnt ∈ counts pos := mem_counts.mpr ⟨hc0, h0, hm0, rfl⟩
          rw [List.map_eq_nil_iff] at h'
          rw [h'] at this; simp at this)
        (by
          intro d hd
          obtain ⟨c, hc, rfl⟩ := List.map_eq_singleton_iff.mp hd
          exact hfull c hc)
      refine ⟨b', h1, ?_⟩
      rw [List.map_map] at h2
      exact h2
    have hsum := counts_csum hl val
    split
    · rename_i c hc
      split
      · rename_i hlen
        have hcp : 0 < c := (mem_counts.mp (by rw [hc]; simp)).1
        rw [hc] at hsum
        split
        · rename_i hzr
          refine ⟨b, [], rfl, by simpa using hb, fun e it => ?_⟩
          rw [← hsum]
          simp only [csum, List.map_nil, List.sum_nil, List.map_cons, List.sum_cons, add_zero]
          rw [hz _ hzr it]
          simp
        · obtain ⟨b', h1, h2⟩ := meets_loopResult hmax hb (countLocs_sorted pos c) (hlt c) (hcne c (by rw [hc]; simp)) (rep val c)
          rw [loopResult, if_pos hlen] at h1
          obtain rfl := Option.some.inj h1
          exact ⟨_, _, rfl, h2, fun e it => hsum e it⟩
      · rename_i hlen
        obtain ⟨b', h1, h2⟩ := hcond fun c' hc' => by
          rw [hc] at hc'
          obtain rfl := (List.cons.inj hc').1
          exact hlen
        rw [hc] at h1 h2 hsum
        simp only [List.map_cons, List.map_nil] at h1
        rw [h1]
        exact ⟨b', _, rfl, h2, hsum⟩
    · rename_i hno
      obtain ⟨b', h1, h2⟩ := hcond fun c' hc' => absurd hc' (hno c')
      rw [h1]
      exact ⟨b', _, rfl, h2, hsum⟩

/-! ### tables of positions -/

/-- all writes to one position have the same location and are at iterations of the loop -/
structure PosGood (n : Nat) (ps : List ((Nat × Nat) × Nat × Nat)) : Prop where
  lt : ∀ p ∈ ps, p.2.1 < n
  same : ∀ p ∈ ps, ∀ p' ∈ ps, p.1 = p'.1 → p.2.1 = p'.2.1 → p.2.2 = p'.2.2

theorem posOf_get {n : Nat} {ps : List ((Nat × Nat) × Nat × Nat)} {K : Nat × Nat} {it : Nat} (hit : it < n) :
    (posOf n ps K)[it]? = some ⟨(ps.filter fun p => p.1 = K ∧ p.2.1 = it).getLast?.map (·.2.2), (ps.filter fun p => p.1 = K ∧ p.2.1 = it).length⟩ := by
  unfold posOf
  rw [List.getElem?_map, List.getElem?_range hit]
  rfl

theorem posOf_length (n : Nat) (ps : List ((Nat × Nat) × Nat × Nat)) (K : Nat × Nat) : (posOf n ps K).length = n := by simp [posOf]

theorem posOf_located (n : Nat) (ps : List ((Nat × Nat) × Nat × Nat)) (K : Nat × Nat) : Located' (posOf n ps K) := by
  intro h hh hc
  unfold posOf at hh
  obtain ⟨it, _, rfl⟩ := List.mem_map.mp hh
  simp only at hc ⊢
  intro hn
  rw [Option.map_eq_none_iff, List.getLast?_eq_none_iff] at hn
  rw [hn] at hc
  simp at hc

theorem posVal_eq {n : Nat} {ps : List ((Nat × Nat) × Nat × Nat)} (hps : PosGood n ps) (K : Nat × Nat) (val : Nat → α) (e it : Nat) :
    posVal (posOf n ps K) val e it = lsum ps fun p => if p.1 = K ∧ p.2.1 = it ∧ p.2.2 = e then val it else 0 := by
  by_cases hit : it < n
  · rw [posVal, posOf_get hit]
    simp only
    generalize hf : (ps.filter fun p => p.1 = K ∧ p.2.1 = it) = here
    have hmem : ∀ p, p ∈ here ↔ p ∈ ps ∧ p.1 = K ∧ p.2.1 = it := fun p => by rw [← hf]; simp
    have hsum : (lsum ps fun p => if p.1 = K ∧ p.2.1 = it ∧ p.2.2 = e then val it else 0) = lsum here fun p => if p.2.2 = e then val it else 0 := by
      rw [← hf, lsum_filter]
      refine lsum_congr fun p _ => ?_
      by_cases h1 : p.1 = K ∧ p.2.1 = it
      · simp [h1]
      · have : ¬ (p.1 = K ∧ p.2.1 = it ∧ p.2.2 = e) := fun h => h1 ⟨h.1, h.2.1⟩
        simp [h1, this]
    rw [hsum]
    cases hg : here.getLast? with
    | none =>
      rw [List.getLast?_eq_none_iff] at hg
      simp [hg]
    | some p0 =>
      have hp0 := (hmem p0).mp (List.mem_of_getLast? hg)
      have hall : ∀ p ∈ here, p.2.2 = p0.2.2 := fun p hp => by
        have hp := (hmem p).mp hp
        exact hps.same p hp.1 p0 hp0.1 (hp.2.1.trans hp0.2.1.symm) (hp.2.2.trans hp0.2.2.symm)
      simp only [Option.map_some, Option.some.injEq]
      have : (lsum here fun p => if p.2.2 = e then val it else 0) = lsum here fun _ => if p0.2.2 = e then val it else 0 :=
        lsum_congr fun p hp => by rw [hall p hp]
      rw [this]
      have hconst : ∀ (x : α) (l : List ((Nat × Nat) × Nat × Nat)), (lsum l fun _ => x) = l.length * x := by
        intro x l
        induction l with
        | nil => simp
        | cons y l ih => rw [lsum_cons, ih, List.length_cons]; push_cast; ring
      rw [hconst]
      split <;> simp
  · rw [lsum_zero]
    · rw [posVal, List.getElem?_eq_none (by rw [posOf_length]; omega)]
    · intro p hp
      refine if_neg fun h => hit ?_
      rw [← h.2.1]
      exact hps.lt p hp

theorem genPos_ok {isZ : (Nat → α) → Bool} (hz : ∀ f, isZ f = true → ∀ it, f it = 0) {n : Nat} (hmax : n - 1 ≤ sizeMax)
    {ps : List ((Nat × Nat) × Nat × Nat)} (hps : PosGood n ps) {val : Nat × Nat → Option (Nat → α)} {V : Nat × Nat → Nat → α} :
    ∀ (Ks : List (Nat × Nat)), Ks.Nodup → (∀ K ∈ Ks, K ∈ ps.map (·.1)) → (∀ K ∈ Ks, val K = some (V K)) →
    ∀ {b : Body α} {cs : List (Contr α)}, Meets n true b cs →
    ∃ b' cs', genPos isZ n ps val Ks b = .ok b' ∧ Meets n true b' (cs ++ cs') ∧
      ∀ e it, csum cs' e it = lsum ps fun p => if p.1 ∈ Ks ∧ p.2.1 = it ∧ p.2.2 = e then V p.1 it else 0
  | [], _, _, _, b, cs, hb => ⟨b, [], rfl, by simpa using hb, fun e it => by
      rw [lsum_zero] <;> simp [csum]⟩
  | K :: Ks, hnd, hin, hv, b, cs, hb => by
    rw [genPos, hv K List.mem_cons_self]
    simp only
    have hlen := posOf_length n ps K
    obtain ⟨b1, cs1, g1, g2, g3⟩ := hessContr_ok hz (pos := posOf n ps K) (by rw [hlen]; exact hmax) (posOf_located n ps K)
      (by
        obtain ⟨p, hp, hpK⟩ := List.mem_map.mp (hin K List.mem_cons_self)
        have := posOf_get (n := n) (ps := ps) (K := K) (hps.lt p hp)
        refine ⟨_, List.mem_of_getElem? this, ?_⟩
        simp only
        exact List.length_pos_of_mem (List.mem_filter.mpr ⟨hp, by simp [hpK]⟩)) (V K) (b := b) (cs := cs) (by rw [hlen]; exact hb)
    rw [hlen] at g2
    obtain ⟨b2, cs2, k1, k2, k3⟩ := genPos_ok hz hmax hps Ks (List.nodup_cons.mp hnd).2 (fun K' h => hin K' (List.mem_cons_of_mem _ h))
      (fun K' h => hv K' (List.mem_cons_of_mem _ h)) g2
    rw [g1]
    refine ⟨b2, cs1 ++ cs2, k1, by rwa [← List.append_assoc], fun e it => ?_⟩
    rw [csum_append, g3, k3, posVal_eq hps, ← lsum_add]
    refine lsum_congr fun p _ => ?_
    have hKn := (List.nodup_cons.mp hnd).1
    by_cases h2 : p.2.1 = it ∧ p.2.2 = e
    · by_cases h1 : p.1 = K
      · have : p.1 ∉ Ks := by rw [h1]; exact hKn
        simp [h1, h2, hKn]
      · simp [h1, h2]
    · have : ∀ q : Prop, ¬ (q ∧ p.2.1 = it ∧ p.2.2 = e) := fun q h => h2 h.2
      simp [this]

end Verif.Loops
