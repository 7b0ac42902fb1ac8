import Verif.Loops.LemmasFor1Run
import Mathlib.Data.List.Perm.Basic

/-
What the functions of the groups add to a column.
-/
namespace Verif.Loops.For1

open Verif.Index Verif.Ranges

variable {α : Type} [CommRing α]

theorem lsum_perm {β : Type} {l l' : List β} (h : l.Perm l') (f : β → α) : lsum l f = lsum l' f := (h.map f).sum_eq

theorem lsum_subset {β : Type} [DecidableEq β] {l l' : List β} (h : l.Nodup) (h' : l'.Nodup) (hs : ∀ x ∈ l, x ∈ l') (f : β → α) :
    lsum l f = lsum l' fun x => if x ∈ l then f x else 0 := by
  have hp : l.Perm (l'.filter fun x => x ∈ l) := by
    rw [List.perm_ext_iff_of_nodup h (h'.filter _)]
    intro x
    rw [List.mem_filter]
    simp only [decide_eq_true_eq]
    exact ⟨fun hx => ⟨hs x hx, hx⟩, fun hx => hx.2⟩
  rw [lsum_perm hp f, lsum_filter]
  exact lsum_congr fun x _ => by simp

theorem lsum_map {β γ : Type} (l : List β) (g : β → γ) (f : γ → α) : lsum (l.map g) f = lsum l fun x => f (g x) := by
  simp [lsum, List.map_map, Function.comp_def]

/-! ### operations of a group -/

section ops
variable (l : Loop) (D : Nat → Nat → Nat → α) (a : An) (q : Nat) (G : Nat → Nat → α) (ne : Nat)

/-- derivative of a tape equation with respect to a contribution -/
def tval (tapeI : Nat) : Term → Nat → α
  | .idx t => D tapeI t
  | .non j => nonVal l (D tapeI) (a.ev q tapeI) G ne (a.row q tapeI).tmpEvals j

/-- what a contribution adds to an element -/
def tadd (dx : α) (e : Nat) (tm : Term) (tapeI it : Nat) : α :=
  if cellOf (a.row q tapeI) tm it = some e then tval l D a q G ne tapeI tm it * dx else 0

variable {l D a q G ne}

theorem groupLocs_sorted (g : ColGroup) (pos : List (Option Nat)) : Sorted (groupLocs g pos) := (locsOf_sorted pos).filter _

theorem locAt_groupLocs (g : ColGroup) (pos : List (Option Nat)) (it e : Nat) :
    locAt (groupLocs g pos) it = some e ↔ it ∈ g.iters ∧ (pos[it]?).join = some e := by
  rw [locAt_iff (groupLocs_sorted g pos), groupLocs, List.mem_filter, mem_locsOf, Option.join_eq_some_iff]
  simp [and_comm]

theorem genTerms_ok (hmax : l.iters - 1 ≤ sizeMax) (g : ColGroup) (dx : α) (tapeI : Nat) (hp : PosOk l.iters (a.row q tapeI).idxPos)
    (hq : PosOk l.iters (a.row q tapeI).nonPos) :
    ∀ (tms : List Term), (∀ tm ∈ tms, ∀ it e, cellOf (a.row q tapeI) tm it = some e →
      ∃ v, termVal l D a q G ne tapeI tm = some v ∧ ∀ it, v it = tval l D a q G ne tapeI tm it) →
    ∀ {b : Body α} {cs : List (Contr α)}, Meets l.iters true b cs →
    ∃ b' ds, genTerms l D a q G ne dx g tapeI tms b = .ok b' ∧ Meets l.iters true b' (cs ++ ds) ∧
      ∀ it e, csum ds e it = lsum tms fun tm => if it ∈ g.iters then tadd l D a q G ne dx e tm tapeI it else 0
  | [], _, b, cs, hb => ⟨b, [], rfl, by simpa using hb, fun it e => by simp [csum]⟩
  | tm :: tms, hv, b, cs, hb => by
    have rest : ∀ {b : Body α} {cs : List (Contr α)}, Meets l.iters true b cs → _ := fun {b cs} hb =>
      genTerms_ok hmax g dx tapeI hp hq tms (fun tm' h' => hv tm' (List.mem_cons_of_mem _ h')) (b := b) (cs := cs) hb
    rw [genTerms]
    cases hpos : posOf (a.row q tapeI) tm with
    | none =>
      simp only
      obtain ⟨b', ds, h1, h2, h3⟩ := rest hb
      refine ⟨b', ds, h1, h2, fun it e => ?_⟩
      rw [h3, lsum_cons]
      have : tadd l D a q G ne dx e tm tapeI it = 0 := by
        rw [tadd, cellOf, hpos]; simp
      rw [this]; simp
    | some pos =>
      simp only
      have hlen : pos.length = l.iters := by
        cases tm with
        | idx t => exact hp.len _ (get_mem hpos)
        | non j => exact hq.len _ (get_mem hpos)
      have hcell : ∀ it, cellOf (a.row q tapeI) tm it = (pos[it]?).join := by
        intro it; rw [cellOf, hpos]; rfl
      by_cases hemp : groupLocs g pos = []
      · rw [if_pos hemp]
        obtain ⟨b', ds, h1, h2, h3⟩ := rest hb
        refine ⟨b', ds, h1, h2, fun it e => ?_⟩
        rw [h3, lsum_cons]
        have : (if it ∈ g.iters then tadd l D a q G ne dx e tm tapeI it else 0) = 0 := by
          by_cases hit : it ∈ g.iters
          · rw [if_pos hit, tadd, if_neg]
            intro hc
            rw [hcell] at hc
            have := locAt_mem ((locAt_groupLocs g pos it e).mpr ⟨hit, hc⟩)
            rw [hemp] at this; simp at this
          · rw [if_neg hit]
        rw [this, zero_add]
      · rw [if_neg hemp]
        obtain ⟨⟨it0, e0⟩, h0⟩ := List.exists_mem_of_ne_nil _ hemp
        have h0' := (locAt_groupLocs g pos it0 e0).mp ((locAt_iff (groupLocs_sorted g pos)).mpr h0)
        obtain ⟨v, v1, v2⟩ := hv tm List.mem_cons_self it0 e0 (by rw [hcell]; exact h0'.2)
        rw [v1]
        simp only
        obtain ⟨b1, g1, g2⟩ := meets_loopResult hmax hb (groupLocs_sorted g pos) (by
          rintro ⟨it, e⟩ hm
          have h := (locAt_groupLocs g pos it e).mp ((locAt_iff (groupLocs_sorted g pos)).mpr hm)
          rw [Option.join_eq_some_iff] at h
          have := (List.getElem?_eq_some_iff.mp h.2).1
          simp only
          omega) hemp fun it => v it * dx
        rw [hlen, g1]
        simp only
        obtain ⟨b', ds, h1, h2, h3⟩ := rest g2
        refine ⟨b', ⟨fun it => v it * dx, locAt (groupLocs g pos)⟩ :: ds, h1, by rwa [List.append_assoc] at h2, fun it e => ?_⟩
        rw [lsum_cons, ← h3, csum, csum, List.map_cons, List.sum_cons]
        congr 1
        simp only
        by_cases hit : it ∈ g.iters
        · rw [if_pos hit, tadd, hcell]
          by_cases hc : (pos[it]?).join = some e
          · rw [if_pos hc, if_pos ((locAt_groupLocs g pos it e).mpr ⟨hit, hc⟩), v2]
          · rw [if_neg hc, if_neg fun h => hc ((locAt_groupLocs g pos it e).mp h).2]
        · rw [if_neg hit, if_neg fun h => hit ((locAt_groupLocs g pos it e).mp h).1]

theorem genGroup_ok (hmax : l.iters - 1 ≤ sizeMax) (g : ColGroup) (dx : α) :
    ∀ (ts : List Nat), (∀ tapeI ∈ ts, PosOk l.iters (a.row q tapeI).idxPos ∧ PosOk l.iters (a.row q tapeI).nonPos ∧
      ∀ tm ∈ g.terms, ∀ it e, cellOf (a.row q tapeI) tm it = some e →
      ∃ v, termVal l D a q G ne tapeI tm = some v ∧ ∀ it, v it = tval l D a q G ne tapeI tm it) →
    ∀ {b : Body α} {cs : List (Contr α)}, Meets l.iters true b cs →
    ∃ b' ds, genGroup l D a q G ne dx g ts b = .ok b' ∧ Meets l.iters true b' (cs ++ ds) ∧
      ∀ it e, csum ds e it = lsum ts fun tapeI => lsum g.terms fun tm => if it ∈ g.iters then tadd l D a q G ne dx e tm tapeI it else 0
  | [], _, b, cs, hb => ⟨b, [], rfl, by simpa using hb, fun it e => by simp [csum]⟩
  | tapeI :: ts, hv, b, cs, hb => by
    obtain ⟨k1, k2, k3⟩ := hv tapeI List.mem_cons_self
    obtain ⟨b1, ds1, g1, g2, g3⟩ := genTerms_ok (D := D) (G := G) (ne := ne) hmax g dx tapeI k1 k2 g.terms k3 hb
    obtain ⟨b', ds, h1, h2, h3⟩ := genGroup_ok hmax g dx ts (fun t ht => hv t (List.mem_cons_of_mem _ ht)) g2
    refine ⟨b', ds1 ++ ds, ?_, by rwa [List.append_assoc] at h2, fun it e => ?_⟩
    · rw [genGroup, g1]; exact h1
    · rw [csum_append, g3, h3, lsum_cons]

end ops

/-! ### sums over the groups -/

theorem used_iff {a : An} {q : Nat} {l : Loop} {tm : Term} {it : Nat} :
    used a q l tm it = true ↔ ∃ tapeI < l.dep.length, ∃ e, cellOf (a.row q tapeI) tm it = some e := by
  unfold used
  rw [List.any_eq_true]
  constructor
  · rintro ⟨t, h1, h2⟩
    exact ⟨t, List.mem_range.mp h1, Option.isSome_iff_exists.mp h2⟩
  · rintro ⟨t, h1, h2⟩
    exact ⟨t, List.mem_range.mpr h1, Option.isSome_iff_exists.mpr h2⟩

theorem mem_termIters {a : An} {q : Nat} {l : Loop} {j it : Nat} {tm : Term} (h : it ∈ termIters a q l j tm) :
    it < l.iters ∧ used a q l tm it = true ∧ ∀ t, tm = .idx t → l.var t it = some j := by
  cases tm with
  | idx t =>
    simp only [termIters, idxIters, List.mem_filter, List.mem_range, Bool.and_eq_true, beq_iff_eq] at h
    exact ⟨h.1, h.2.1, fun t' ht' => by injection ht' with ht'; subst ht'; exact h.2.2⟩
  | non j' =>
    simp only [termIters, nonIters, List.mem_filter, List.mem_range] at h
    exact ⟨h.1, h.2, fun t' ht' => absurd ht' nofun⟩

theorem called_iff {a : An} {q : Nat} {l : Loop} {n : Nat} {g : ColGroup} (hg : g ∈ colGroups a q l n) (j : Nat) :
    called a q l g j = true ↔ ∃ its, (j, its) ∈ g.cols := by
  have hok := colGroups_ok a q l n
  unfold called
  simp only [List.any_eq_true, Bool.and_eq_true, beq_iff_eq]
  constructor
  · rintro ⟨tapeI, _, tm, htm, it, hit, _, hcol⟩
    obtain ⟨j', its, he, hit'⟩ := hok.its g hg it hit
    obtain ⟨_, _, _, hterms⟩ := entry_mem he
    obtain ⟨hc, hits⟩ := (hterms tm).mp htm
    have hj : j' = j := by
      rw [← hits] at hit'
      cases tm with
      | idx t =>
        have := (mem_termIters hit').2.2 t rfl
        simp only [colOf] at hcol
        rw [this] at hcol
        exact Option.some.inj hcol
      | non j'' =>
        have h1 : j'' = j' := (mem_contr.mp hc).2
        simp only [colOf, Option.some.injEq] at hcol
        omega
    subst hj
    obtain ⟨g', g1, g2, g3, _⟩ := hok.all j' its g.terms he
    have : g' = g := List.inj_on_of_nodup_map hok.nd g1 hg g2
    exact ⟨its, this ▸ g3⟩
  · rintro ⟨its, h⟩
    have he := hok.cols g hg j its h
    obtain ⟨_, hne, _, hterms⟩ := entry_mem he
    obtain ⟨tm, htm⟩ := List.exists_mem_of_ne_nil _ hne
    obtain ⟨hc, hits⟩ := (hterms tm).mp htm
    obtain ⟨it, hit⟩ := List.exists_mem_of_ne_nil _ (mem_contr.mp hc).1
    obtain ⟨g', g1, g2, _, g4⟩ := hok.all j its g.terms he
    have hgg : g' = g := List.inj_on_of_nodup_map hok.nd g1 hg g2
    obtain ⟨_, hu, hv⟩ := mem_termIters hit
    obtain ⟨tapeI, ht, e, hcell⟩ := used_iff.mp hu
    refine ⟨tapeI, List.mem_range.mpr ht, tm, htm, it, hgg ▸ g4 it (hits ▸ hit), by rw [hcell]; rfl, ?_⟩
    cases tm with
    | idx t => exact hv t rfl
    | non j' =>
      have h1 : j' = j := (mem_contr.mp hc).2
      rw [h1]; rfl

/-- what a group adds to an element of the column -/
def groupSum (H : Term → Nat → α) (g : ColGroup) (j : Nat) : α :=
  match g.cols.find? fun c => c.1 == j with
  | some c => lsum c.2 fun it => lsum g.terms fun tm => H tm it
  | none => 0

theorem groupSum_eq {a : An} {q : Nat} {l : Loop} {n : Nat} {g : ColGroup} (hg : g ∈ colGroups a q l n) (H : Term → Nat → α) (j : Nat) :
    groupSum H g j = lsum (contr a q l j) fun tm => if tm ∈ g.terms ∧ j ∈ g.cols.map (·.1) then lsum (termIters a q l j tm) (H tm) else 0 := by
  have hok := colGroups_ok a q l n
  unfold groupSum
  by_cases hj : ∃ its, (j, its) ∈ g.cols
  · obtain ⟨its, h⟩ := hj
    rw [find_sorted (hok.sorted g hg) h]
    simp only
    obtain ⟨_, _, hnd, hterms⟩ := entry_mem (hok.cols g hg j its h)
    rw [lsum_comm, lsum_subset hnd (contr_nodup j) fun x hx => ((hterms x).mp hx).1]
    refine lsum_congr fun tm _ => ?_
    have hm : j ∈ g.cols.map (·.1) := List.mem_map.mpr ⟨_, h, rfl⟩
    by_cases htm : tm ∈ g.terms
    · rw [if_pos htm, if_pos ⟨htm, hm⟩, ((hterms tm).mp htm).2]
    · rw [if_neg htm, if_neg fun h => htm h.1]
  · have hnm : j ∉ g.cols.map (·.1) := by
      intro hm
      obtain ⟨⟨j', its⟩, h1, h2⟩ := List.mem_map.mp hm
      simp only at h2
      subst h2
      exact hj ⟨its, h1⟩
    have : (g.cols.find? fun c => c.1 == j) = none := by
      rw [List.find?_eq_none]
      intro c hc h
      exact hnm (List.mem_map.mpr ⟨c, hc, by simpa using h⟩)
    rw [this]
    simp only
    rw [lsum_zero]
    intro tm _
    exact if_neg fun h => hnm h.2

/-- the groups add every contribution at every iteration once -/
theorem groups_total {a : An} {q : Nat} {l : Loop} {n : Nat} (H : Term → Nat → α) {j : Nat} (hj : j < n) :
    (lsum (colGroups a q l n) fun g => groupSum H g j) = lsum (contr a q l j) fun tm => lsum (termIters a q l j tm) (H tm) := by
  have hok := colGroups_ok a q l n
  rw [lsum_congr fun g hg => groupSum_eq hg H j, lsum_comm]
  refine lsum_congr fun tm htm => ?_
  obtain ⟨tms, he, hm⟩ := entry_exists hj htm
  obtain ⟨g0, g1, g2, g3, _⟩ := hok.all _ _ _ he
  rw [lsum_single (List.Nodup.of_map _ hok.nd) g1]
  · rw [if_pos ⟨g2 ▸ hm, List.mem_map.mpr ⟨_, g3, rfl⟩⟩]
  · intro g hg hne
    refine if_neg ?_
    rintro ⟨h1, h2⟩
    obtain ⟨⟨j', its⟩, h3, h4⟩ := List.mem_map.mp h2
    simp only at h4
    subst h4
    have he' := hok.cols g hg j' its h3
    have hits := (((entry_mem he').2.2.2 tm).mp h1).2
    rw [← hits] at he'
    refine hne (List.inj_on_of_nodup_map hok.nd hg g1 ?_)
    rw [entry_eq he' he, g2]

theorem contr_sum {a : An} {q : Nat} {l : Loop} (j : Nat) (K : Term → α) (hK : ∀ tm, termIters a q l j tm = [] → K tm = 0) :
    lsum (contr a q l j) K = (lsum (List.range l.ind.length) fun t => K (.idx t)) + K (.non j) := by
  unfold contr
  rw [lsum_append, lsum_map, lsum_filter]
  congr 1
  · refine lsum_congr fun t _ => ?_
    by_cases h : idxIters a q l t j = []
    · rw [if_neg (by simpa using h), hK (.idx t) h]
    · rw [if_pos (by simpa using h)]
  · split
    · rename_i h
      rw [lsum_nil, hK (.non j) h]
    · simp

/-- the value which the loop adds to element `e` of column `j`, by iteration and tape equation -/
def colVal (l : Loop) (D : Nat → Nat → Nat → α) (a : An) (q : Nat) (G : Nat → Nat → α) (ne j e tapeI it : Nat) : α :=
  (lsum (List.range l.ind.length) fun t => if l.var t it = some j ∧ cell (a.row q tapeI).idxPos t it = some e then D tapeI t it else 0) +
    if cell (a.row q tapeI).nonPos j it = some e then nonVal l (D tapeI) (a.ev q tapeI) G ne (a.row q tapeI).tmpEvals j it else 0

theorem col_total (l : Loop) (D : Nat → Nat → Nat → α) (a : An) (q : Nat) (G : Nat → Nat → α) (ne n : Nat) {j : Nat} (hj : j < n) (e : Nat) (dx : α) :
    (lsum (colGroups a q l n) fun g => groupSum (fun tm it => lsum (List.range l.dep.length) fun tapeI => tadd l D a q G ne dx e tm tapeI it) g j) =
      (lsum (List.range l.iters) fun it => lsum (List.range l.dep.length) fun tapeI => colVal l D a q G ne j e tapeI it) * dx := by
  rw [groups_total _ hj, contr_sum j _ fun tm h => by rw [h]; rfl, ← lsum_mul_right]
  -- iterations in which nothing is requested add nothing
  have hun : ∀ tm it, ¬ used a q l tm it = true → (lsum (List.range l.dep.length) fun tapeI => tadd l D a q G ne dx e tm tapeI it) = 0 := by
    intro tm it hu
    refine lsum_zero fun tapeI ht => ?_
    rw [tadd, if_neg]
    intro hc
    exact hu (used_iff.mpr ⟨tapeI, List.mem_range.mp ht, e, hc⟩)
  have h1 : ∀ t, lsum (termIters a q l j (.idx t)) (fun it => lsum (List.range l.dep.length) fun tapeI => tadd l D a q G ne dx e (.idx t) tapeI it) =
      lsum (List.range l.iters) fun it => lsum (List.range l.dep.length) fun tapeI =>
        (if l.var t it = some j ∧ cell (a.row q tapeI).idxPos t it = some e then D tapeI t it else 0) * dx := by
    intro t
    simp only [termIters, idxIters]
    rw [lsum_filter]
    refine lsum_congr fun it _ => ?_
    by_cases hv : l.var t it = some j
    · have hr : (lsum (List.range l.dep.length) fun tapeI => tadd l D a q G ne dx e (.idx t) tapeI it) =
          lsum (List.range l.dep.length) fun tapeI => (if l.var t it = some j ∧ cell (a.row q tapeI).idxPos t it = some e then D tapeI t it else 0) * dx := by
        refine lsum_congr fun tapeI _ => ?_
        rw [tadd]
        by_cases hc : cell (a.row q tapeI).idxPos t it = some e
        · rw [if_pos (show cellOf (a.row q tapeI) (.idx t) it = some e from hc), if_pos ⟨hv, hc⟩]; rfl
        · rw [if_neg (show ¬ cellOf (a.row q tapeI) (.idx t) it = some e from hc), if_neg fun h => hc h.2, zero_mul]
      rw [← hr]
      by_cases hu : used a q l (.idx t) it = true
      · rw [if_pos (by simp [hu, hv])]
      · rw [if_neg (by simp [hu]), hun _ _ hu]
    · rw [if_neg (by simp [hv])]
      symm
      refine lsum_zero fun tapeI _ => ?_
      rw [if_neg fun h => hv h.1, zero_mul]
  have h2 : lsum (termIters a q l j (.non j)) (fun it => lsum (List.range l.dep.length) fun tapeI => tadd l D a q G ne dx e (.non j) tapeI it) =
      lsum (List.range l.iters) fun it => lsum (List.range l.dep.length) fun tapeI =>
        (if cell (a.row q tapeI).nonPos j it = some e then nonVal l (D tapeI) (a.ev q tapeI) G ne (a.row q tapeI).tmpEvals j it else 0) * dx := by
    simp only [termIters, nonIters]
    rw [lsum_filter]
    refine lsum_congr fun it _ => ?_
    have hr : (lsum (List.range l.dep.length) fun tapeI => tadd l D a q G ne dx e (.non j) tapeI it) =
        lsum (List.range l.dep.length) fun tapeI =>
        (if cell (a.row q tapeI).nonPos j it = some e then nonVal l (D tapeI) (a.ev q tapeI) G ne (a.row q tapeI).tmpEvals j it else 0) * dx := by
      refine lsum_congr fun tapeI _ => ?_
      rw [tadd]
      by_cases hc : cell (a.row q tapeI).nonPos j it = some e
      · rw [if_pos hc, if_pos (show cellOf (a.row q tapeI) (.non j) it = some e from hc)]; rfl
      · rw [if_neg hc, if_neg (show ¬ cellOf (a.row q tapeI) (.non j) it = some e from hc), zero_mul]
    rw [← hr]
    by_cases hu : used a q l (.non j) it = true
    · rw [if_pos hu]
    · rw [if_neg hu, hun _ _ hu]
  rw [lsum_congr fun t _ => h1 t, h2, lsum_comm, ← lsum_add]
  refine lsum_congr fun it _ => ?_
  rw [lsum_comm, ← lsum_add, ← lsum_mul_right]
  refine lsum_congr fun tapeI _ => ?_
  rw [colVal, lsum_mul_right, add_mul]

/-! ### running the groups of a loop -/

theorem runGroups_ok {l : Loop} {D : Nat → Nat → Nat → α} {a : An} {q : Nat} {G : Nat → Nat → α} {ne n : Nat} (hmax : l.iters - 1 ≤ sizeMax)
    (hpos : ∀ tapeI < l.dep.length, PosOk l.iters (a.row q tapeI).idxPos ∧ PosOk l.iters (a.row q tapeI).nonPos)
    (hval : ∀ tapeI < l.dep.length, ∀ tm it e, cellOf (a.row q tapeI) tm it = some e →
      ∃ v, termVal l D a q G ne tapeI tm = some v ∧ ∀ it, v it = tval l D a q G ne tapeI tm it) (dx : α) (j : Nat) :
    ∀ gs : List ColGroup, (∀ g ∈ gs, g ∈ colGroups a q l n) → ∀ out : Nat → α,
    ∃ o, runGroups l D a q G ne dx j gs out = .ok o ∧ ∀ e, o e = out e + lsum gs fun g =>
      groupSum (fun tm it => lsum (List.range l.dep.length) fun tapeI => tadd l D a q G ne dx e tm tapeI it) g j
  | [], _, out => ⟨out, rfl, fun e => by simp⟩
  | g :: gs, hg, out => by
    have hok := colGroups_ok a q l n
    have hg0 := hg g List.mem_cons_self
    obtain ⟨b, ds, h1, h2, h3⟩ := genGroup_ok (D := D) (G := G) (ne := ne) hmax g dx (List.range l.dep.length) (fun tapeI ht =>
      ⟨(hpos tapeI (List.mem_range.mp ht)).1, (hpos tapeI (List.mem_range.mp ht)).2, fun tm _ => hval tapeI (List.mem_range.mp ht) tm⟩) (meets_empty l.iters true)
    rw [List.nil_append] at h2
    rw [runGroups, h1]
    simp only
    have rest := fun out => runGroups_ok (D := D) hmax hpos hval dx j gs (fun g' h' => hg g' (List.mem_cons_of_mem _ h')) out
    by_cases hc : called a q l g j = true
    · rw [if_pos hc]
      obtain ⟨its, hj⟩ := (called_iff hg0 j).mp hc
      have he := hok.cols g hg0 j its hj
      obtain ⟨_, hne, _, hterms⟩ := entry_mem he
      have hlt : ∀ it ∈ its, it < l.iters := by
        intro it hit
        obtain ⟨tm, htm⟩ := List.exists_mem_of_ne_nil _ hne
        rw [← ((hterms tm).mp htm).2] at hit
        exact (mem_termIters hit).1
      obtain ⟨o1, k1, k2⟩ := runGroup_ok h2 (hok.sorted g hg0) hj hlt out
      rw [k1]
      simp only
      obtain ⟨o, r1, r2⟩ := rest o1
      refine ⟨o, r1, fun e => ?_⟩
      rw [r2, k2, lsum_cons, add_assoc]
      congr 2
      rw [groupSum, find_sorted (hok.sorted g hg0) hj]
      simp only
      obtain ⟨g', g1, g2, _, g4⟩ := hok.all j its g.terms he
      have hgg : g' = g := List.inj_on_of_nodup_map hok.nd g1 hg0 g2
      refine lsum_congr fun it hit => ?_
      rw [h3, lsum_comm]
      have hin : it ∈ g.iters := hgg ▸ g4 it hit
      refine lsum_congr fun tm _ => lsum_congr fun tapeI _ => ?_
      rw [if_pos hin]
    · rw [if_neg hc]
      obtain ⟨o, r1, r2⟩ := rest out
      refine ⟨o, r1, fun e => ?_⟩
      rw [r2, lsum_cons]
      have : (g.cols.find? fun c => c.1 == j) = none := by
        rw [List.find?_eq_none]
        intro c hcm h
        refine hc ((called_iff hg0 j).mpr ⟨c.2, ?_⟩)
        have : c.1 = j := by simpa using h
        rw [← this]; exact hcm
      rw [groupSum, this]
      simp

end Verif.Loops.For1
