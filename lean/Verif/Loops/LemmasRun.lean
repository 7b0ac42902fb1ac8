import Verif.Loops.LemmasCond
import Verif.Loops.ModelJac
import Mathlib.Algebra.BigOperators.Group.List.Basic
import Mathlib.Algebra.BigOperators.Ring.Finset
import Mathlib.Algebra.BigOperators.Group.Finset.Basic
import Mathlib.Tactic.Abel

/-
Lemmas on running loops whose bodies only add, or assign every element once.
-/
namespace Verif.Loops

open Verif.Index Verif.Ranges

variable {α : Type}

section add
variable [CommRing α]

/-- what writes add to an element -/
def addSum (e : Nat) (ws : List (Write α)) : α := (ws.map fun w => if w.1 = e then w.2.1 else 0).sum

theorem foldl_add (e : Nat) : ∀ (ws : List (Write α)), (∀ w ∈ ws, w.2.2 = true) → ∀ out : Nat → α,
    ws.foldl applyWrite out e = out e + addSum e ws
  | [], _, out => by simp [addSum]
  | w :: ws, h, out => by
    rw [List.foldl_cons, foldl_add e ws fun w' hw' => h w' (List.mem_cons_of_mem _ hw')]
    have := h w List.mem_cons_self
    simp only [addSum, List.map_cons, List.sum_cons, applyWrite, this, if_true]
    by_cases he : e = w.1
    · rw [if_pos he, if_pos he.symm, add_assoc]
    · rw [if_neg he, if_neg (Ne.symm he), zero_add]

theorem runLoop_add {n : Nat} {b : Body α} (hb : BodyOk n b) (hadd : ∀ it < n, ∀ w ∈ b.effect it, w.2.2 = true) (out : Nat → α) :
    ∀ k ≤ n, ∃ o, runLoop b k out = some o ∧ ∀ e, o e = out e + ∑ it ∈ Finset.range k, addSum e (b.effect it)
  | 0, _ => ⟨out, rfl, fun e => by simp⟩
  | k + 1, hk => by
    obtain ⟨o, ho, hv⟩ := runLoop_add hb hadd out k (by omega)
    obtain ⟨ws, hws, hp⟩ := body_runs hb (it := k) (by omega)
    refine ⟨ws.foldl applyWrite o, ?_, fun e => ?_⟩
    · rw [runLoop, ho, Option.bind_some, runIter, hws]; rfl
    · rw [foldl_add e ws fun w hw => hadd k (by omega) w (hp.mem_iff.mp hw), hv, Finset.sum_range_succ, add_assoc]
      congr 2
      exact (hp.map _).sum_eq

end add

/-! ### assignments -/

theorem foldl_filter [Add α] (e : Nat) : ∀ (ws : List (Write α)) (out : Nat → α),
    ws.foldl applyWrite out e = (ws.filter fun w => w.1 == e).foldl applyWrite out e
  | [], out => rfl
  | w :: ws, out => by
    have hgo : ∀ (ws : List (Write α)) (o1 o2 : Nat → α), o1 e = o2 e → ws.foldl applyWrite o1 e = ws.foldl applyWrite o2 e := by
      intro ws
      induction ws with
      | nil => intro o1 o2 h; exact h
      | cons w ws ih =>
        intro o1 o2 h
        refine ih _ _ ?_
        simp only [applyWrite, h]
    rw [List.foldl_cons, List.filter_cons]
    by_cases he : w.1 = e
    · rw [if_pos (by simpa using he), List.foldl_cons]
      exact foldl_filter e ws _
    · rw [if_neg (by simpa using he), ← foldl_filter e ws out]
      refine hgo ws _ _ ?_
      simp only [applyWrite]
      rw [if_neg (Ne.symm he)]

/-- an element which no iteration writes keeps its value, an element which one assignment of one iteration writes has
that value -/
theorem runLoop_assign [Add α] {n : Nat} {b : Body α} (hb : BodyOk n b) (out : Nat → α) :
    ∀ k ≤ n, ∃ o, runLoop b k out = some o ∧
      (∀ e, (∀ it < k, (b.effect it).filter (fun w => w.1 == e) = []) → o e = out e) ∧
      (∀ e v it, it < k → (b.effect it).filter (fun w => w.1 == e) = [(e, v, false)] →
        (∀ it' < k, it' ≠ it → (b.effect it').filter (fun w => w.1 == e) = []) → o e = v)
  | 0, _ => ⟨out, rfl, fun e _ => rfl, fun _ _ _ h => absurd h (by omega)⟩
  | k + 1, hk => by
    obtain ⟨o, ho, h1, h2⟩ := runLoop_assign hb out k (by omega)
    obtain ⟨ws, hws, hp⟩ := body_runs hb (it := k) (by omega)
    refine ⟨ws.foldl applyWrite o, ?_, ?_, ?_⟩
    · rw [runLoop, ho, Option.bind_some, runIter, hws]; rfl
    · intro e he
      rw [foldl_filter]
      have := (hp.filter fun w => w.1 == e)
      rw [he k (by omega)] at this
      rw [this.eq_nil]
      exact h1 e fun it hit => he it (by omega)
    · intro e v it hit hw hother
      rw [foldl_filter]
      have := (hp.filter fun w => w.1 == e)
      by_cases hk' : it = k
      · subst hk'
        rw [hw] at this
        rw [this.eq_singleton]
        simp [applyWrite]
      · rw [hother k (by omega) (Ne.symm hk')] at this
        rw [this.eq_nil]
        exact h2 e v it (by omega) hw fun it' h' hne => hother it' (by omega) hne

/-! ### contributions -/

/-- the body executes exactly these contributions, all of them adding (or all of them assigning) -/
def Meets (n : Nat) (add : Bool) (b : Body α) (cs : List (Contr α)) : Prop :=
  BodyOk n b ∧ ∀ it < n, (b.effect it).Perm ((atIter it cs).map fun p => (p.1, p.2, add))

theorem meets_empty (n : Nat) (add : Bool) : Meets n add (⟨[], []⟩ : Body α) [] :=
  ⟨empty_ok n, fun it _ => by simp [Body.effect, directs, atIter]⟩

theorem meets_loopResult {n : Nat} (hmax : n - 1 ≤ sizeMax) {add : Bool} {b : Body α} {cs : List (Contr α)} (hb : Meets n add b cs)
    {locs : List (Nat × Nat)} (hs : Sorted locs) (hn : ∀ p ∈ locs, p.1 < n) (hne : locs ≠ []) (val : Nat → α) :
    ∃ b', loopResult locs n val (locPat locs) add b = some b' ∧ Meets n add b' (cs ++ [⟨val, locAt locs⟩]) := by
  obtain ⟨b', h1, h2, h3⟩ := loopResult_ok hmax hb.1 hs hn hne val add
  refine ⟨b', h1, h2, fun it hit => (h3 it hit).trans ?_⟩
  rw [atIter, List.filterMap_append, List.map_append]
  refine (List.Perm.append_right _ (hb.2 it hit)).trans ?_
  refine List.Perm.append_left _ ?_
  simp only [List.filterMap_cons, List.filterMap_nil]
  cases locAt locs it <;> simp

theorem mem_locsOf {pos : List (Option Nat)} {it e : Nat} : (it, e) ∈ locsOf pos ↔ pos[it]? = some (some e) := by
  unfold locsOf
  rw [List.mem_filterMap]
  constructor
  · rintro ⟨it', h1, h2⟩
    cases h : pos[it']?.join with
    | none => rw [h] at h2; simp at h2
    | some e' =>
      rw [h] at h2
      simp only [Option.map_some, Option.some.injEq, Prod.mk.injEq] at h2
      obtain ⟨rfl, rfl⟩ := h2
      exact Option.join_eq_some_iff.mp h
  · intro h
    refine ⟨it, ?_, ?_⟩
    · rw [List.mem_range]
      exact (List.getElem?_eq_some_iff.mp h).1
    · rw [h]; rfl

theorem locsOf_sorted (pos : List (Option Nat)) : Sorted (locsOf pos) := by
  unfold locsOf Sorted
  rw [List.pairwise_filterMap]
  refine List.pairwise_lt_range.imp ?_
  intro a b hab p hp q hq
  cases ha : pos[a]?.join with
  | none => rw [ha] at hp; simp at hp
  | some x =>
    cases hb : pos[b]?.join with
    | none => rw [hb] at hq; simp at hq
    | some y =>
      rw [ha] at hp; rw [hb] at hq
      simp only [Option.map_some, Option.some.injEq] at hp hq
      rw [← hp, ← hq]; exact hab

theorem locAt_iff {locs : List (Nat × Nat)} (hs : Sorted locs) {it e : Nat} : locAt locs it = some e ↔ (it, e) ∈ locs := by
  refine ⟨locAt_mem, fun h => ?_⟩
  cases hl : locAt locs it with
  | none => exact absurd (List.mem_map.mpr ⟨_, h, rfl⟩) (locAt_none.mp hl)
  | some e' =>
    have h' := locAt_mem hl
    have hnd : (locs.map (·.1)).Nodup := by
      rw [List.Nodup, List.pairwise_map]
      exact hs.imp fun h => by omega
    have := List.inj_on_of_nodup_map hnd h h' rfl
    simp only [Prod.mk.injEq, true_and] at this
    rw [this]

theorem locAt_locsOf (pos : List (Option Nat)) (it : Nat) : locAt (locsOf pos) it = (pos[it]?).join := by
  apply Option.ext
  intro e
  rw [locAt_iff (locsOf_sorted pos), mem_locsOf, Option.join_eq_some_iff]

theorem jacElement_ok {n : Nat} (hmax : n - 1 ≤ sizeMax) {b : Body α} {cs : List (Contr α)} (hb : Meets n true b cs)
    {pos : List (Option Nat)} (hl : pos.length = n) (hne : ∃ it e : Nat, pos[it]? = some (some e)) (val : Nat → α) :
    ∃ b', jacElement pos val b = .ok b' ∧ Meets n true b' (cs ++ [⟨val, fun it => (pos[it]?).join⟩]) := by
  obtain ⟨it0, e0, h0⟩ := hne
  obtain ⟨b', h1, h2⟩ := meets_loopResult hmax hb (locsOf_sorted pos)
    (by
      rintro ⟨it, e⟩ hp
      have := (List.getElem?_eq_some_iff.mp (mem_locsOf.mp hp)).1
      simpa [hl] using this)
    (by
      intro h
      have := mem_locsOf.mpr h0
      rw [h] at this; simp at this) val
  refine ⟨b', ?_, ?_⟩
  · rw [jacElement, hl, h1]
  · have : locAt (locsOf pos) = fun it => (pos[it]?).join := funext fun it => locAt_locsOf pos it
    rwa [this] at h2

/-- what contributions add to an element at one iteration -/
def csum [CommRing α] (cs : List (Contr α)) (e it : Nat) : α :=
  (cs.map fun c => if c.loc it = some e then c.val it else 0).sum

theorem addSum_atIter [CommRing α] (e it : Nat) : ∀ cs : List (Contr α),
    addSum e ((atIter it cs).map fun p => (p.1, p.2, true)) = csum cs e it
  | [] => by simp [atIter, addSum, csum]
  | c :: cs => by
    have ih := addSum_atIter e it cs
    rw [atIter, List.filterMap_cons]
    cases h : c.loc it with
    | none =>
      simp only [Option.map_none]
      rw [← atIter, ih, csum, csum, List.map_cons, List.sum_cons, h]
      simp
    | some e' =>
      simp only [Option.map_some, List.map_cons]
      rw [← atIter, addSum, List.map_cons, List.sum_cons, ← addSum, ih, csum, csum, List.map_cons, List.sum_cons, h]
      simp

theorem meets_run [CommRing α] {n : Nat} {b : Body α} {cs : List (Contr α)} (hb : Meets n true b cs) (out : Nat → α) :
    ∃ o, runLoop b n out = some o ∧ ∀ e, o e = out e + ∑ it ∈ Finset.range n, csum cs e it := by
  obtain ⟨o, h1, h2⟩ := runLoop_add hb.1 (fun it hit w hw => by
    have := (hb.2 it hit).mem_iff.mp hw
    obtain ⟨p, _, rfl⟩ := List.mem_map.mp this
    rfl) out n (Nat.le_refl n)
  refine ⟨o, h1, fun e => ?_⟩
  rw [h2 e]
  congr 1
  refine Finset.sum_congr rfl fun it hit => ?_
  rw [← addSum_atIter]
  exact ((hb.2 it (Finset.mem_range.mp hit)).map _).sum_eq

end Verif.Loops
