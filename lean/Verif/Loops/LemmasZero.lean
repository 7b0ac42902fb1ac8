import Verif.Loops.LemmasJac

/-
Lemmas on the zero order of models with loops.
-/
namespace Verif.Loops

open Verif.Index Verif.Ranges

variable {α : Type}

theorem filterMap_single {β : Type} (P : Nat → Prop) [DecidablePred P] (f : Nat → β) (t0 : Nat) (h0 : P t0) : ∀ (L : List Nat), L.Nodup → t0 ∈ L →
    (∀ t ∈ L, P t → t = t0) → L.filterMap (fun t => if P t then some (f t) else none) = [f t0]
  | [], _, h, _ => by simp at h
  | t :: L, hnd, h, hu => by
    rw [List.nodup_cons] at hnd
    rw [List.filterMap_cons]
    by_cases ht : t = t0
    · subst ht
      rw [if_pos h0]
      simp only
      congr 1
      rw [List.filterMap_eq_nil_iff]
      intro t' ht'
      refine if_neg fun hp => ?_
      rw [hu t' (List.mem_cons_of_mem _ ht') hp] at ht'
      exact hnd.1 ht'
    · rw [if_neg fun hp => ht (hu t List.mem_cons_self hp)]
      simp only
      refine filterMap_single P f t0 h0 L hnd.2 ?_ fun t' ht' => hu t' (List.mem_cons_of_mem _ ht')
      rcases List.mem_cons.mp h with h | h
      · exact absurd h.symm ht
      · exact h

/-- contributions of the tape equations `ts` -/
def contr0 (l : Loop) (Y : Nat → Nat → α) (ts : List Nat) : List (Contr α) := ts.map fun t => ⟨Y t, l.eq t⟩

def locs0 (l : Loop) (t : Nat) : List (Nat × Nat) := (List.range l.iters).filterMap fun it => (l.eq t it).map fun e => (it, e)

theorem mem_locs0 {l : Loop} (hd : ∀ d ∈ l.dep, d.length = l.iters) {t it e : Nat} : (it, e) ∈ locs0 l t ↔ l.eq t it = some e := by
  unfold locs0
  rw [List.mem_filterMap]
  constructor
  · rintro ⟨it', _, h⟩
    rw [Option.map_eq_some_iff] at h
    obtain ⟨e', h1, h2⟩ := h
    simp only [Prod.mk.injEq] at h2
    rw [← h2.1, ← h2.2]; exact h1
  · intro h
    exact ⟨it, List.mem_range.mpr (eq_bounds hd h).2, by rw [h]; rfl⟩

theorem locs0_sorted (l : Loop) (t : Nat) : Sorted (locs0 l t) := by
  unfold locs0 Sorted
  rw [List.pairwise_filterMap]
  refine List.pairwise_lt_range.imp ?_
  intro a b hab p hp q hq
  rw [Option.map_eq_some_iff] at hp hq
  obtain ⟨_, _, rfl⟩ := hp
  obtain ⟨_, _, rfl⟩ := hq
  exact hab

theorem locAt_locs0 {l : Loop} (hd : ∀ d ∈ l.dep, d.length = l.iters) (t : Nat) : locAt (locs0 l t) = l.eq t := by
  funext it
  apply Option.ext
  intro e
  rw [locAt_iff (locs0_sorted l t), mem_locs0 hd]

theorem gen0_ok {l : Loop} (hmax : l.iters - 1 ≤ sizeMax) (hd : ∀ d ∈ l.dep, d.length = l.iters) {m : Nat} (hm : ∀ t it i, l.eq t it = some i → i < m)
    (Y : Nat → Nat → α) : ∀ (ts : List Nat), (∀ t ∈ ts, ∃ it i, l.eq t it = some i) → ∀ {b : Body α} {cs : List (Contr α)}, Meets l.iters false b cs →
    ∃ b', gen0 l m Y ts b = .ok b' ∧ Meets l.iters false b' (cs ++ contr0 l Y ts)
  | [], _, b, cs, hb => ⟨b, rfl, by simpa [contr0] using hb⟩
  | t :: ts, hu, b, cs, hb => by
    have hlocs : ((List.range l.iters).filterMap fun it => ((l.eq t it).filter (· < m)).map fun e => (it, e)) = locs0 l t := by
      unfold locs0
      refine List.filterMap_congr fun it _ => ?_
      cases he : l.eq t it with
      | none => rfl
      | some e => simp [hm t it e he]
    obtain ⟨it0, i0, h0⟩ := hu t List.mem_cons_self
    obtain ⟨b1, g1, g2⟩ := meets_loopResult hmax hb (locs0_sorted l t) (fun p hp => (eq_bounds hd ((mem_locs0 hd).mp hp)).2)
      (by intro h; have := (mem_locs0 hd).mpr h0; rw [h] at this; simp at this) (Y t)
    obtain ⟨b2, k1, k2⟩ := gen0_ok hmax hd hm Y ts (fun t' ht' => hu t' (List.mem_cons_of_mem _ ht')) g2
    refine ⟨b2, ?_, ?_⟩
    · rw [gen0, hlocs, ← locs0, g1]
      exact k1
    · rw [locAt_locs0 hd, List.append_assoc] at k2
      exact k2

theorem filter_contr0 (l : Loop) (Y : Nat → Nat → α) (ts : List Nat) (e it : Nat) :
    ((atIter it (contr0 l Y ts)).map fun p => ((p.1, p.2, false) : Write α)).filter (fun w => w.1 == e) =
      ts.filterMap fun t => if l.eq t it = some e then some (e, Y t it, false) else none := by
  unfold atIter contr0
  rw [List.filterMap_map, List.map_filterMap, List.filter_filterMap]
  refine List.filterMap_congr fun t _ => ?_
  simp only [Function.comp_apply]
  cases h : l.eq t it with
  | none => simp
  | some e' =>
    by_cases he : e' = e
    · subst he; simp
    · simp [he]

theorem run0_ok [Add α] {M : Model} (hM : M.Ok) {m : Nat} (hm : ∀ (q : Nat) (l : Loop) (jac : List (List Nat)), M.loops[q]? = some (l, jac) → ∀ t it i, l.eq t it = some i → i < m)
    (hu : ∀ (q : Nat) (l : Loop) (jac : List (List Nat)), M.loops[q]? = some (l, jac) → ∀ t < l.dep.length, ∃ it i, l.eq t it = some i)
    (Y : Nat → Nat → Nat → α) : ∀ (qs : List Nat), qs.Nodup → (∀ q ∈ qs, q < M.loops.length) → ∀ out : Nat → α,
    ∃ o, run0 M m Y qs out = .ok o ∧
      (∀ e, (∀ q ∈ qs, ∀ (l : Loop) (jac : List (List Nat)), M.loops[q]? = some (l, jac) → ∀ t it, l.eq t it ≠ some e) → o e = out e) ∧
      (∀ q ∈ qs, ∀ (l : Loop) (jac : List (List Nat)), M.loops[q]? = some (l, jac) → ∀ t it i, l.eq t it = some i → o i = Y q t it)
  | [], _, _, out => ⟨out, rfl, fun _ _ => rfl, fun q hq => by simp at hq⟩
  | q :: qs, hnd, hq, out => by
    rw [List.nodup_cons] at hnd
    have hlt := hq q List.mem_cons_self
    obtain ⟨⟨l, jac⟩, hl⟩ : ∃ x, M.loops[q]? = some x := ⟨_, List.getElem?_eq_getElem hlt⟩
    rw [run0, hl]
    simp only
    have hmax : l.iters - 1 ≤ sizeMax := by
      have := hM.iters q l jac hl
      unfold sizeMax
      omega
    have hd := hM.deps q l jac hl
    obtain ⟨b, g1, g2⟩ := gen0_ok hmax hd (hm q l jac hl) (Y q) (List.range l.dep.length)
      (fun t ht => hu q l jac hl t (List.mem_range.mp ht)) (meets_empty l.iters false)
    rw [g1]
    simp only
    obtain ⟨o1, k1, k2, k3⟩ := runLoop_assign g2.1 out l.iters (Nat.le_refl _)
    rw [k1]
    simp only
    rw [List.nil_append] at g2
    have hfil : ∀ it < l.iters, ∀ e ws, (List.range l.dep.length).filterMap (fun t => if l.eq t it = some e then some ((e, Y q t it, false) : Write α) else none) = ws →
        ws.length ≤ 1 → (b.effect it).filter (fun w => w.1 == e) = ws := by
      intro it hit e ws hws hle
      have hp := (g2.2 it hit).filter fun w => w.1 == e
      rw [filter_contr0, hws] at hp
      match ws, hle with
      | [], _ => exact hp.eq_nil
      | [w], _ => exact hp.eq_singleton
    obtain ⟨o, h1, h2, h3⟩ := run0_ok hM hm hu Y qs hnd.2 (fun q' h' => hq q' (List.mem_cons_of_mem _ h')) o1
    refine ⟨o, h1, ?_, ?_⟩
    · intro e he
      rw [h2 e fun q' h' => he q' (List.mem_cons_of_mem _ h')]
      refine k2 e fun it hit => hfil it hit e [] ?_ (by simp)
      rw [List.filterMap_eq_nil_iff]
      intro t _
      exact if_neg (he q List.mem_cons_self l jac hl t it)
    · intro q' hq' l' jac' hl' t it i hi
      rcases List.mem_cons.mp hq' with rfl | hq'
      · rw [hl] at hl'
        simp only [Option.some.injEq, Prod.mk.injEq] at hl'
        obtain ⟨rfl, rfl⟩ := hl'
        have hb := eq_bounds hd hi
        rw [h2 i fun q2 h2' l2 jac2 hl2 t2 it2 he => hnd.1 (by
          rw [(hM.once q' q2 l l2 jac jac2 t t2 it it2 i hl hl2 hi he).1]; exact h2')]
        refine k3 i (Y q' t it) it hb.2 ?_ ?_
        · refine hfil it hb.2 i _ ?_ (by simp)
          refine filterMap_single (fun t => l.eq t it = some i) (fun t => ((i, Y q' t it, false) : Write α)) t hi (List.range l.dep.length) List.nodup_range
            (List.mem_range.mpr hb.1) ?_
          intro t' _ ht'
          exact (hM.once q' q' l l jac jac t' t it it i hl hl ht' hi).2.1
        · intro it' hit' hne
          refine hfil it' hit' i [] ?_ (by simp)
          rw [List.filterMap_eq_nil_iff]
          intro t' _
          refine if_neg fun ht' => hne ?_
          exact (hM.once q' q' l l jac jac t' t it' it i hl hl ht' hi).2.2
      · exact h3 q' hq' l' jac' hl' t it i hi

end Verif.Loops
