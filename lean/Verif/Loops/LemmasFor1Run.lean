import Verif.Loops.LemmasFor1Group
import Verif.Loops.LemmasSum
import Verif.Index.Props

/-
Running the function of one group of columns for one column.
-/
namespace Verif.Loops.For1

open Verif.Index Verif.Ranges

variable {α : Type} [CommRing α]

theorem meets_iter {n : Nat} {b : Body α} {cs : List (Contr α)} (hb : Meets n true b cs) {it : Nat} (hit : it < n) (out : Nat → α) :
    ∃ o, runAt b (some (it : Int)) out = some o ∧ ∀ e, o e = out e + csum cs e it := by
  obtain ⟨ws, hws, hp⟩ := body_runs hb.1 hit
  refine ⟨ws.foldl applyWrite out, ?_, fun e => ?_⟩
  · rw [runAt, Option.bind_some, if_pos (by omega), Int.toNat_natCast, runIter, hws]
    rfl
  · rw [foldl_add e ws]
    · congr 1
      rw [← addSum_atIter]
      exact ((hp.trans (hb.2 it hit)).map _).sum_eq
    · intro w hw
      have := (hp.trans (hb.2 it hit)).mem_iff.mp hw
      obtain ⟨p, _, rfl⟩ := List.mem_map.mp this
      rfl

theorem sorted_map {β γ : Type} {l : List (Nat × β)} (h : Sorted l) (f : Nat × β → γ) : Sorted (l.map fun c => (c.1, f c)) := by
  unfold Sorted at h ⊢
  rw [List.pairwise_map]
  exact h

theorem count_eq {g : ColGroup} (hs : Sorted g.cols) {j : Nat} {its : List Nat} (hj : (j, its) ∈ g.cols) : count g j = some its.length := by
  have hr := detect_reproduces (g.cols.map fun c => (c.1, (c.2.length : Int))) (sorted_map hs fun c => (c.2.length : Int))
  have hm : ∀ c ∈ g.cols, (detect (g.cols.map fun c => (c.1, (c.2.length : Int)))).eval c.1 = some (c.2.length : Int) :=
    fun c hc => hr (c.1, (c.2.length : Int)) (List.mem_map.mpr ⟨c, hc, rfl⟩)
  unfold count
  simp only
  generalize detect (g.cols.map fun c => (c.1, (c.2.length : Int))) = p at hm
  by_cases hc : isConstant p = true
  · rw [if_pos hc]
    cases hcols : g.cols with
    | nil => rw [hcols] at hj; simp at hj
    | cons c cs =>
      rw [List.head?_cons, Option.map_some]
      have h1 := hm c (by rw [hcols]; exact List.mem_cons_self)
      have h2 := hm _ hj
      cases p with
      | linear p =>
        simp only [isConstant, beq_iff_eq] at hc
        simp only [Pat.eval, Option.some.injEq] at h1 h2
        rw [eval_slope_zero hc] at h1 h2
        congr 1
        omega
      | sectioned s => simp [isConstant] at hc
      | random s => simp [isConstant] at hc
  · rw [if_neg hc, hm _ hj]
    simp

theorem localIts_sorted {g : ColGroup} (hs : Sorted g.cols) : Sorted (localIts g) := sorted_map hs _

theorem enum_mem {its : List Nat} {k it : Nat} (hk : its[k]? = some it) : (k, (it : Int)) ∈ enum (its.map fun (it : Nat) => (it : Int)) := by
  have := enum_get (its.map fun (it : Nat) => (it : Int)) k
  rw [List.getElem?_map, hk] at this
  exact List.mem_of_getElem? this

theorem find_sorted {β : Type} {l : List (Nat × β)} (hs : Sorted l) {k : Nat} {v : β} (h : (k, v) ∈ l) : l.find? (fun c => c.1 == k) = some (k, v) := by
  induction l with
  | nil => simp at h
  | cons c l ih =>
    obtain ⟨h1, h2⟩ := List.pairwise_cons.mp hs
    rcases List.mem_cons.mp h with rfl | h
    · simp
    · have hlt := h1 _ h
      simp only at hlt
      rw [List.find?_cons_of_neg]
      · exact ih h2 h
      · simp only [beq_iff_eq]; omega

theorem modelIt_eq {g : ColGroup} (hs : Sorted g.cols) {j : Nat} {its : List Nat} (hj : (j, its) ∈ g.cols) {k it : Nat} (hk : its[k]? = some it) :
    modelIt g j k = some (it : Int) := by
  have hrow : (j, enum (its.map fun (it : Nat) => (it : Int))) ∈ localIts g := List.mem_map.mpr ⟨_, hj, rfl⟩
  have hsr : ∀ row ∈ localIts g, Sorted row.2 := by
    intro row hr
    obtain ⟨c, _, rfl⟩ := List.mem_map.mp hr
    exact enum_sorted _
  unfold modelIt
  cases hd : detectPlane (localIts g) with
  | some p =>
    simp only
    exact detectPlane_spec (localIts_sorted hs) hsr hd _ hrow _ (enum_mem hk)
  | none =>
    simp only
    rw [find_sorted (localIts_sorted hs) hrow, Option.bind_some]
    simp only
    rw [find_sorted (enum_sorted _) (enum_mem hk)]
    rfl

theorem detect_one (z : Int) (x : Nat) : (detect [(0, z)]).eval x = some z := by
  have : detect [(0, z)] = .linear ⟨0, 0, 1, z⟩ := by
    simp [detect, detectLinearSections, choose, maxSections, sectionsLoop, startSection, leave]
    rfl
  rw [this]
  simp [Pat.eval, Lin.eval]

theorem singleY_all {g : ColGroup} : ∀ {cols : List (Nat × List Nat)}, (∀ c ∈ cols, c.2.length = 1) →
    ∃ x2z, singleY 0 (cols.map fun c => (c.1, enum (c.2.map fun (it : Nat) => (it : Int)))) = some x2z ∧ x2z.length = cols.length
  | [], _ => ⟨[], rfl, rfl⟩
  | c :: cols, h => by
    obtain ⟨x2z, h1, h2⟩ := singleY_all (g := g) (cols := cols) fun c' hc' => h c' (List.mem_cons_of_mem _ hc')
    obtain ⟨it, hit⟩ := List.length_eq_one_iff.mp (h c List.mem_cons_self)
    refine ⟨(c.1, (it : Int)) :: x2z, ?_, by simp [h2]⟩
    rw [List.map_cons, hit]
    simp only [List.map_cons, List.map_nil]
    rw [show enum [(it : Int)] = [(0, (it : Int))] from rfl, singleY, if_pos rfl, h1]
    rfl

theorem modelIt1_eq {g : ColGroup} (hs : Sorted g.cols) (hc : createsLoop g = false) {j : Nat} {its : List Nat} (hj : (j, its) ∈ g.cols) :
    ∃ it : Nat, its = [it] ∧ modelIt1 g j = some (it : Int) := by
  have hone : ∀ c ∈ g.cols, c.2.length = 1 := by
    intro c h
    have := List.any_eq_false.mp hc c h
    simpa using this
  obtain ⟨it, hit⟩ := List.length_eq_one_iff.mp (hone _ hj)
  simp only at hit
  subst hit
  refine ⟨it, rfl, ?_⟩
  have hrow : (j, [(0, (it : Int))]) ∈ localIts g := List.mem_map.mpr ⟨_, hj, rfl⟩
  have hsr : ∀ row ∈ localIts g, Sorted row.2 := by
    intro row hr
    obtain ⟨c, _, rfl⟩ := List.mem_map.mp hr
    exact enum_sorted _
  have hev : ∀ p, detectPlane (localIts g) = some p → p.eval j 0 = some (it : Int) := fun p hp =>
    detectPlane_spec (localIts_sorted hs) hsr hp _ hrow (0, (it : Int)) (by simp)
  unfold modelIt1
  obtain ⟨x2z, hx, hlen⟩ := singleY_all (g := g) hone
  match hcols : g.cols with
  | [] => rw [hcols] at hj; simp at hj
  | [c] =>
    rw [hcols] at hj
    obtain rfl := List.mem_singleton.mp hj
    have : localIts g = [(j, [(0, (it : Int))])] := by rw [localIts, hcols]; rfl
    rw [this]
    simp only [detectPlane, Option.bind_some, Plane.eval]
    exact detect_one _ _
  | c :: c' :: rest =>
    have hf : firstY (localIts g) = 0 := by
      obtain ⟨it', hit'⟩ := List.length_eq_one_iff.mp (hone c (by rw [hcols]; exact List.mem_cons_self))
      rw [localIts, hcols, List.map_cons, hit']
      rfl
    have hsy : singleY (firstY (localIts g)) (localIts g) = some x2z := by rw [hf]; exact hx
    rw [hcols] at hlen
    cases x2z with
    | nil => simp at hlen
    | cons p ps =>
      have hd : detectPlane (localIts g) = some ⟨some (detect (p :: ps)), none⟩ := by
        unfold detectPlane
        split
        · rename_i x row heq
          rw [localIts, hcols] at heq
          simp at heq
        · rw [hsy]
      have := hev _ hd
      rw [hd, Option.bind_some]
      simp only [Plane.eval] at this ⊢
      exact this

theorem runLocal_ok {n : Nat} {b : Body α} {cs : List (Contr α)} (hb : Meets n true b cs) {g : ColGroup} (hs : Sorted g.cols) {j : Nat} {its : List Nat}
    (hj : (j, its) ∈ g.cols) (hits : ∀ it ∈ its, it < n) (out : Nat → α) : ∀ k ≤ its.length,
    ∃ o, runLocal b g j k out = some o ∧ ∀ e, o e = out e + lsum (its.take k) (csum cs e)
  | 0, _ => ⟨out, rfl, fun e => by simp⟩
  | k + 1, hk => by
    obtain ⟨o, h1, h2⟩ := runLocal_ok hb hs hj hits out k (by omega)
    have hget : its[k]? = some its[k] := List.getElem?_eq_getElem (by omega)
    obtain ⟨o', g1, g2⟩ := meets_iter hb (hits _ (List.mem_of_getElem? hget)) o
    refine ⟨o', ?_, fun e => ?_⟩
    · rw [runLocal, h1, Option.bind_some, modelIt_eq hs hj hget, g1]
    · rw [g2, h2, List.take_add_one, hget, lsum_append, add_assoc]
      simp

/-- the function of a group adds the contributions of the iterations of the column -/
theorem runGroup_ok {n : Nat} {b : Body α} {cs : List (Contr α)} (hb : Meets n true b cs) {g : ColGroup} (hs : Sorted g.cols) {j : Nat} {its : List Nat}
    (hj : (j, its) ∈ g.cols) (hits : ∀ it ∈ its, it < n) (out : Nat → α) :
    ∃ o, runGroup b g j out = some o ∧ ∀ e, o e = out e + lsum its (csum cs e) := by
  unfold runGroup
  cases hc : createsLoop g with
  | true =>
    simp only [if_true]
    rw [count_eq hs hj, Option.bind_some]
    obtain ⟨o, h1, h2⟩ := runLocal_ok hb hs hj hits out its.length (Nat.le_refl _)
    exact ⟨o, h1, fun e => by rw [h2, List.take_length]⟩
  | false =>
    simp only [Bool.false_eq_true, if_false]
    obtain ⟨it, rfl, h1⟩ := modelIt1_eq hs hc hj
    obtain ⟨o, g1, g2⟩ := meets_iter hb (hits it (by simp)) out
    rw [h1]
    exact ⟨o, g1, fun e => by rw [g2]; simp⟩

end Verif.Loops.For1
