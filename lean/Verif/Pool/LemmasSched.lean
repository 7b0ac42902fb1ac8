import Verif.Pool.Sched
import Mathlib.Algebra.Order.Field.Basic
import Mathlib.Data.List.Perm.Subperm
import Mathlib.Data.List.Nodup
import Mathlib.Data.List.Sort
namespace Verif.Pool

/-! ### guided scheduling -/

theorem scan_null {α : Type} [Add α] [LT α] [DecidableLT α] (target : α) :
    ∀ (js : List (Option α)) (next : α) (size : Nat), scan target next size js = .null →
      ∃ ts : List α, js = ts.map some ∧ (ts ≠ [] → ts.foldl (· + ·) next < target)
  | [], _, _, _ => ⟨[], rfl, fun h => absurd rfl h⟩
  | none :: js, _, _, h => by simp [scan] at h
  | some t :: js, next, size, h => by
    unfold scan at h
    split at h
    · rename_i hlt
      obtain ⟨ts, rfl, hs⟩ := scan_null target js _ _ h
      refine ⟨t :: ts, rfl, fun _ => ?_⟩
      cases ts with
      | nil => exact hlt
      | cons u ts => exact hs (by simp)
    · cases h

theorem scan_group {α : Type} [Add α] [LT α] [DecidableLT α] (target : α) :
    ∀ (js : List (Option α)) (next : α) (size k : Nat), scan target next size js = .group k →
      size ≤ k ∧ k ≤ size + js.length
  | [], _, _, _, h => by simp [scan] at h
  | none :: js, _, size, k, h => by
    simp only [scan, Take.group.injEq] at h
    subst h; simp
  | some t :: js, next, size, k, h => by
    unfold scan at h
    split at h
    · have := scan_group target js _ _ _ h
      simp only [List.length_cons]; omega
    · simp only [Take.group.injEq] at h
      subst h; simp

theorem guided_group {α : Type} [Add α] [LT α] [DecidableLT α] [OfNat α 0] (target : α → α) (q : JobQ α) (k : Nat)
    (hne : q.times ≠ []) (h : guided target q = .group k) : 1 ≤ k ∧ k ≤ q.times.length := by
  obtain ⟨times, total⟩ := q
  simp only at hne
  unfold guided at h
  match times, hne with
  | [t], _ => simp only [Take.group.injEq] at h; subst h; simp
  | none :: t :: js, _ => simp only [Take.group.injEq] at h; subst h; simp
  | some t :: u :: js, _ =>
    simp only at h
    split at h
    · have := scan_group _ _ _ _ _ h
      simp only [List.length_cons] at *
      omega
    · simp only [Take.group.injEq] at h; subst h; simp

theorem guided_null {α : Type} [Add α] [LT α] [DecidableLT α] [OfNat α 0] (target : α → α) (q : JobQ α)
    (h : guided target q = .null) :
    0 < q.total ∧ ∃ (t : α) (ts : List α), ts ≠ [] ∧ q.times = (t :: ts).map some ∧
      ts.foldl (· + ·) t < target q.total := by
  obtain ⟨times, total⟩ := q
  unfold guided at h
  match times with
  | [] => cases h
  | [t] => cases h
  | none :: t :: js => cases h
  | some t :: u :: js =>
    simp only at h
    split at h
    · rename_i hpos
      obtain ⟨ts, hts, hs⟩ := scan_null _ _ _ _ h
      have hne : ts ≠ [] := by rintro rfl; cases hts
      exact ⟨hpos, t, ts, hne, by simp only [List.map_cons, hts], hs hne⟩
    · cases h

/-- queues which the code can build -/
inductive JobQ.Reach {α : Type} [Add α] [Sub α] [OfNat α 0] : JobQ α → Prop
  | empty : Reach ⟨[], 0⟩
  | push {q : JobQ α} (t : Option α) : Reach q → Reach (q.push t)
  | extract {q : JobQ α} : Reach q → Reach q.extract

theorem sum_known {α : Type} [AddCommGroup α] (l : List (Option α)) (t : Option α) :
    ((l ++ [t]).filterMap id).sum = (l.filterMap id).sum + t.getD 0 := by
  cases t <;> simp

/-- with exact arithmetic the total time is the sum of the known times -/
theorem reach_total {α : Type} [AddCommGroup α] {q : JobQ α} (h : q.Reach) : q.total = (q.times.filterMap id).sum := by
  induction h with
  | empty => rfl
  | push t _ ih =>
    simp only [JobQ.push, sum_known]
    cases t <;> simp [ih]
  | @extract q _ ih =>
    obtain ⟨times, total⟩ := q
    simp only at ih
    unfold JobQ.extract
    match times with
    | [] => simpa using ih
    | [t] => simp
    | none :: t :: js => simpa using ih
    | some x :: t :: js =>
      simp only
      rw [ih]
      simp

theorem foldl_sum {α : Type} [AddCommGroup α] (ts : List α) (t : α) : ts.foldl (· + ·) t = t + ts.sum := by
  induction ts generalizing t with
  | nil => simp
  | cons u ts ih => simp [ih, add_assoc]

/-! ### order -/

theorem writeOrder_length (n : Nat) : ∀ (l : List Nat) (i : Nat) (order : List Nat),
    (writeOrder n i l order).length = order.length
  | [], _, _ => rfl
  | ix :: l, i, order => by unfold writeOrder; rw [writeOrder_length n l]; simp

theorem writeOrder_notin (n : Nat) : ∀ (l : List Nat) (i : Nat) (order : List Nat) (a : Nat), a ∉ l →
    (writeOrder n i l order)[a]? = order[a]?
  | [], _, _, _, _ => rfl
  | ix :: l, i, order, a, h => by
    unfold writeOrder
    simp only [List.mem_cons, not_or] at h
    rw [writeOrder_notin n l _ _ a h.2, List.getElem?_set_ne (fun e => h.1 e.symm)]

theorem writeOrder_get (n : Nat) : ∀ (l : List Nat) (i : Nat) (order : List Nat) (p a : Nat), l.Nodup →
    (∀ x ∈ l, x < order.length) → l[p]? = some a → (writeOrder n i l order)[a]? = some (n - (i + p) - 1)
  | [], _, _, _, _, _, _, h => by simp at h
  | ix :: l, i, order, p, a, hnd, hlt, h => by
    unfold writeOrder
    rw [List.nodup_cons] at hnd
    cases p with
    | zero =>
      simp only [List.getElem?_cons_zero, Option.some.injEq] at h
      subst h
      rw [writeOrder_notin n l _ _ ix hnd.1]
      have := hlt ix (by simp)
      simp [this]
    | succ p =>
      simp only [List.getElem?_cons_succ] at h
      rw [writeOrder_get n l (i + 1) _ p a hnd.2 (by simpa using fun x hx => hlt x (by simp [hx])) h]
      congr 1; omega

/-- the order written for a sorted arrangement -/
structure OrderOf (sorted order : List Nat) (n : Nat) : Prop where
  len : order.length = n
  get : ∀ p a : Nat, sorted[p]? = some a → order[a]? = some (n - p - 1)

theorem orderOf_write {n : Nat} {sorted order : List Nat} (hp : sorted.Perm (List.range n)) (hl : order.length = n) :
    OrderOf sorted (writeOrder n 0 sorted order) n where
  len := by rw [writeOrder_length, hl]
  get := by
    intro p a h
    have hnd : sorted.Nodup := hp.nodup_iff.2 List.nodup_range
    have := writeOrder_get n sorted 0 order p a hnd
      (fun x hx => by rw [hl]; exact List.mem_range.1 (hp.mem_iff.1 hx)) h
    simpa using this

theorem orderOf_pos {n : Nat} {sorted order : List Nat} (hp : sorted.Perm (List.range n)) {a : Nat} (ha : a < n) :
    ∃ p : Nat, p < n ∧ sorted[p]? = some a := by
  have : a ∈ sorted := hp.mem_iff.2 (List.mem_range.2 ha)
  obtain ⟨p, h⟩ := List.getElem?_of_mem this
  refine ⟨p, ?_, h⟩
  have := (List.getElem?_eq_some_iff.1 h).1
  rw [hp.length_eq, List.length_range] at this
  exact this

theorem orderOf_perm {n : Nat} {sorted order : List Nat} (hp : sorted.Perm (List.range n)) (ho : OrderOf sorted order n) :
    order.Perm (List.range n) := by
  have hnd : order.Nodup := by
    rw [List.nodup_iff_injective_get]
    intro x y hxy
    have hx : x.1 < n := Nat.lt_of_lt_of_eq x.2 ho.len
    have hy : y.1 < n := Nat.lt_of_lt_of_eq y.2 ho.len
    obtain ⟨p, hpn, hpx⟩ := orderOf_pos (order := order) hp hx
    obtain ⟨q, hqn, hqy⟩ := orderOf_pos (order := order) hp hy
    have h1 := ho.get p _ hpx
    have h2 := ho.get q _ hqy
    simp only [List.get_eq_getElem] at hxy
    rw [List.getElem?_eq_getElem x.2] at h1
    rw [List.getElem?_eq_getElem y.2] at h2
    simp only [Option.some.injEq] at h1 h2
    have : p = q := by omega
    subst this
    rw [hpx] at hqy
    exact Fin.ext (Option.some.inj hqy)
  refine (List.subperm_of_subset hnd ?_).perm_of_length_le (by rw [ho.len, List.length_range])
  intro x hx
  obtain ⟨a, ha⟩ := List.getElem?_of_mem hx
  have hal : a < n := by have := (List.getElem?_eq_some_iff.1 ha).1; rw [ho.len] at this; exact this
  obtain ⟨p, hpn, hpa⟩ := orderOf_pos (order := order) hp hal
  have := ho.get p a hpa
  rw [ha] at this
  have : x = n - p - 1 := Option.some.inj this
  exact List.mem_range.2 (by omega)

/-- a smaller order number means a time at least as large -/
theorem orderOf_rank {α : Type} [LinearOrder α] {n : Nat} {sorted order : List Nat} {ref : List α}
    (hp : sorted.Perm (List.range n)) (ho : OrderOf sorted order n)
    (hs : sorted.Pairwise fun a b => ∀ x y, ref[a]? = some x → ref[b]? = some y → x ≤ y)
    {a b u w : Nat} {x y : α} (ha : order[a]? = some u) (hb : order[b]? = some w) (hlt : u < w)
    (hx : ref[a]? = some x) (hy : ref[b]? = some y) : y ≤ x := by
  have hal : a < n := by have := (List.getElem?_eq_some_iff.1 ha).1; rw [ho.len] at this; exact this
  have hbl : b < n := by have := (List.getElem?_eq_some_iff.1 hb).1; rw [ho.len] at this; exact this
  obtain ⟨p, hpn, hpa⟩ := orderOf_pos (order := order) hp hal
  obtain ⟨q, hqn, hqb⟩ := orderOf_pos (order := order) hp hbl
  have h1 := ho.get p a hpa
  have h2 := ho.get q b hqb
  rw [ha] at h1; rw [hb] at h2
  have h1 := Option.some.inj h1
  have h2 := Option.some.inj h2
  have hqp : q < p := by omega
  obtain ⟨hq', hqe⟩ := List.getElem?_eq_some_iff.1 hqb
  obtain ⟨hp', hpe⟩ := List.getElem?_eq_some_iff.1 hpa
  have := List.pairwise_iff_getElem.1 hs q p hq' hp' hqp
  rw [hqe, hpe] at this
  exact this y x hy hx

theorem queued_range {J : Type} (jobs : List J) : queued jobs (List.range jobs.length) = jobs := by
  unfold queued
  induction jobs with
  | nil => rfl
  | cons j jobs ih =>
    rw [List.length_cons, List.range_succ_eq_map, List.filterMap_cons, List.filterMap_map]
    simp only [List.getElem?_cons_zero]
    congr 1

theorem queued_perm {J : Type} {jobs : List J} {order : List Nat} (h : order.Perm (List.range jobs.length)) :
    (queued jobs order).Perm jobs := by
  have := h.filterMap (fun j => jobs[j]?)
  exact this.trans (by rw [show List.filterMap (fun j => jobs[j]?) (List.range jobs.length) = jobs from queued_range jobs])

theorem queued_map {J : Type} {jobs : List J} {order : List Nat} (h : ∀ x ∈ order, x < jobs.length) (d : J) :
    queued jobs order = order.map fun x => (jobs[x]?).getD d := by
  unfold queued
  induction order with
  | nil => rfl
  | cons x order ih =>
    have := h x (by simp)
    rw [List.filterMap_cons, List.map_cons, ih (fun y hy => h y (by simp [hy]))]
    simp [List.getElem?_eq_getElem this]

/-! ### static groups -/

theorem firstFit_lt {α : Type} [Add α] [LT α] [DecidableLT α] (target t : α) :
    ∀ (ds : List α) (i r : Nat), firstFit target t ds i = some r → r < i + ds.length
  | [], _, _, h => by simp [firstFit] at h
  | d :: ds, i, r, h => by
    unfold firstFit at h
    split at h
    · simp only [Option.some.injEq] at h; subst h; simp
    · have := firstFit_lt target t ds (i + 1) r h
      simp only [List.length_cons]; omega

theorem bestFit_lt {α : Type} [Add α] [LT α] [DecidableLT α] (t : α) :
    ∀ (ds : List α) (i : Nat) (best : α) (ib : Nat), ib < i → bestFit t ds i best ib < i + ds.length
  | [], i, _, ib, h => by simpa [bestFit] using h
  | d :: ds, i, best, ib, h => by
    unfold bestFit
    split
    · have := bestFit_lt t ds (i + 1) (d + t) i (by omega)
      simp only [List.length_cons]; omega
    · have := bestFit_lt t ds (i + 1) best ib (by omega)
      simp only [List.length_cons]; omega

theorem chooseGroup_lt {α : Type} [Add α] [LT α] [DecidableLT α] [OfNat α 0] (target t : α) (ds : List α) (h : ds ≠ []) :
    chooseGroup target t ds < ds.length := by
  unfold chooseGroup
  split
  · rename_i i hi
    have := firstFit_lt target t ds 0 i hi
    omega
  · cases ds with
    | nil => exact absurd rfl h
    | cons d ds =>
      have := bestFit_lt t ds 1 (d + t) 0 (by omega)
      simp only [List.tail_cons, List.headD_cons, List.length_cons]
      omega

theorem assign_ok {α : Type} [Add α] [LT α] [DecidableLT α] [OfNat α 0] (target : α) :
    ∀ (ts ds : List α), ds ≠ [] → (assign target ds ts).length = ts.length ∧ ∀ i ∈ assign target ds ts, i < ds.length
  | [], _, _ => ⟨rfl, by simp [assign]⟩
  | t :: ts, ds, h => by
    unfold assign
    simp only
    have hne : ds.set (chooseGroup target t ds) ((ds[chooseGroup target t ds]?).getD 0 + t) ≠ [] := by
      simpa using h
    obtain ⟨h1, h2⟩ := assign_ok target ts _ hne
    refine ⟨by simp [h1], ?_⟩
    intro i hi
    rcases List.mem_cons.1 hi with rfl | hi
    · exact chooseGroup_lt target t ds h
    · have := h2 i hi
      simpa using this

theorem countJobs_ok : ∀ (is counts : List Nat), (∀ i ∈ is, i < counts.length) →
    ∃ r, countJobs counts is = some r ∧ r.length = counts.length ∧
      ∀ i c : Nat, counts[i]? = some c → r[i]? = some (c + is.count i)
  | [], counts, _ => ⟨counts, rfl, rfl, by intro i c h; simpa using h⟩
  | i :: is, counts, h => by
    have hi := h i (by simp)
    obtain ⟨r, h1, h2, h3⟩ := countJobs_ok is (counts.set i (counts[i] + 1))
      (by intro x hx; simpa using h x (by simp [hx]))
    refine ⟨r, ?_, by simpa using h2, ?_⟩
    · unfold countJobs
      rw [List.getElem?_eq_getElem hi]
      exact h1
    · intro x c hx
      by_cases e : i = x
      · subst e
        rw [List.getElem?_eq_getElem hi, Option.some.injEq] at hx
        subst hx
        rw [h3 i (counts[i] + 1) (by simp [hi]), List.count_cons_self]
        congr 1; omega
      · rw [h3 x c (by rw [List.getElem?_set_ne e]; exact hx), List.count_cons_of_ne e]

theorem flatten_set_perm {J : Type} (j : J) : ∀ (l : List (List J)) (i : Nat) (js : List J), l[i]? = some js →
    (l.set i (js ++ [j])).flatten.Perm (l.flatten ++ [j])
  | [], _, _, h => by simp at h
  | x :: l, 0, js, h => by
    simp only [List.getElem?_cons_zero, Option.some.injEq] at h
    subst h
    simp only [List.set_cons_zero, List.flatten_cons, List.append_assoc]
    exact List.Perm.append_left x List.perm_append_comm
  | x :: l, i + 1, js, h => by
    simp only [List.getElem?_cons_succ] at h
    simp only [List.set_cons_succ, List.flatten_cons, List.append_assoc]
    exact List.Perm.append_left x (flatten_set_perm j l i js h)

theorem fillGroups_ok {J : Type} : ∀ (rest : List (Nat × J)) (groups : List (Nat × List J)),
    (∀ p ∈ rest, p.1 < groups.length) →
    (∀ (i cap : Nat) (js : List J), groups[i]? = some (cap, js) → cap = js.length + (rest.map (·.1)).count i) →
    ∃ r, fillGroups groups rest = some r ∧ r.length = groups.length ∧ (∀ g ∈ r, g.2.length = g.1) ∧
      (r.map (·.2)).flatten.Perm ((groups.map (·.2)).flatten ++ rest.map (·.2))
  | [], groups, _, hc => by
    refine ⟨groups, rfl, rfl, ?_, by simp⟩
    intro g hg
    obtain ⟨i, hi⟩ := List.getElem?_of_mem hg
    have := hc i g.1 g.2 hi
    simpa using this.symm
  | (i, j) :: rest, groups, hb, hc => by
    have hi := hb (i, j) (by simp)
    simp only at hi
    obtain ⟨cap, js⟩ : Nat × List J := ⟨groups[i].1, groups[i].2⟩
    have hg : groups[i]? = some (groups[i].1, groups[i].2) := by rw [List.getElem?_eq_getElem hi]
    have hcap := hc i _ _ hg
    simp only [List.map_cons, List.count_cons_self] at hcap
    have hlt : groups[i].2.length < groups[i].1 := by omega
    obtain ⟨r, h1, h2, h3, h4⟩ := fillGroups_ok rest (groups.set i (groups[i].1, groups[i].2 ++ [j]))
      (by intro p hp; simpa using hb p (by simp [hp]))
      (by
        intro x c l hx
        by_cases e : i = x
        · subst e
          rw [List.getElem?_set_self hi, Option.some.injEq, Prod.mk.injEq] at hx
          obtain ⟨rfl, rfl⟩ := hx
          simp only [List.length_append, List.length_singleton]
          omega
        · rw [List.getElem?_set_ne e] at hx
          have := hc x c l hx
          rw [List.map_cons, List.count_cons_of_ne e] at this
          exact this)
    refine ⟨r, ?_, by simpa using h2, h3, ?_⟩
    · unfold fillGroups
      rw [hg]
      simp only
      rw [if_pos hlt]
      exact h1
    · refine h4.trans ?_
      rw [List.map_set]
      have hget : (groups.map (·.2))[i]? = some groups[i].2 := by simp [hi]
      have := flatten_set_perm j (groups.map (·.2)) i groups[i].2 hget
      refine (List.Perm.append_right _ this).trans ?_
      simp

/-- everything goes well when all entries of the table are valid -/
theorem place_ok {J : Type} (n : Nat) (ids : List Nat) (jobs : List J) (hl : ids.length = jobs.length)
    (hb : ∀ i ∈ ids, i < n) :
    ∃ counts groups, countJobs (List.replicate n 0) ids = some counts ∧
      fillGroups (counts.map fun c => (c, [])) (ids.zip jobs) = some groups ∧ groups.length = n ∧
      (∀ g ∈ groups, g.2.length = g.1) ∧ (groups.map (·.2)).flatten.Perm jobs := by
  obtain ⟨counts, h1, h2, h3⟩ := countJobs_ok ids (List.replicate n 0) (by simpa using hb)
  rw [List.length_replicate] at h2
  have hfst : (ids.zip jobs).map (·.1) = ids := List.map_fst_zip (by omega)
  have hsnd : (ids.zip jobs).map (·.2) = jobs := List.map_snd_zip (by omega)
  obtain ⟨r, g1, g2, g3, g4⟩ := fillGroups_ok (ids.zip jobs) (counts.map fun c => (c, []))
    (by
      intro p hp
      rw [List.length_map, h2]
      exact hb p.1 (List.of_mem_zip hp).1)
    (by
      intro i cap js hi
      rw [List.getElem?_map] at hi
      cases hc : counts[i]? with
      | none => rw [hc] at hi; cases hi
      | some c =>
        rw [hc] at hi
        simp only [Option.map_some, Option.some.injEq, Prod.mk.injEq] at hi
        obtain ⟨rfl, rfl⟩ := hi
        have hin : i < n := by
          have := (List.getElem?_eq_some_iff.1 hc).1
          omega
        have := h3 i 0 (by simp [hin])
        rw [hc, Option.some.injEq] at this
        rw [hfst, this]; simp)
  refine ⟨counts, r, h1, g1, by simpa [h2] using g2, g3, ?_⟩
  rw [hsnd] at g4
  refine g4.trans ?_
  have : ((counts.map fun c => ((c, []) : Nat × List J)).map (·.2)).flatten = [] := by
    simp
  rw [this]; simp

end Verif.Pool
