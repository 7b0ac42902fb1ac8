/-
C39: visit marks and per node data belong to their nodes.
-/
import Verif.Marks.Lemmas
namespace Verif.Marks

variable {T : Type}

/-- one operation of the handler does what it should -/
theorem step_rel (z : T) {h : H T} {s : Sp T} (hR : Rel h s) {o : Op T} (hr : isReset o = false) (hid : isVisit o = true → h.id + 1 < 2 ^ 64)
    {s' : Sp T} {x : Out T} (hs : s.step z o = some (s', x)) :
    ∃ h', h.step z o = .ok (h', x) ∧ Rel h' s' ∧ h'.id = h.id + (if isVisit o then 1 else 0) := by
  have hpos : ∀ n ∈ s.nodes, ∃ i, s.nodes[i]? = some n ∧ h.pos n = some i ∧ i < s.nodes.length := by
    intro n hn
    obtain ⟨i, hi⟩ := List.mem_iff_getElem?.mp hn
    exact ⟨i, hi, hR.pos i n hi, (List.getElem?_eq_some_iff.mp hi).1⟩
  cases o with
  | make =>
    simp only [Sp.step, Option.some.injEq, Prod.mk.injEq] at hs
    obtain ⟨rfl, rfl⟩ := hs
    have hcase : ∀ (i n : Nat), (s.nodes ++ [s.next])[i]? = some n → (i < s.nodes.length ∧ s.nodes[i]? = some n ∧ n ≠ s.next) ∨ (i = s.nodes.length ∧ n = s.next) := by
      intro i n hi
      by_cases h1 : i < s.nodes.length
      · rw [List.getElem?_append_left h1] at hi
        have := hR.fresh n (List.mem_of_getElem? hi)
        exact .inl ⟨h1, hi, by omega⟩
      · rw [List.getElem?_append_right (by omega)] at hi
        have := (List.getElem?_eq_some_iff.mp hi).1
        simp only [List.length_singleton] at this
        have e : i - s.nodes.length = 0 := by omega
        rw [e] at hi
        simp only [List.getElem?_cons_zero, Option.some.injEq] at hi
        exact .inr ⟨by omega, hi.symm⟩
    refine ⟨h.make, by simp only [H.step, hR.next], ⟨?_, ?_, ?_, ?_, ?_, ?_, ?_, hR.id, hR.vle, ?_, ?_⟩, rfl⟩
    · simp only [H.make, hR.nodes, hR.next]
    · simp only [H.make, hR.next]
    · simp only
      rw [List.nodup_append]
      refine ⟨hR.nodup, List.nodup_singleton _, fun a ha b hb => ?_⟩
      rw [List.mem_singleton] at hb
      have := hR.fresh a ha
      omega
    · intro n hn
      simp only at hn ⊢
      rcases List.mem_append.mp hn with h1 | h1
      · have := hR.fresh n h1; omega
      · rw [List.mem_singleton] at h1; omega
    · intro i n hi
      simp only [H.make, hR.next, hR.nodes]
      rcases hcase i n hi with ⟨_, h1, h2⟩ | ⟨h1, h2⟩
      · rw [if_neg h2]; exact hR.pos i n h1
      · rw [if_pos h2, h1]
    · simp only [H.make, List.length_append]
      have := hR.vlen; omega
    · simp only [H.make, List.length_append]
      have := hR.dlen; omega
    · intro i n hi
      simp only [H.make]
      rcases hcase i n hi with ⟨_, h1, h2⟩ | ⟨h1, h2⟩
      · rw [if_neg h2]; exact hR.marked i n h1
      · rw [if_pos h2, List.getElem?_eq_none (by have := hR.vlen; omega)]; simp
    · intro i n hi
      simp only [H.make]
      rcases hcase i n hi with ⟨_, h1, h2⟩ | ⟨h1, h2⟩
      · rw [if_neg h2]; exact hR.ann i n h1
      · rw [if_pos h2, List.getElem?_eq_none (by have := hR.dlen; omega)]
  | delete a b =>
    simp only [Sp.step] at hs
    split at hs
    · rename_i hab
      simp only [Option.some.injEq, Prod.mk.injEq] at hs
      obtain ⟨rfl, rfl⟩ := hs
      refine ⟨_, rfl, hR.delete hab, ?_⟩
      unfold H.delete
      rw [if_neg (by omega)]
      rfl
    · rename_i hab
      simp only [Option.some.injEq, Prod.mk.injEq] at hs
      obtain ⟨rfl, rfl⟩ := hs
      have e : h.delete a b = h := by unfold H.delete; rw [if_pos (by omega)]
      exact ⟨h, by simp only [H.step, e], hR, rfl⟩
  | visit =>
    simp only [Sp.step, Option.some.injEq, Prod.mk.injEq] at hs
    obtain ⟨rfl, rfl⟩ := hs
    have hlt := hid rfl
    have hmod : (h.id + 1) % 2 ^ 64 = h.id + 1 := Nat.mod_eq_of_lt hlt
    have hvl : h.visit.length ≤ h.nodes.length := by rw [hR.nodes]; exact hR.vlen
    refine ⟨_, rfl, ⟨hR.nodes, hR.next, hR.nodup, hR.fresh, hR.pos, ?_, hR.dlen, ?_, ?_, ?_, hR.ann⟩, ?_⟩
    · simp only [resize_length, hR.nodes]; exact Nat.le_refl _
    · simp only [hmod]; omega
    · intro i v hi
      simp only [hmod] at hi ⊢
      have hlt' := (List.getElem?_eq_some_iff.mp hi).1
      rw [resize_length] at hlt'
      rw [resize_get 0 hvl hlt'] at hi
      cases hv : h.visit[i]? with
      | none =>
        rw [hv] at hi
        simp only [Option.getD_none, Option.some.injEq] at hi
        omega
      | some w =>
        rw [hv] at hi
        simp only [Option.getD_some, Option.some.injEq] at hi
        have := hR.vle i w hv
        omega
    · intro i n hi
      simp only [Bool.false_eq_true, false_iff, hmod]
      intro hv
      have hlt' := (List.getElem?_eq_some_iff.mp hv).1
      rw [resize_length] at hlt'
      rw [resize_get 0 hvl hlt'] at hv
      cases hw : h.visit[i]? with
      | none =>
        rw [hw] at hv
        simp at hv
      | some w =>
        rw [hw] at hv
        simp only [Option.getD_some, Option.some.injEq] at hv
        have := hR.vle i w hw
        omega
    · simp only [hmod]; rfl
  | mark n =>
    simp only [Sp.step] at hs
    split at hs
    · rename_i hn
      simp only [Option.some.injEq, Prod.mk.injEq] at hs
      obtain ⟨rfl, rfl⟩ := hs
      obtain ⟨p, hp1, hp2, hp3⟩ := hpos n hn
      have hnl : h.nodes.length = s.nodes.length := by rw [hR.nodes]
      have hvl := hR.vlen
      -- the vector after its size is adjusted
      obtain ⟨l, hl, hll, hll', hget⟩ : ∃ l, adjustFor 0 h.visit h.nodes.length (h.pos n) = .ok l ∧ p < l.length ∧ l.length ≤ s.nodes.length ∧
          ∀ i : Nat, l[i]? = h.visit[i]? ∨ (l[i]? = some 0 ∧ h.visit[i]? = none) := by
        rw [hp2]
        simp only [adjustFor]
        split
        · rename_i hge
          refine ⟨_, rfl, by rw [resize_length]; omega, by rw [resize_length]; omega, fun i => ?_⟩
          by_cases hi : i < h.nodes.length
          · rw [resize_get 0 (by omega) hi]
            cases h.visit[i]? with
            | none => exact .inr ⟨rfl, rfl⟩
            | some w => exact .inl rfl
          · exact .inl (by rw [List.getElem?_eq_none (by rw [resize_length]; omega), List.getElem?_eq_none (by omega)])
        · rename_i hge
          exact ⟨_, rfl, by omega, hvl, fun i => .inl rfl⟩
      have hmark : h.mark n = .ok { h with visit := l.set p h.id } := by
        unfold H.mark
        rw [hl, hp2]
        simp only [vset]
        rw [if_pos hll]
      have hset : ∀ i : Nat, (l.set p h.id)[i]? = if i = p then some h.id else l[i]? := by
        intro i
        rw [List.getElem?_set]
        by_cases hi : i = p
        · subst hi; rw [if_pos rfl, if_pos rfl, if_pos hll]
        · rw [if_neg (fun e => hi e.symm), if_neg hi]
      refine ⟨{ h with visit := l.set p h.id }, by simp only [H.step, hmark], ⟨hR.nodes, hR.next, hR.nodup, hR.fresh, hR.pos, ?_, hR.dlen, hR.id, ?_, ?_, hR.ann⟩, rfl⟩
      · simp only [List.length_set]; exact hll'
      · intro i v hi
        simp only [hset] at hi ⊢
        split at hi
        · cases hi; exact Nat.le_refl _
        · rcases hget i with e | ⟨e, _⟩
          · rw [e] at hi; exact hR.vle i v hi
          · rw [e] at hi; cases hi; omega
      · intro i m hi
        simp only [hset]
        by_cases hip : i = p
        · subst hip
          rw [hp1] at hi
          cases hi
          simp
        · have hmn : m ≠ n := by
            rintro rfl
            exact hip (unique hR.nodup hi hp1)
          rw [if_neg hmn, if_neg hip, hR.marked i m hi]
          rcases hget i with e | ⟨e1, e2⟩
          · rw [e]
          · rw [e1, e2]
            have := hR.id
            simp only [Option.some.injEq, false_iff, reduceCtorEq]
            omega
    · cases hs
  | isVisited n =>
    simp only [Sp.step] at hs
    split at hs
    · rename_i hn
      simp only [Option.some.injEq, Prod.mk.injEq] at hs
      obtain ⟨rfl, rfl⟩ := hs
      obtain ⟨p, hp1, hp2, hp3⟩ := hpos n hn
      have hv : h.isVisited n = .ok (s.marked n) := by
        have hm := hR.marked p n hp1
        unfold H.isVisited
        rw [hp2]
        simp only
        split
        · rename_i hlt
          simp only [vget]
          rw [List.getElem?_eq_getElem hlt] at hm ⊢
          simp only
          congr 1
          rw [Bool.eq_iff_iff, hm, beq_iff_eq, Option.some.injEq]
        · rename_i hlt
          rw [List.getElem?_eq_none (by omega)] at hm
          congr 1
          cases hb : s.marked n with
          | false => rfl
          | true => exact absurd (hm.mp hb) (by simp)
      exact ⟨h, by simp only [H.step, hv], hR, rfl⟩
    · cases hs
  | adjust =>
    simp only [Sp.step, Option.some.injEq, Prod.mk.injEq] at hs
    obtain ⟨rfl, rfl⟩ := hs
    have hdl : h.data.length ≤ h.nodes.length := by rw [hR.nodes]; exact hR.dlen
    refine ⟨_, rfl, ⟨hR.nodes, hR.next, hR.nodup, hR.fresh, hR.pos, hR.vlen, ?_, hR.id, hR.vle, hR.marked, ?_⟩, rfl⟩
    · simp only [resize_length, hR.nodes]; exact Nat.le_refl _
    · intro i n hi
      simp only
      rw [resize_get z hdl (by rw [hR.nodes]; exact (List.getElem?_eq_some_iff.mp hi).1), hR.ann i n hi]
  | set n v =>
    simp only [Sp.step] at hs
    split at hs
    · rename_i hn
      obtain ⟨hn, hsome⟩ := hn
      simp only [Option.some.injEq, Prod.mk.injEq] at hs
      obtain ⟨rfl, rfl⟩ := hs
      obtain ⟨p, hp1, hp2, hp3⟩ := hpos n hn
      rw [hR.ann p n hp1] at hsome
      have hlt : p < h.data.length := by
        by_contra hge
        rw [List.getElem?_eq_none (by omega)] at hsome
        cases hsome
      have hset : vset h.data v (h.pos n) = .ok (h.data.set p v) := by
        rw [hp2]
        simp only [vset]
        rw [if_pos hlt]
      refine ⟨{ h with data := h.data.set p v }, by simp only [H.step, hset], ⟨hR.nodes, hR.next, hR.nodup, hR.fresh, hR.pos, hR.vlen, ?_, hR.id, hR.vle, hR.marked, ?_⟩, rfl⟩
      · simp only [List.length_set]; exact hR.dlen
      · intro i m hi
        simp only
        rw [List.getElem?_set]
        by_cases hip : i = p
        · subst hip
          rw [hp1] at hi
          cases hi
          rw [if_pos rfl, if_pos rfl, if_pos hlt]
        · have hmn : m ≠ n := by
            rintro rfl
            exact hip (unique hR.nodup hi hp1)
          rw [if_neg hmn, if_neg (fun e => hip e.symm)]
          exact hR.ann i m hi
    · cases hs
  | get n =>
    simp only [Sp.step] at hs
    split at hs
    · rename_i hn
      rw [Option.map_eq_some_iff] at hs
      obtain ⟨v, hv, e⟩ := hs
      simp only [Prod.mk.injEq] at e
      obtain ⟨rfl, rfl⟩ := e
      obtain ⟨p, hp1, hp2, hp3⟩ := hpos n hn
      rw [hR.ann p n hp1] at hv
      have : vget h.data (h.pos n) = .ok v := by
        rw [hp2]
        simp only [vget, hv]
      exact ⟨h, by simp only [H.step, this], hR, rfl⟩
    · cases hs
  | fill v =>
    simp only [Sp.step, Option.some.injEq, Prod.mk.injEq] at hs
    obtain ⟨rfl, rfl⟩ := hs
    refine ⟨_, rfl, ⟨hR.nodes, hR.next, hR.nodup, hR.fresh, hR.pos, hR.vlen, ?_, hR.id, hR.vle, hR.marked, ?_⟩, rfl⟩
    · simp only [List.length_map]; exact hR.dlen
    · intro i n hi
      simp only [List.getElem?_map]
      rw [hR.ann i n hi]
  | reset => cases hr

theorem run_rel (z : T) : ∀ (ops : List (Op T)) (h : H T) (s : Sp T), Rel h s → (∀ o ∈ ops, isReset o = false) →
    h.id + ops.countP isVisit < 2 ^ 64 → ∀ s' xs, Sp.run z ops s = some (s', xs) →
    ∃ h', H.run z ops h = .ok (h', xs) ∧ Rel h' s' ∧ h'.id = h.id + ops.countP isVisit := by
  intro ops
  induction ops with
  | nil =>
    intro h s hR _ _ s' xs hs
    simp only [Sp.run, Option.some.injEq, Prod.mk.injEq] at hs
    obtain ⟨rfl, rfl⟩ := hs
    exact ⟨h, rfl, hR, rfl⟩
  | cons o ops ih =>
    intro h s hR hr hid s' xs hs
    rw [List.countP_cons] at hid
    simp only [Sp.run] at hs
    cases h1 : s.step z o with
    | none => rw [h1] at hs; cases hs
    | some r =>
      obtain ⟨s1, x⟩ := r
      rw [h1] at hs
      simp only at hs
      cases h2 : Sp.run z ops s1 with
      | none => rw [h2] at hs; cases hs
      | some r =>
        obtain ⟨s2, ys⟩ := r
        rw [h2] at hs
        simp only [Option.some.injEq, Prod.mk.injEq] at hs
        obtain ⟨rfl, rfl⟩ := hs
        obtain ⟨h', e1, hR', hid'⟩ := step_rel z hR (hr o (by simp)) (fun hv => by rw [if_pos hv] at hid; omega) h1
        obtain ⟨h'', e2, hR'', hid''⟩ := ih h' s1 hR' (fun o' ho => hr o' (by simp [ho])) (by rw [hid']; omega) s2 ys h2
        exact ⟨h'', by simp only [H.run, e1, e2], hR'', by rw [hid'', hid', List.countP_cons]; omega⟩

/-- For every sequence of node creations, deletions, visits, marks and annotations without `reset` and with less than
2^64 - 1 visits, the answers of the handler are the ones of marks and annotations which belong to nodes: no node counts
as visited until it is marked, and deleting nodes does not change what other nodes are marked and annotated with. -/
theorem marks_correct_partial (z : T) (ops : List (Op T)) (hr : ∀ o ∈ ops, isReset o = false) (hv : ops.countP isVisit + 1 < 2 ^ 64)
    {s' : Sp T} {xs : List (Out T)} (hs : Sp.run z ops (Sp.init T) = some (s', xs)) :
    ∃ h', H.run z ops (H.init T) = .ok (h', xs) := by
  obtain ⟨h', e, _⟩ := run_rel z ops (H.init T) (Sp.init T) Rel.init hr (by simp only [H.init]; omega) s' xs hs
  exact ⟨h', e⟩

/-- in particular: right after a new visit is started no node counts as visited -/
theorem visit_starts_clean (z : T) (ops : List (Op T)) (hr : ∀ o ∈ ops, isReset o = false) (hv : ops.countP isVisit + 2 < 2 ^ 64)
    {s' : Sp T} {xs : List (Out T)} (hs : Sp.run z ops (Sp.init T) = some (s', xs)) :
    ∃ h', H.run z (ops ++ [.visit]) (H.init T) = .ok (h', xs ++ [.done]) ∧ ∀ n ∈ s'.nodes, h'.isVisited n = .ok false := by
  have hcat : ∀ (ops : List (Op T)) (s : Sp T) (s' : Sp T) (xs : List (Out T)), Sp.run z ops s = some (s', xs) →
      Sp.run z (ops ++ [.visit]) s = some ({ s' with marked := fun _ => false }, xs ++ [.done]) := by
    intro ops
    induction ops with
    | nil =>
      intro s s' xs h
      simp only [Sp.run, Option.some.injEq, Prod.mk.injEq] at h
      obtain ⟨rfl, rfl⟩ := h
      rfl
    | cons o ops ih =>
      intro s s' xs h
      simp only [Sp.run] at h
      cases h1 : s.step z o with
      | none => rw [h1] at h; cases h
      | some r =>
        obtain ⟨s1, x⟩ := r
        rw [h1] at h
        simp only at h
        cases h2 : Sp.run z ops s1 with
        | none => rw [h2] at h; cases h
        | some r =>
          obtain ⟨s2, ys⟩ := r
          rw [h2] at h
          simp only [Option.some.injEq, Prod.mk.injEq] at h
          obtain ⟨rfl, rfl⟩ := h
          simp only [List.cons_append, Sp.run, h1, ih s1 s2 ys h2]
  obtain ⟨h', e, hR, _⟩ := run_rel z (ops ++ [.visit]) (H.init T) (Sp.init T) Rel.init
    (fun o ho => by
      rcases List.mem_append.mp ho with h1 | h1
      · exact hr o h1
      · rw [List.mem_singleton] at h1; subst h1; rfl)
    (by
      rw [List.countP_append]
      have : List.countP isVisit [(Op.visit : Op T)] = 1 := rfl
      simp only [H.init]
      omega) _ _ (hcat ops _ s' xs hs)
  refine ⟨h', e, fun n hn => ?_⟩
  obtain ⟨h2, e2, _⟩ := step_rel z hR (o := .isVisited n) rfl (fun hv => by cases hv) (s' := { s' with marked := fun _ => false }) (x := .visited false)
    (by simp only [Sp.step]; rw [if_pos hn])
  simp only [H.step] at e2
  cases hq : h'.isVisited n with
  | error e => rw [hq] at e2; cases e2
  | ok b =>
    rw [hq] at e2
    simp only [Except.ok.injEq, Prod.mk.injEq, Out.visited.injEq] at e2
    rw [e2.2]

/-- nodes 0 to 4; nodes 1 and 3 are annotated and marked, nodes 0 and 2 are deleted; the marks and annotations stay with
their nodes, a new node has none -/
example :
    let ops : List (Op Nat) := [.make, .make, .make, .make, .make, .adjust, .visit, .mark 1, .mark 3, .set 1 7, .set 3 9, .delete 0 1, .delete 1 2, .make,
      .isVisited 1, .isVisited 3, .isVisited 4, .isVisited 5, .get 1, .get 3, .adjust, .get 5, .visit, .isVisited 3]
    (∀ o ∈ ops, isReset o = false) ∧ ops.countP isVisit = 2 ∧
      (Sp.run 0 ops (Sp.init Nat)).map (fun r => r.2.drop 13) =
        some [.node 5, .visited true, .visited true, .visited false, .visited false, .value 7, .value 9, .done, .value 0, .done, .visited false] := by
  decide +kernel

/-- After `reset` a new node has the marks and the annotations of the deleted node which had its position. -/
theorem reset_counterexample :
    (∃ s', Sp.run 0 [.make, .visit, .mark 0, .reset, .make, .isVisited 1] (Sp.init Nat) = some (s', [.node 0, .done, .done, .done, .node 1, .visited false])) ∧
    (∃ h', H.run 0 [.make, .visit, .mark 0, .reset, .make, .isVisited 1] (H.init Nat) = .ok (h', [.node 0, .done, .done, .done, .node 1, .visited true])) ∧
    (∃ s', Sp.run 0 [.make, .adjust, .set 0 7, .reset, .make, .adjust, .get 1] (Sp.init Nat) = some (s', [.node 0, .done, .done, .done, .node 1, .done, .value 0])) ∧
    (∃ h', H.run 0 [.make, .adjust, .set 0 7, .reset, .make, .adjust, .get 1] (H.init Nat) = .ok (h', [.node 0, .done, .done, .done, .node 1, .done, .value 7])) :=
  ⟨⟨_, rfl⟩, ⟨_, rfl⟩, ⟨_, rfl⟩, ⟨_, rfl⟩⟩

theorem many_visits : ∀ (k : Nat) (h : H Nat), h.nodes = [0] → h.pos 0 = some 0 → h.visit = [0] →
    ∃ h' xs, H.run 0 (List.replicate k .visit) h = .ok (h', xs) ∧ h'.nodes = [0] ∧ h'.pos 0 = some 0 ∧ h'.visit = [0] ∧
      h'.id = if k = 0 then h.id else (h.id + k) % 2 ^ 64 := by
  intro k
  induction k with
  | zero => intro h h1 h2 h3; exact ⟨h, [], rfl, h1, h2, h3, rfl⟩
  | succ k ih =>
    intro h h1 h2 h3
    obtain ⟨h', xs, e, g1, g2, g3, g4⟩ := ih { h with visit := resize 0 h.visit h.nodes.length, id := (h.id + 1) % 2 ^ 64 } h1 h2 (by simp [h1, h3, resize])
    refine ⟨h', .done :: xs, ?_, g1, g2, g3, ?_⟩
    · rw [List.replicate_succ]
      simp only [H.run, H.step, e]
    · rw [g4]
      by_cases hk : k = 0
      · subst hk; rfl
      · rw [if_neg hk, if_neg (by omega)]
        simp only
        omega

/-- After 2^64 - 1 visits a node which was never marked counts as visited (without assertions). -/
theorem overflow_counterexample :
    ∃ h1 xs1 h2 xs2, H.run 0 [.make, .visit] (H.init Nat) = .ok (h1, xs1) ∧
      H.run 0 (List.replicate (2 ^ 64 - 2) .visit) h1 = .ok (h2, xs2) ∧ h2.isVisited 0 = .ok true := by
  obtain ⟨h', xs, e, g1, g2, g3, g4⟩ := many_visits (2 ^ 64 - 2) ⟨[0], 1, fun n => if n = 0 then some 0 else none, [0], 2, []⟩ rfl rfl rfl
  refine ⟨⟨[0], 1, fun n => if n = 0 then some 0 else none, [0], 2, []⟩, [.node 0, .done], h', xs, rfl, e, ?_⟩
  unfold H.isVisited
  rw [g2]
  simp only [g3, List.length_singleton]
  rw [if_pos (by omega)]
  simp only [vget, List.getElem?_cons_zero]
  rw [g4]
  decide

end Verif.Marks
