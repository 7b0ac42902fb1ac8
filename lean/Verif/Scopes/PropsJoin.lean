import Verif.Scopes.LemmasJoinAll
import Verif.Scopes.LemmasJoinArgs
import Verif.Scopes.PropsOrder

/-
Properties of the code after conditionals with the same condition were joined.
-/
namespace Verif.Scopes.Join

open Verif.Scopes Verif.Scopes.Order

/-- Joining adjoining conditionals with the same condition ends, and the code does the same: in every iteration of a loop the same operations
are run in the same order, every operation is in the code once, no conditional is left open and declarations stay before their uses. Missing: graphs
with uses of conditional temporaries (excluded by `Nested`, as in C65). -/
theorem joined_same_partial {P : Placed} {roots : List Nat} (hN : Nested P roots) (hM : Matched P.nd (Reach P.nd roots)) {N size : Nat}
    (hlt : ∀ x, Reach P.nd roots x → x < N) (hsc : ∀ x, Reach P.nd roots x → (P.nd x).op.needed = true → P.scope x < size)
    (htop : ∀ x, Reach P.nd roots x → (P.nd x).op = .endIf → P.scope x ≠ 0) (creates : OSt → Nat → Nat → Bool) :
    ∃ F, ∀ fuel, F ≤ fuel → ∃ l l', order P creates fuel roots = .ok l ∧ joined P creates fuel size roots = .ok l' ∧
      Same (fun x => (P.nd x).op) l l' := by
  obtain ⟨R, hR⟩ := hN.acyclic
  refine ⟨(roots.map R).sum + N + 2, fun fuel hfuel => ?_⟩
  have hM' : ∀ r ∈ roots, R r ≤ (roots.map R).sum := fun r hr => le_sum_mem (List.mem_map.2 ⟨r, hr, rfl⟩)
  obtain ⟨st, log, hq, hI, hall⟩ := queues_right hN creates hR (fuel := fuel) (fun r hr => by have := hM' r hr; omega)
  have hlr : ∀ x ∈ log, Reach P.nd roots x := fun x hx => hI.reach x (hI.logv x hx)
  have hF : Final P roots st.queue log := ⟨hN, hI.q, hI.nodup, hI.needed, hlr, hI.post,
    fun x hx hp => hI.must x (hall x hx) (fun s p => queued_printed hp s p), hI.heads⟩
  have hle : ∀ n ∈ st.queue 0, R n + 1 < fuel := by
    intro n hn
    rw [hI.q] at hn
    obtain ⟨r, hr, h⟩ := reach_root (hlr n (List.mem_filter.1 hn).1)
    have := hM' r hr
    rcases h with rfl | h
    · omega
    · have := h.rank hR (.root hr); omega
  obtain ⟨l, hl⟩ := flat_ok hF hR fuel 0 (by omega) hle
  have hp := flat_perm hF hl
  have hS : Shape P st.queue := Final.shape hF hM
  have hG : Good (fun x => (P.nd x).op) (Reach P.nd roots) l fuel size ⟨P.nd, P.scope, P.path, st.queue, fun _ => false⟩ := by
    refine ⟨hS, fun n hn a ha => .arg hn ha, fun c x hx => hlr x (hF.mem.1 hx).1, ?_, ?_, l, hl, ⟨?_, fun _ h => h, fun _ h _ => h,
      hp.nodup_iff.2 hI.nodup, fun _ _ _ _ _ h => h⟩, fun _ _ => rfl, ?_⟩
    · intro x hx ho
      exact htop x (hlr x (hF.mem.1 hx).1) ho (hF.mem.1 hx).2
    · intro c hc
      apply List.eq_nil_iff_forall_not_mem.2
      intro x hx
      have h := hF.mem.1 hx
      have := hsc x (hlr x h.1) (hI.needed x h.1)
      rw [h.2] at this; omega
    · intro it
      obtain ⟨t, ht⟩ := flat_balanced hS hl it []
      exact ⟨t, ht, ht⟩
    · intro x
      rw [hp.mem_iff]
      constructor
      · intro h; exact ⟨_, hF.mem.2 ⟨h, rfl⟩⟩
      · rintro ⟨c, h⟩; exact (hF.mem.1 h).1
  obtain ⟨j, hj, hGj⟩ := optimizeIfs_ok hlt (by omega) hG size
  obtain ⟨l', hl', hs, -⟩ := hGj.code
  refine ⟨l, l', ?_, ?_, hs⟩
  · unfold order
    rw [hq]
    simp only
    rw [hl]
    simp only
    rw [if_pos (by rw [hp.length_eq, hI.pushed])]
  · unfold joined
    rw [hq]
    simp only
    rw [hj]
    simp only
    rw [show Placed.mk j.nd j.scope j.path = pl j from rfl, hl']
    simp only
    rw [if_pos (hGj.length hl')]

/-- The same for the scopes found for the graph of a model with loops (C60). Missing: conditional temporaries. -/
theorem marked_joined_partial {nd : Nat → Node} {N fuel : Nat} {roots : List Nat} {own : Nat → Option Nat} {st : St} (hg : LoopGraph nd N)
    (hr : Roots nd N roots) (hix : ∀ r ∈ roots, (nd r).op ≠ .indexed) (hl : LoopLocal nd N roots own)
    (h : Verif.Scopes.mark fuel nd N roots = .ok st) (hs : st.size = N) (hx : ∀ n, N ≤ n → (nd n).op ≠ .loopTmp) (creates : OSt → Nat → Nat → Bool) :
    ∃ F, ∀ fuel, F ≤ fuel → ∃ l l', order st.placed creates fuel roots = .ok l ∧
      joined st.placed creates fuel (st.colors + 1) roots = .ok l' ∧ Same (fun x => (nd x).op) l l' ∧ RightOrder st.placed roots l := by
  have hN := mark_nested hg hr hix hl h hs hx
  obtain ⟨⟨hi, hroot⟩, -⟩ := mark_ok_own hg hr hl h
  have hb := hi.base
  have hno : ∀ n, (st.nd n).op ≠ .loopTmp := by
    intro n
    by_cases hn : n < N
    · rcases hb.orig n hn with h1 | h1
      · rw [h1]; exact (hg.original n hn).2.2
      · rw [h1.2]; simp
    · rw [hb.rest n (by omega)]; exact hx n (by omega)
  have hnd : ∀ n < N, st.nd n = nd n := by
    intro n hn
    rcases hb.orig n hn with h1 | h1
    · exact h1
    · obtain ⟨d, e, s, r, t, k, L, el, -, -, -, h4, -⟩ := hb.tmp n hn h1.2
      exact absurd (by rw [h4]) (hno t)
  have hvis : ∀ x, Reach st.nd roots x → x < N ∧ 1 ≤ st.count x := by
    intro x hx
    induction hx with
    | root h => exact ⟨(hr _ h).1, hroot _ h⟩
    | @arg u a _ ha ih =>
      have ha' := ha
      rw [hnd u ih.1] at ha'
      exact ⟨hg.closed u ih.1 a ha', (hi.avail u ih.2 (by simp) a ha).1⟩
  have hend : ∀ e b as, Reach st.nd roots e → (st.nd e).op.ends = true → (st.nd e).args = b :: as →
      (st.nd b).op ≠ .loopStart ∧ ∀ r ∈ as, (st.nd r).op = .condRes ∧ (st.nd r).args ≠ [] := by
    intro e b as he hop ha
    have hlt := (hvis e he).1
    rw [hnd e hlt] at hop ha
    obtain ⟨b', as', h1, h2, h3⟩ := hg.branch e hlt hop
    obtain ⟨rfl, rfl⟩ := List.cons.inj (ha.symm.trans h1)
    refine ⟨?_, ?_⟩
    · rw [hnd b (hg.closed e hlt b (by rw [ha]; simp))]; exact h2.2
    · intro r hr
      obtain ⟨v, hv⟩ := h3 r hr
      rw [hnd r (hg.closed e hlt r (by rw [ha]; simp [hr])), hv]
      exact ⟨rfl, by simp⟩
  have hM : Matched st.nd (Reach st.nd roots) := by
    refine ⟨?_, ?_⟩
    · intro e b as he hen ha
      rcases isEnd_cases hen with hop | hop
      · have hlt := (hvis e he).1
        have ha' := ha
        have hop' := hop
        rw [hnd e hlt] at ha' hop'
        obtain ⟨s, as', h1, h2, -⟩ := hg.loopEnd e hlt hop'
        obtain ⟨rfl, -⟩ := List.cons.inj (ha'.symm.trans h1)
        rw [hnd b (hg.closed e hlt b (by rw [ha']; simp))]
        exact ⟨fun _ => h2, fun _ => hop⟩
      · constructor
        · intro h; rw [h] at hop; cases hop
        · intro h; exact absurd h (hend e b as he hop ha).1
    · intro e b as he hop ha
      exact (hend e b as he (by rw [hop]; rfl) ha).2
  have htop : ∀ x, Reach st.nd roots x → (st.nd x).op = .endIf → st.scope x ≠ 0 := by
    intro x hx hop h0
    obtain ⟨L, el, hL, -, -, h4⟩ := hb.branch x (hvis x hx).2 (by rw [hop]; rfl)
    rw [h4 hop] at h0
    have := hL.1
    rw [h0, hb.zero] at this
    cases this
  obtain ⟨F, hF⟩ := joined_same_partial hN hM (size := st.colors + 1) (fun x hx => (hvis x hx).1)
    (fun x _ _ => Nat.lt_succ_of_le (hb.scopes x)) htop creates
  obtain ⟨F', hF'⟩ := order_right_partial hN creates
  refine ⟨F + F', fun fuel hf => ?_⟩
  obtain ⟨l, l', h1, h2, h3⟩ := hF fuel (by omega)
  obtain ⟨l2, k1, k2, -⟩ := hF' fuel (by omega)
  rw [h1] at k1
  cases k1
  obtain ⟨f1, f2, f3, f4, f5⟩ := h3
  have hlr : ∀ x ∈ l, (nd x).op = (st.nd x).op := fun x hx => by rw [hnd x (hvis x (k2.reached x hx)).1]
  refine ⟨l, l', h1, h2, ⟨?_, f2, ?_, f4, ?_⟩, k2⟩
  · intro it
    obtain ⟨t, t1, t2⟩ := f1 it
    refine ⟨t, ?_, ?_⟩
    · rw [runs_congr (op := fun x => (st.nd x).op) (op' := fun x => (nd x).op) it l [] hlr]; exact t1
    · rw [runs_congr (op := fun x => (st.nd x).op) (op' := fun x => (nd x).op) it l' [] fun n hn => hlr n (f2 n hn)]; exact t2
  · intro x hx hi
    rw [hlr x hx] at hi
    exact f3 x hx hi
  · intro d x hd hx hxl hB
    have hdl : d ∈ l := by
      obtain ⟨l₁, l₂, l₃, h⟩ := hB
      rw [h]; simp
    rw [hlr d hdl] at hd
    rw [hlr x (f2 x hxl)] at hx
    exact f5 d x hd hx hxl hB

/-- What operations use stays the same, whatever the graph is: their kind and their arguments are kept, except for the node at the beginning of the
conditional of a result, and ends of conditionals on which something depends for the order only. -/
theorem arguments_kept {fuel size : Nat} {st st' : JSt} (hr : ∀ e, (st.nd e).op = .endIf → ∀ r ∈ (st.nd e).args.tail, (st.nd r).op = .condRes)
    (h : optimizeIfs fuel size st = .ok st') (x : Nat) (hx : (st.nd x).op ≠ .endIf) : Kept st.nd st'.nd x := by
  have hI : Inv (fun a => decide ((st.nd a).op = .endIf)) st.nd st.nd := ⟨fun _ _ => .rfl', fun x hx => by simpa using hx, hr⟩
  have hk := (optimizeIfs_inv hI h).kept x (by simpa using hx)
  exact ⟨hk.op, hk.plain, hk.results, hk.tmp, fun hc => by simpa using hk.order hc⟩

/-! ### examples -/

/-- two conditionals with the same condition and one with another -/
def threeIfs : Nat → Node
  | 0 => ⟨.indexed, []⟩
  | 1 => ⟨.plain, [0]⟩
  | 2 => ⟨.plain, [0]⟩
  | 3 => ⟨.startIf [(0, 2)], []⟩
  | 4 => ⟨.condRes, [3, 1]⟩
  | 5 => ⟨.endIf, [3, 4]⟩
  | 6 => ⟨.startIf [(0, 2)], []⟩
  | 7 => ⟨.condRes, [6, 2]⟩
  | 8 => ⟨.endIf, [6, 7]⟩
  | 9 => ⟨.startIf [(5, 7)], []⟩
  | 10 => ⟨.plain, [0]⟩
  | 11 => ⟨.condRes, [9, 10]⟩
  | 12 => ⟨.endIf, [9, 11]⟩
  | 13 => ⟨.loopStart, []⟩
  | 14 => ⟨.loopEnd, [13, 5, 8, 12]⟩
  | 15 => ⟨.multi, [14]⟩
  | _ => ⟨.indep, []⟩

theorem threeIfs_graph : LoopGraph threeIfs 16 := by
  constructor
  case acyclic => refine ⟨id, ?_⟩; intro n hn; interval_cases n <;> decide
  case unique =>
    intro e he e' he' h h' heq
    interval_cases e <;> first
      | (exfalso; revert h; decide)
      | (interval_cases e' <;> first
          | rfl
          | (exfalso; revert h'; decide)
          | (exfalso; revert heq; decide))
  case conds =>
    intro n hn rs h
    interval_cases n <;> rcases h with h | h <;> cases h <;> exact ⟨by simp, by decide⟩
  case loopEnd =>
    intro n hn h
    interval_cases n <;> first | exact ⟨_, _, rfl, rfl, by decide⟩ | cases h
  case branch =>
    intro n hn h
    interval_cases n <;> first
      | exact ⟨_, _, rfl, by decide, by
          intro r hr
          simp only [List.mem_cons, List.not_mem_nil, or_false] at hr
          first
            | (rcases hr with hr | hr <;> subst hr <;> exact ⟨_, rfl⟩)
            | (subst hr; exact ⟨_, rfl⟩)⟩
      | cases h
  case condRes =>
    intro n hn h
    interval_cases n <;> first | exact ⟨_, _, rfl, by decide, by decide⟩ | cases h
  case leaf =>
    intro n hn h
    interval_cases n <;> first
      | rfl
      | (rcases h with h | h | ⟨rs, h⟩ <;> cases h)
  all_goals (intro n hn; interval_cases n <;> decide)

/-- a temporary assigned in a conditional and used in the next one, which has the same condition -/
def twoIfs : JSt where
  nd
    | 0 => ⟨.plain, []⟩
    | 1 => ⟨.tmpDcl, []⟩
    | 2 => ⟨.tmp, [1, 5]⟩
    | 3 => ⟨.startIf [(0, 2)], [0]⟩
    | 4 => ⟨.condRes, [3, 0]⟩
    | 5 => ⟨.endIf, [3, 4]⟩
    | 6 => ⟨.startIf [(0, 2)], [0, 5]⟩
    | 7 => ⟨.condRes, [6, 9]⟩
    | 8 => ⟨.endIf, [6, 7]⟩
    | 9 => ⟨.plain, [2, 0]⟩
    | _ => ⟨.indep, []⟩
  scope
    | 3 | 4 => 1
    | 6 | 7 | 9 => 2
    | _ => 0
  path
    | 1 => [(1, 5)]
    | 2 => [(2, 8)]
    | _ => []
  queue
    | 0 => [0, 1, 5, 8]
    | 1 => [3, 4]
    | 2 => [6, 9, 7]
    | _ => []
  visited _ := false

example : ∀ e, (twoIfs.nd e).op = .endIf → ∀ r ∈ (twoIfs.nd e).args.tail, (twoIfs.nd r).op = .condRes := by
  intro e he
  rcases e with _ | _ | _ | _ | _ | _ | _ | _ | _ | _ | e <;> simp [twoIfs] at he ⊢

example : (match optimizeIfs 10 3 twoIfs with
    | .ok st => (List.range 10).map fun x => (decide ((st.nd x).op = (twoIfs.nd x).op), (st.nd x).args)
    | .error _ => []) = [(true, []), (true, []), (true, [1]), (true, [0]), (true, [3, 0]), (true, [3, 4, 7]), (true, [0]), (true, [3, 9]), (false, [5]),
      (true, [2, 0])] := by decide +kernel

/-- the value of the scopes, the order before and the order after -/
theorem join_result {fuel : Nat} {nd : Nat → Node} {N : Nat} {roots l l' : List Nat} {p : St → Bool}
    (h : (match Verif.Scopes.mark fuel nd N roots with
      | .ok st => p st && (match order st.placed (fun _ _ _ => true) fuel roots with | .ok m => decide (m = l) | .error _ => false) &&
        (match joined st.placed (fun _ _ _ => true) fuel (st.colors + 1) roots with | .ok m => decide (m = l') | .error _ => false)
      | .error _ => false) = true) : ∃ st, Verif.Scopes.mark fuel nd N roots = .ok st ∧ p st = true ∧
        order st.placed (fun _ _ _ => true) fuel roots = .ok l ∧ joined st.placed (fun _ _ _ => true) fuel (st.colors + 1) roots = .ok l' := by
  cases hm : Verif.Scopes.mark fuel nd N roots with
  | error e => rw [hm] at h; cases h
  | ok st =>
    rw [hm] at h
    simp only [Bool.and_eq_true] at h
    obtain ⟨⟨h1, h2⟩, h3⟩ := h
    refine ⟨st, rfl, h1, ?_, ?_⟩
    · cases ho : order st.placed (fun _ _ _ => true) fuel roots with
      | error e => rw [ho] at h2; cases h2
      | ok m => rw [ho] at h2; simp only [decide_eq_true_eq] at h2; rw [h2]
    · cases ho : joined st.placed (fun _ _ _ => true) fuel (st.colors + 1) roots with
      | error e => rw [ho] at h3; cases h3
      | ok m => rw [ho] at h3; simp only [decide_eq_true_eq] at h3; rw [h3]

example : ∃ st, Verif.Scopes.mark 30 threeIfs 16 [15] = .ok st ∧ (∃ F, ∀ fuel, F ≤ fuel → ∃ l l',
    order st.placed (fun _ _ _ => true) fuel [15] = .ok l ∧ joined st.placed (fun _ _ _ => true) fuel (st.colors + 1) [15] = .ok l' ∧
      Same (fun x => (threeIfs x).op) l l' ∧ RightOrder st.placed [15] l) ∧
      order st.placed (fun _ _ _ => true) 30 [15] = .ok [13, 3, 1, 4, 5, 6, 2, 7, 8, 9, 10, 11, 12, 14, 15] ∧
      joined st.placed (fun _ _ _ => true) 30 (st.colors + 1) [15] = .ok [13, 3, 1, 4, 2, 7, 5, 9, 10, 11, 12, 14, 15] := by
  obtain ⟨st, h1, h2, h3, h4⟩ := join_result (fuel := 30) (nd := threeIfs) (N := 16) (roots := [15])
    (p := fun st => decide (st.size = 16)) (l := [13, 3, 1, 4, 5, 6, 2, 7, 8, 9, 10, 11, 12, 14, 15])
    (l' := [13, 3, 1, 4, 2, 7, 5, 9, 10, 11, 12, 14, 15]) (by decide +kernel)
  refine ⟨st, h1, marked_joined_partial threeIfs_graph (roots_one (by decide)) (by decide)
    (local_of_check (own := ownBut 14 []) (by decide)) h1 (by simpa using h2) ?_ _, h3, h4⟩
  intro n hn
  have : threeIfs n = ⟨.indep, []⟩ := by
    unfold threeIfs
    split <;> first | omega | rfl
  rw [this]
  decide

/-- A temporary with the declaration 14 is assigned in the first conditional and used in the second one, which has the same condition. The
second one assigns a temporary with the declaration 15. -/
def withTmp : Placed where
  nd
    | 0 => ⟨.indexed, []⟩
    | 1 => ⟨.plain, [0]⟩
    | 2 => ⟨.loopTmp, [14, 1]⟩
    | 3 => ⟨.startIf [(0, 2)], []⟩
    | 4 => ⟨.condRes, [3, 2]⟩
    | 5 => ⟨.endIf, [3, 4]⟩
    | 6 => ⟨.startIf [(0, 2)], [5]⟩
    | 7 => ⟨.tmp, [14, 5]⟩
    | 8 => ⟨.loopTmp, [15, 7]⟩
    | 9 => ⟨.condRes, [6, 8]⟩
    | 10 => ⟨.endIf, [6, 9]⟩
    | 11 => ⟨.loopStart, []⟩
    | 12 => ⟨.loopEnd, [11, 5, 10]⟩
    | 13 => ⟨.multi, [12]⟩
    | 14 => ⟨.tmpDcl, []⟩
    | 15 => ⟨.tmpDcl, []⟩
    | _ => ⟨.indep, []⟩
  scope
    | 5 | 10 | 11 | 14 | 15 => 1
    | 1 | 2 | 3 | 4 => 2
    | 6 | 7 | 8 | 9 => 3
    | _ => 0
  path
    | 1 => [(1, 12)]
    | 2 => [(1, 12), (2, 5)]
    | 3 => [(1, 12), (3, 10)]
    | _ => []

theorem withTmp_lt {x : Nat} (h : Reach withTmp.nd [13] x) : x < 16 := by
  induction h with
  | root h => simp at h; omega
  | @arg u a _ ha ih =>
    interval_cases u <;> simp [withTmp] at ha <;> omega

theorem withTmp_nested : Nested withTmp [13] := by
  have r12 : Reach withTmp.nd [13] 12 := .arg (u := 13) (.root (by simp)) (by decide)
  have r5 : Reach withTmp.nd [13] 5 := .arg r12 (by decide)
  have r10 : Reach withTmp.nd [13] 10 := .arg r12 (by decide)
  constructor
  case acyclic =>
    refine ⟨fun n => if n = 14 ∨ n = 15 then 0 else n + 1, ?_⟩
    intro u hu
    have := withTmp_lt hu
    interval_cases u <;> decide
  case top => rfl
  case results => decide
  case leaf =>
    intro u hu
    have := withTmp_lt hu
    interval_cases u <;> decide
  case last =>
    intro u hu
    have := withTmp_lt hu
    interval_cases u <;> intro _ _ <;> first
      | exact ⟨[], 12, rfl⟩
      | exact ⟨[(1, 12)], 5, rfl⟩
      | exact ⟨[(1, 12)], 10, rfl⟩
      | (exfalso; revert ‹_ ≠ 0›; decide)
  case outer =>
    intro u hu _ p el q h
    have hc : withTmp.path (withTmp.scope u) = [] ∨ withTmp.path (withTmp.scope u) = [(1, 12)] ∨
        withTmp.path (withTmp.scope u) = [(1, 12), (2, 5)] ∨ withTmp.path (withTmp.scope u) = [(1, 12), (3, 10)] := by
      have := withTmp_lt hu
      interval_cases u <;> decide
    have one : ∀ x y : Nat × Nat, [x] = p ++ el :: q → p = [] ∧ el = x := by
      intro x y h
      cases p with
      | nil => simp at h; exact ⟨rfl, h.1.symm⟩
      | cons a p => simp at h
    have two : ∀ x y : Nat × Nat, [x, y] = p ++ el :: q → (p = [] ∧ el = x) ∨ (p = [x] ∧ el = y) := by
      intro x y h
      cases p with
      | nil => simp at h; exact .inl ⟨rfl, h.1.symm⟩
      | cons a p =>
        cases p with
        | nil => simp at h; exact .inr ⟨by rw [h.1], h.2.1.symm⟩
        | cons a' p => simp at h
    have first : p = [] ∧ el = (1, 12) → el.1 ≠ 0 ∧ withTmp.path el.1 = p ++ [el] ∧ Reach withTmp.nd [13] el.2 ∧ (withTmp.nd el.2).op.isEnd = true ∧
        ∃ b as, (withTmp.nd el.2).args = b :: as ∧ withTmp.scope b = el.1 := by
      rintro ⟨rfl, rfl⟩
      exact ⟨by decide, rfl, r12, rfl, 11, _, rfl, rfl⟩
    rcases hc with hc | hc | hc | hc <;> rw [hc] at h
    · cases p <;> simp at h
    · exact first (one _ (0, 0) h)
    · rcases two _ _ h with h | ⟨rfl, rfl⟩
      · exact first h
      · exact ⟨by decide, rfl, r5, rfl, 3, _, rfl, rfl⟩
    · rcases two _ _ h with h | ⟨rfl, rfl⟩
      · exact first h
      · exact ⟨by decide, rfl, r10, rfl, 6, _, rfl, rfl⟩
  case begins =>
    intro u hu hb
    have := withTmp_lt hu
    interval_cases u <;> first
      | exact ⟨[], 12, _, rfl, rfl⟩
      | exact ⟨[(1, 12)], 5, _, rfl, rfl⟩
      | exact ⟨[(1, 12)], 10, _, rfl, rfl⟩
      | (exfalso; revert hb; decide)
  case ends =>
    intro u hu hb
    have := withTmp_lt hu
    interval_cases u <;> first
      | exact ⟨[], 11, _, rfl, rfl, rfl, rfl⟩
      | exact ⟨[(1, 12)], 3, _, rfl, rfl, rfl, rfl⟩
      | exact ⟨[(1, 12)], 6, _, rfl, rfl, rfl, rfl⟩
      | (exfalso; revert hb; decide)
  case inside =>
    intro u hu
    have := withTmp_lt hu
    interval_cases u <;> decide

theorem withTmp_matched : Matched withTmp.nd (Reach withTmp.nd [13]) := by
  constructor
  · intro e b as he hen ha
    have := withTmp_lt he
    interval_cases e <;> cases ha <;> first | decide | (exfalso; revert hen; decide)
  · intro e b as he hen ha
    have := withTmp_lt he
    interval_cases e <;> cases ha <;> first | decide | (exfalso; revert hen; decide)

example : (∃ F, ∀ fuel, F ≤ fuel → ∃ l l', order withTmp (fun _ _ _ => true) fuel [13] = .ok l ∧ joined withTmp (fun _ _ _ => true) fuel 4 [13] = .ok l' ∧
      Same (fun x => (withTmp.nd x).op) l l') ∧
    order withTmp (fun _ _ _ => true) 30 [13] = .ok [11, 14, 3, 1, 2, 4, 5, 15, 6, 8, 9, 10, 12, 13] ∧
    joined withTmp (fun _ _ _ => true) 30 4 [13] = .ok [11, 14, 15, 3, 1, 2, 4, 8, 9, 5, 12, 13] := by
  refine ⟨joined_same_partial withTmp_nested withTmp_matched (N := 16) (fun x hx => withTmp_lt hx) ?_ ?_ _, by decide +kernel, by decide +kernel⟩
  · intro x hx
    have := withTmp_lt hx
    interval_cases x <;> decide
  · intro x hx
    have := withTmp_lt hx
    interval_cases x <;> decide

end Verif.Scopes.Join
