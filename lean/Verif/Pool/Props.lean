/-
Thread pool: properties C31-C36.
Code: /repo/include/cppad/cg/model/threadpool/pthread_pool.c
-/
import Verif.Pool.LemmasLive
import Verif.Pool.LemmasSched
import Mathlib.Algebra.Order.Ring.Rat
import Mathlib.Tactic.NormNum
import Mathlib.Tactic.Linarith
import Mathlib.Tactic.FieldSimp
namespace Verif.Pool

theorem run_of_runAll {s s' : State} {as : List Act} (h : runAll s as = some s') : Run s as s' := by
  induction as generalizing s with
  | nil => simp only [runAll, Option.some.injEq] at h; subst h; exact .nil _
  | cons a as ih =>
    unfold runAll at h
    cases he : exec s a with
    | none => rw [he] at h; cases h
    | some s1 => rw [he] at h; exact .cons he (ih h)

theorem run_of_calm {s s' : State} {as : List Act} (h : CalmRun s as s') : Run s as s' := by
  induction h with
  | nil => exact .nil _
  | cons _ h _ ih => exact .cons h ih

theorem run_append {s s1 s2 : State} {as bs : List Act} (h1 : Run s as s1) (h2 : Run s1 bs s2) : Run s (as ++ bs) s2 := by
  induction h1 with
  | nil => exact h2
  | cons h _ ih => exact .cons h (ih h2)

/-! ### C31: every job exactly once -/

/-- In every state of every execution each job added so far is in exactly one place: in the queue, in a
work group, in the hands of exactly one thread, finished, or thrown away by the destruction of the pool. -/
theorem one_place {st : Strategy} {n m : Nat} {as : List Act} {s : State} (h : Run (init st n m) as s) (j : Nat) :
    s.queue.count j + s.groups.flatten.count j +
      (s.ws.map fun p => match p with | .run js => js.count j | _ => 0).sum + s.done.count j + s.dropped.count j
      = if j < s.next then 1 else 0 := by
  have := (inv_run h (inv_init st n m)).places j
  unfold places at this
  rw [← this]
  rfl

/-- No job is executed twice, and only jobs which were added are executed. -/
theorem at_most_once {st : Strategy} {n m : Nat} {as : List Act} {s : State} (h : Run (init st n m) as s) :
    s.done.Nodup ∧ ∀ j ∈ s.done, j < s.next := by
  have hp := (inv_run h (inv_init st n m)).places
  constructor
  · rw [List.nodup_iff_count_le_one]
    intro j
    have := hp j
    unfold places at this
    split at this <;> omega
  · intro j hj
    have h1 := hp j
    have h2 := List.count_pos_iff.2 hj
    unfold places at h1
    by_cases hlt : j < s.next
    · exact hlt
    · rw [if_neg hlt] at h1; omega

/-- No job is lost while the pool lives: a job which is not queued and not in the hands of a thread has
been executed. -/
theorem none_lost {st : Strategy} {n m : Nat} {as : List Act} {s : State} (h : Run (init st n m) as s)
    (hk : s.keepalive = true) {j : Nat} (hj : j < s.next) (hq : j ∉ s.queue) (hg : j ∉ s.groups.flatten)
    (hw : ∀ js, .run js ∈ s.ws → j ∉ js) : j ∈ s.done := by
  have hi := inv_run h (inv_init st n m)
  have hp := hi.places j
  unfold places at hp
  have hheld : (s.ws.map (heldCount j)).sum = 0 := by
    have : ∀ ws : List WPc, (∀ js, .run js ∈ ws → j ∉ js) → (ws.map (heldCount j)).sum = 0 := by
      intro ws
      induction ws with
      | nil => intro _; rfl
      | cons p ws ih =>
        intro h
        simp only [List.map_cons, List.sum_cons, ih (fun js hjs => h js (by simp [hjs]))]
        cases p with
        | run js => simp only [heldCount, List.count_eq_zero.2 (h js (by simp))]
        | _ => rfl
    exact this _ hw
  rw [if_pos hj, hheld, List.count_eq_zero.2 hq, List.count_eq_zero.2 hg, (hi.drop hk).1] at hp
  simp only [List.count_nil] at hp
  exact List.count_pos_iff.1 (by omega)

/-- Exactly once: when the pool (not destroyed, strategy not changed with groups queued) has come to rest,
the executed jobs are exactly the added ones, each once. -/
theorem exactly_once_at_rest {st : Strategy} {n m : Nat} {as : List Act} {s : State} (hn : 0 < n)
    (h : CalmRun (init st n m) as s) (hq : ∀ a : Act, a.internal = true → exec s a = none) :
    s.done.Perm (List.range s.next) := by
  have hl := live_run h (live_init st n m)
  have hne : s.ws ≠ [] := by
    have hlen : ∀ {s s' : State} {as : List Act}, Run s as s' → s'.ws.length = s.ws.length := by
      intro s s' as h
      induction h with
      | nil => rfl
      | cons h _ ih =>
        rw [ih]
        have hE := exec_eff h
        cases hE with
        | worker w =>
          cases w with
          | pull k grp q gs ws' v' hp hj hpost =>
            rcases hpost with ⟨_, _, wk, hsig⟩ | ⟨_, _, _, rfl⟩
            · rcases signalW_eq hsig with ⟨rfl, _⟩ | ⟨i, _, rfl⟩ <;> simp
            · simp
          | _ => simp
        | client w => cases w <;> simp [broadcastW]
        | push ws hp hsig => rcases signalW_eq hsig with ⟨rfl, _⟩ | ⟨i, _, rfl⟩ <;> simp
        | _ => simp [broadcastW]
    have := hlen (run_of_calm h)
    rw [show (init st n m).ws.length = n by simp [init]] at this
    intro e
    rw [e] at this
    simp only [List.length_nil] at this
    omega
  obtain ⟨h1, h2, h3, h4⟩ := quiescent hl hne hq
  have hrun := run_of_calm h
  refine (List.perm_ext_iff_of_nodup (at_most_once hrun).1 List.nodup_range).2 fun j => ?_
  rw [List.mem_range]
  refine ⟨(at_most_once hrun).2 j, fun hj => none_lost hrun hl.keep hj (by simp [h1]) (by simp [h2]) ?_⟩
  intro js hjs
  have := h3 _ hjs
  cases this

/-- executable form of `CalmRun`, for examples -/
def calmB (s : State) : Act → Bool
  | .callDestroy _ => false
  | .setStrategy _ st => decide (s.groups = [] ∨ st = .static)
  | .callWait _ => s.cs.all fun p => !p.isWaiting
  | _ => true

def runCalm : State → List Act → Option State
  | s, [] => some s
  | s, a :: as => if calmB s a then (exec s a).bind fun s' => runCalm s' as else none

theorem calmRun_of_runCalm {s s' : State} {as : List Act} (h : runCalm s as = some s') : CalmRun s as s' := by
  induction as generalizing s with
  | nil => simp only [runCalm, Option.some.injEq] at h; subst h; exact .nil _
  | cons a as ih =>
    unfold runCalm at h
    by_cases hc : calmB s a
    · rw [if_pos hc] at h
      cases he : exec s a with
      | none => rw [he] at h; cases h
      | some s1 =>
        rw [he] at h
        refine .cons ?_ he (ih h)
        cases a <;> simp_all [calmB, Calm]
    · rw [if_neg hc] at h; cases h

/-- a job pushed, a client which sleeps until it is done, is woken and returns; then the worker sleeps -/
def waitActs : List Act :=
  [.push 0 none, .callWait 0, .client 0, .client 0, .client 0, .worker 0 0 none, .worker 0 0 none, .worker 0 0 none,
   .worker 0 0 none, .worker 0 0 none, .worker 0 0 none, .worker 0 0 none, .worker 0 0 none, .worker 0 0 none,
   .worker 0 0 none, .worker 0 0 (some 0), .client 0, .client 0, .client 0, .client 0, .worker 0 0 none,
   .worker 0 0 none]

/-- non-vacuity of `exactly_once_at_rest` -/
example : ∃ s, CalmRun (init .dynamic 1 1) waitActs s ∧ s.next = 1 ∧ ∀ a : Act, a.internal = true → exec s a = none := by
  refine ⟨_, calmRun_of_runCalm rfl, rfl, ?_⟩
  intro a ha
  cases a with
  | worker i k w => cases i with
    | zero => rfl
    | succ i => rfl
  | client c => cases c with
    | zero => rfl
    | succ c => rfl
  | _ => cases ha

/-- two workers, three jobs pushed at once, the first worker takes the first, then two more -/
example : ((runAll (init .guided 2 1)
    [.multipush 0 3, .worker 0 0 none, .worker 0 0 none, .worker 0 0 none, .worker 0 0 none, .worker 0 0 none,
     .worker 0 1 none, .worker 0 0 none, .worker 1 0 none, .worker 0 0 none, .worker 0 0 none, .worker 0 1 none]).map
    fun s => (s.done, s.queue, s.v)) = some ([0], [2], true) := by
  decide

/-- Destroying the pool throws away the jobs which are still queued, so without waiting first a job may
never be executed. -/
theorem exactly_once_counterexample :
    ∃ (as : List Act) (s : State), Run (init .dynamic 1 1) as s ∧ s.next = 1 ∧ s.done = [] ∧ s.dropped = [0] ∧
      s.cs = [.dead] := by
  refine ⟨[.push 0 none, .callDestroy 0, .worker 0 0 none, .worker 0 0 none, .client 0], _, run_of_runAll rfl, ?_⟩
  decide

/-! ### C32: waiting -/

/-- When `cppadcg_thpool_wait` has returned, every job which had been added (by any thread) before the call
is finished, in every interleaving, provided that nobody destroyed the pool meanwhile. -/
theorem wait_waits {st : Strategy} {n m : Nat} {as bs : List Act} {s0 s1 s2 : State} {c : Nat}
    (h0 : Run (init st n m) as s0) (h1 : exec s0 (.callWait c) = some s1) (h2 : Run s1 bs s2)
    (hret : s2.cs[c]? = some .idle) (hk : s2.keepalive = true) : ∀ j < s0.next, j ∈ s2.done := by
  have hi0 := inv_run h0 (inv_init st n m)
  have hi1 := inv_step hi0 h1
  have hw : ∃ p, s1.cs[c]? = some p ∧ Waiting (List.range s0.next) p := by
    simp only [exec] at h1
    split at h1
    · rename_i hc
      simp only [Option.some.injEq] at h1
      subst h1
      exact ⟨_, get_set_self hc, rfl⟩
    · cases h1
  rcases waiting_run h2 hi1 (.inl hw) with ⟨p, hp, hwp⟩ | h
  · rw [hret] at hp; cases hp; exact hwp.elim
  · intro j hj
    rcases h j (List.mem_range.2 hj) with h | h
    · exact h
    · rw [((inv_run h2 hi1).drop hk).1] at h
      simp at h

/-- non-vacuity: a wait which really sleeps, is woken and returns -/
example : ((runAll (init .dynamic 1 1) waitActs).map fun s => (s.done, s.cs, s.keepalive)) = some ([0], [.idle], true) := by
  decide
example : ((runAll (init .dynamic 1 1) (waitActs.take 5)).map fun s => s.cs) = some [.asleep [0]] := by decide

/-! ### C33: progress -/

/-- All activity of the pool and of the waiting client ends: from any state reached by calm use at most
`bound s` steps of workers and clients can follow, whatever the interleaving. -/
theorem activity_ends_partial {st : Strategy} {n m : Nat} {as bs : List Act} {s s' : State}
    (h : CalmRun (init st n m) as s) (hb : Run s bs s') (hin : ∀ a ∈ bs, a.internal = true) :
    bs.length ≤ bound s := by
  have hl := live_run h (live_init st n m)
  clear h
  induction hb with
  | nil => simp
  | @cons s s1 s2 a bs ha _ ih =>
    have hint := hin a (by simp)
    have hcalm : Calm s a := by cases a <;> simp_all [Act.internal, Calm]
    have h1 := ih (fun b hb => hin b (by simp [hb])) (live_step hl hcalm ha)
    have h2 := bound_step hl hint ha
    simp only [List.length_cons]
    omega

/-- No lost wake-up: when nothing can move any more there is nothing left to do, every added job has been
executed, and nobody is left waiting. (With at least one worker, the pool not destroyed, the strategy not
changed away from static while groups are queued, and one waiting thread at a time.) -/
theorem rest_means_done_partial {st : Strategy} {n m : Nat} {as : List Act} {s : State} (hn : 0 < n)
    (h : CalmRun (init st n m) as s) (hq : ∀ a : Act, a.internal = true → exec s a = none) :
    (∀ j < s.next, j ∈ s.done) ∧ ∀ p ∈ s.cs, p = .idle ∨ p = .dead := by
  have hp := exactly_once_at_rest hn h hq
  refine ⟨fun j hj => hp.mem_iff.2 (List.mem_range.2 hj), ?_⟩
  have hl := live_run h (live_init st n m)
  have hne : s.ws ≠ [] ∨ s.ws = [] := by by_cases e : s.ws = [] <;> simp [e]
  intro p hpm
  obtain ⟨c, hc⟩ := List.getElem?_of_mem hpm
  have hwait : p.isWaiting = false := by
    rcases hne with hne | hnil
    · exact (quiescent hl hne hq).2.2.2 p hpm
    · exfalso
      have hlen : ∀ {s s' : State} {as : List Act}, CalmRun s as s' → s.ws ≠ [] → s'.ws ≠ [] := by
        intro s s' as h
        induction h with
        | nil => exact fun h => h
        | cons _ h _ ih =>
          intro hne
          apply ih
          have hE := exec_eff h
          cases hE with
          | worker w =>
            cases w with
            | pull k grp q gs ws' v' hp hj hpost =>
              rcases hpost with ⟨_, _, wk, hsig⟩ | ⟨_, _, _, rfl⟩
              · rcases signalW_eq hsig with ⟨rfl, _⟩ | ⟨i, _, rfl⟩ <;> simpa using hne
              · simpa using hne
            | _ => simpa using hne
          | client w => cases w <;> simpa [broadcastW] using hne
          | push ws hp hsig => rcases signalW_eq hsig with ⟨rfl, _⟩ | ⟨i, _, rfl⟩ <;> simpa using hne
          | _ => simpa [broadcastW] using hne
      refine hlen h ?_ hnil
      intro e
      have := congrArg List.length e
      simp [init] at this
      omega
  cases p with
  | idle => exact .inl rfl
  | dead => exact .inr rfl
  | shut => exact absurd hc ((hl.inv.drop hl.keep).2 c)
  | _ => cases hwait

/-- As long as a job is queued or held by a thread, or a client waits, a worker or the client can make a step. -/
theorem can_move_partial {st : Strategy} {n m : Nat} {as : List Act} {s : State} (hn : 0 < n)
    (h : CalmRun (init st n m) as s) (hbusy : ∃ j < s.next, j ∉ s.done) :
    ∃ a : Act, a.internal = true ∧ ∃ s', exec s a = some s' := by
  by_contra hno
  have hq : ∀ a : Act, a.internal = true → exec s a = none := by
    intro a ha
    cases he : exec s a with
    | none => rfl
    | some s' => exact absurd ⟨a, ha, s', he⟩ hno
  obtain ⟨j, hj, hjd⟩ := hbusy
  exact hjd ((rest_means_done_partial hn h hq).1 j hj)

/-- non-vacuity: a calm run with two workers, static groups, a strategy change when none is queued -/
example : ∃ s, CalmRun (init .static 2 1) [.pushStatic 0 3 [[0, 2], [1]], .worker 0 0 none, .worker 0 0 none,
    .worker 0 0 none, .worker 0 0 none, .worker 0 0 none, .worker 0 0 none, .callWait 0] s ∧ s.groups = [[1]] ∧
    s.next = 3 ∧ s.done = [] := by
  refine ⟨_, .cons trivial rfl (.cons trivial rfl (.cons trivial rfl (.cons trivial rfl (.cons trivial rfl (.cons trivial rfl
    (.cons trivial rfl (.cons ?_ rfl (.nil _)))))))), rfl, rfl, rfl⟩
  simp [Calm, init, CPc.isWaiting]

/-- Work groups queued by static scheduling are never executed after the strategy has been changed: they
stay where they are as long as the strategy is not set again, whatever the threads do. -/
theorem groups_stuck {s s' : State} {as : List Act} (h : Run s as s') (hst : s.strategy ≠ .static)
    (hno : ∀ a ∈ as, ∀ c t, a ≠ .setStrategy c t ∧ a ≠ .callDestroy c) (hd : ∀ c : Nat, s.cs[c]? ≠ some CPc.shut) :
    s'.groups = s.groups := by
  induction h with
  | nil => rfl
  | @cons s s1 s2 a as ha _ ih =>
    have hno1 := hno a (by simp)
    have key : s1.groups = s.groups ∧ s1.strategy = s.strategy ∧ ∀ c : Nat, s1.cs[c]? ≠ some CPc.shut := by
      have hset : ∀ (c : Nat) (b : CPc), b ≠ .shut → ∀ d : Nat, (s.cs.set c b)[d]? ≠ some CPc.shut := by
        intro c b hb d h
        rcases get_set h with ⟨_, e⟩ | ⟨_, h⟩
        · exact hb e.symm
        · exact hd d h
      have hE := exec_eff ha
      cases hE with
      | worker w =>
        cases w with
        | pull k grp q gs ws' v' hp hj hpost =>
          refine ⟨?_, rfl, hd⟩
          unfold pullJobs at hj
          split at hj
          · rename_i heq _; exact absurd heq hst
          · split at hj
            · cases hj; rfl
            · simp only at hj
              generalize (if s.strategy = .dynamic then 1 else k) = k' at hj
              split at hj
              · cases hj; rfl
              · cases hj
        | decSignal cs wk hp hl hw hsig =>
          refine ⟨rfl, rfl, ?_⟩
          rcases signalC_eq hsig with ⟨rfl, _⟩ | ⟨d, T, hc, rfl⟩
          · exact hd
          · exact hset _ _ (by simp)
        | _ => exact ⟨rfl, rfl, hd⟩
      | client w =>
        cases w with
        | repost hp _ => exact absurd hp (hd _)
        | clear hp _ => exact absurd hp (hd _)
        | _ => exact ⟨rfl, rfl, hset _ _ (by simp)⟩
      | pushStatic hp hs _ => exact absurd hs hst
      | setStrategy hp => exact absurd rfl (hno1 _ _).1
      | callDestroy hp => exact absurd rfl (hno1 _ .static).2
      | callWait hp => exact ⟨rfl, rfl, hset _ _ (by simp)⟩
      | spuriousC S hp => exact ⟨rfl, rfl, hset _ _ (by simp)⟩
      | push | multipush | spuriousW => exact ⟨rfl, rfl, hd⟩
    rw [ih (by rw [key.2.1]; exact hst) (fun b hb => hno b (by simp [hb])) key.2.2, key.1]

/-- Counterexample to progress: after a change of strategy with a group queued a worker runs in circles
for ever (the state repeats after seven steps), and the job of the group is never executed. -/
theorem strategy_change_counterexample :
    ∃ (as bs : List Act) (s : State), Run (init .static 1 1) as s ∧ Run s bs s ∧ bs ≠ [] ∧
      (∀ a ∈ bs, a.internal = true) ∧ s.groups = [[0]] ∧ s.next = 1 ∧ 0 ∉ s.done := by
  refine ⟨[.pushStatic 0 1 [[0]], .setStrategy 0 .dynamic],
    [.worker 0 0 none, .worker 0 0 none, .worker 0 0 none, .worker 0 0 none, .worker 0 0 none, .worker 0 0 none,
      .worker 0 0 none], _, run_of_runAll rfl, run_of_runAll (by decide), by decide, by decide, by decide, by decide, by decide⟩

/-- Counterexample to progress: two threads wait, only one of them is woken when the work is done; the
other one sleeps for ever although nothing is left to do. -/
theorem two_waiters_counterexample :
    ∃ (as : List Act) (s : State), Run (init .dynamic 1 2) as s ∧ s.queue = [] ∧ s.groups = [] ∧ s.working = 0 ∧
      s.done = [0] ∧ s.cs = [.idle, .asleep [0]] ∧ ∀ a : Act, a.internal = true → exec s a = none := by
  refine ⟨[.push 0 none, .callWait 0, .callWait 1, .client 0, .client 0, .client 0, .client 1, .client 1, .client 1,
    .worker 0 0 none, .worker 0 0 none, .worker 0 0 none, .worker 0 0 none, .worker 0 0 none, .worker 0 0 none,
    .worker 0 0 none, .worker 0 0 none, .worker 0 0 none, .worker 0 0 none, .worker 0 0 (some 0), .client 0, .client 0,
    .client 0, .client 0, .worker 0 0 none, .worker 0 0 none], _, run_of_runAll rfl, rfl, rfl, rfl, rfl, rfl, ?_⟩
  intro a ha
  cases a with
  | worker i k w =>
    cases i with
    | zero => rfl
    | succ i => rfl
  | client c =>
    match c with
    | 0 => rfl
    | 1 => rfl
    | c + 2 => rfl
  | _ => cases ha

/-! ### C34: guided scheduling -/

/-- The group taken is a non-empty prefix of the queue and the traversal stays inside the queue, for exact
arithmetic, a maximum group work of at most the number of threads and a working clock. -/
theorem guided_safe_partial {α : Type} [Field α] [LinearOrder α] [IsStrictOrderedRing α] {q : JobQ α} (hq : q.Reach)
    (hne : q.times ≠ []) (maxgroupwork : α) (threads : Nat) (hn : 0 < threads) (hm : maxgroupwork ≤ threads) :
    ∃ k, guided (codeTarget maxgroupwork (threads : α) none) q = .group k ∧ 1 ≤ k ∧ k ≤ q.times.length := by
  cases hg : guided (codeTarget maxgroupwork (threads : α) none) q with
  | group k => exact ⟨k, rfl, guided_group _ q k hne hg⟩
  | null =>
    exfalso
    obtain ⟨hpos, t, ts, _, htimes, hlt⟩ := guided_null _ q hg
    have htot := reach_total hq
    rw [htimes] at htot
    have hsum : ((t :: ts).map some |>.filterMap id).sum = t + ts.sum := by
      rw [List.filterMap_map]
      simp
    rw [hsum] at htot
    rw [foldl_sum, ← htot] at hlt
    simp only [codeTarget] at hlt
    have hn' : (0 : α) < threads := by exact_mod_cast hn
    rw [lt_div_iff₀ hn'] at hlt
    have := mul_le_mul_of_nonneg_left hm hpos.le
    exact absurd hlt (not_lt.2 this)

example : JobQ.Reach (⟨[some 3, some 1, some 1], 0 + 3 + 1 + 1⟩ : JobQ ℚ) :=
  ((JobQ.Reach.empty (α := ℚ)).push (some 3)).push (some 1) |>.push (some 1)

example : guided (codeTarget (3 / 4 : ℚ) 1 none) ⟨[some 1, some 1, some 2], 4⟩ = .group 2 := by
  norm_num [guided, scan, codeTarget]

/-- Whatever the numbers are, when the traversal ends the group is a non-empty prefix; so the pool model's
choice (any prefix) covers the code. -/
theorem guided_prefix {α : Type} [Add α] [LT α] [DecidableLT α] [OfNat α 0] (target : α → α) (q : JobQ α) (k : Nat)
    (hne : q.times ≠ []) (h : guided target q = .group k) (st : Strategy) (hst : st ≠ .dynamic) (queue : List Nat)
    (hl : queue.length = q.times.length) :
    pullJobs st queue [] k = some (some (queue.take k), queue.drop k, []) := by
  obtain ⟨h1, h2⟩ := guided_group target q k hne h
  have hqne : queue ≠ [] := by
    intro e; rw [e] at hl
    exact hne (List.length_eq_zero_iff.1 hl.symm)
  have hk : 1 ≤ k ∧ k ≤ queue.length := ⟨h1, by omega⟩
  cases st with
  | dynamic => exact absurd rfl hst
  | static => simp [pullJobs, hqne, hk]
  | guided => simp [pullJobs, hqne, hk]

/-- Exactly when does the traversal run past the last job: all times known and every partial sum stays
below the target. -/
theorem guided_null_iff {α : Type} [Add α] [LT α] [DecidableLT α] [OfNat α 0] (target : α → α) (t : α) (ts : List α)
    (hne : ts ≠ []) (total : α) :
    guided target ⟨(t :: ts).map some, total⟩ = .null ↔
      0 < total ∧ ∀ k, 1 ≤ k → k ≤ ts.length → (ts.take k).foldl (· + ·) t < target total := by
  have scan_iff : ∀ (ts : List α) (t : α) (size : Nat), scan (target total) t size (ts.map some) = .null ↔
      ∀ k, 1 ≤ k → k ≤ ts.length → (ts.take k).foldl (· + ·) t < target total := by
    intro ts
    induction ts with
    | nil =>
      intro t size
      refine ⟨fun _ k h1 h2 => ?_, fun _ => rfl⟩
      simp only [List.length_nil] at h2; omega
    | cons u ts ih =>
      intro t size
      simp only [List.map_cons, scan]
      by_cases hlt : t + u < target total
      · rw [if_pos hlt, ih]
        constructor
        · intro h k h1 h2
          match k, h1 with
          | 1, _ => simpa using hlt
          | k + 2, _ =>
            simp only [List.length_cons] at h2
            simpa using h (k + 1) (by omega) (by omega)
        · intro h k h1 h2
          have := h (k + 1) (by omega) (by simpa using h2)
          simpa using this
      · rw [if_neg hlt]
        constructor
        · intro h; cases h
        · intro h
          have := h 1 (by omega) (by simp)
          simp only [List.take_succ_cons, List.take_zero, List.foldl_cons, List.foldl_nil] at this
          exact absurd this hlt
  cases ts with
  | nil => exact absurd rfl hne
  | cons u ts =>
    simp only [guided, List.map_cons]
    have := scan_iff (u :: ts) t 1
    simp only [List.map_cons] at this
    by_cases hp : 0 < total
    · rw [if_pos hp, this]; simp only [hp, true_and]
    · rw [if_neg hp]
      constructor
      · intro h; cases h
      · intro h; exact absurd h.1 hp

/-- Counterexample: with a maximum group work above the number of threads the traversal dereferences NULL. -/
theorem guided_null_counterexample :
    JobQ.Reach (⟨[some 1, some 1], 0 + 1 + 1⟩ : JobQ ℚ) ∧
      guided (codeTarget (3 : ℚ) 2 none) ⟨[some 1, some 1], 0 + 1 + 1⟩ = .null := by
  refine ⟨((JobQ.Reach.empty (α := ℚ)).push (some 1)).push (some 1), ?_⟩
  norm_num [guided, scan, codeTarget]

/-- Counterexample: when the clock cannot be read, the target is raised to a value unrelated to the queue. -/
theorem guided_clock_counterexample :
    guided (codeTarget (3 / 4 : ℚ) 2 (some 100)) ⟨[some 1, some 1], 2⟩ = .null := by
  norm_num [guided, scan, codeTarget]

/-- numbers with 24 significant bits, in units of a fixed size, with round-to-nearest-even -/
structure F32 where
  units : Nat
deriving DecidableEq, Repr

def F32.round (n : Nat) : F32 :=
  let e := Nat.log2 n - 23
  let q := n / 2 ^ e
  let r := n % 2 ^ e
  let up := 2 ^ e < 2 * r ∨ (2 ^ e = 2 * r ∧ q % 2 = 1)
  ⟨(if up then q + 1 else q) * 2 ^ e⟩

instance : Add F32 := ⟨fun a b => .round (a.units + b.units)⟩
instance : Sub F32 := ⟨fun a b => .round (a.units - b.units)⟩
instance : LT F32 := ⟨fun a b => a.units < b.units⟩
instance : DecidableLT F32 := fun a b => inferInstanceAs (Decidable (a.units < b.units))
instance (n : Nat) : OfNat F32 n := ⟨⟨n⟩⟩

/-- Counterexample with single precision numbers and the default maximum group work 0.75, one thread: a
long job (2^26 units) and two short ones (5 units each). After the long job was taken the stored total is
16 instead of 10 units, the target is 12 and the traversal runs past the last job. -/
theorem guided_rounding_counterexample :
    let q := (((⟨[], 0⟩ : JobQ F32).push (some ⟨2 ^ 26⟩)).push (some ⟨5⟩)).push (some ⟨5⟩)
    guided (fun t => .round (t.units * 3 / 4)) q = .group 1 ∧
      guided (fun t => .round (t.units * 3 / 4)) q.extract = .null := by
  decide

/-! ### C35: order of the jobs -/

/-- what `qsort` is assumed to do: the indices of the times in ascending order -/
def SortOk {α : Type} [LE α] (sort : List α → List Nat) : Prop :=
  ∀ l : List α, (sort l).Perm (List.range l.length) ∧
    (sort l).Pairwise fun a b => ∀ x y, l[a]? = some x → l[b]? = some y → x ≤ y

/-- the jobs of the queue are in descending order of their times -/
def Descending {α : Type} [LE α] (l : List α) : Prop := l.Pairwise fun a b => b ≤ a

theorem updateOrder_spec {α : Type} [LinearOrder α] [OfNat α 0] {mean : Nat → α → α → α} {avg : Bool}
    {sort : List α → List Nat} {nMeas : Nat} {ref el : List α} {order : List Nat} (hr : ref.length = order.length)
    (he : el.length = order.length) (hs : SortOk sort) (hnz : ¬ el.all (· = 0)) :
    (updateOrder mean avg sort nMeas ref el order).1.length = order.length ∧
    OrderOf (sort (updateOrder mean avg sort nMeas ref el order).1) (updateOrder mean avg sort nMeas ref el order).2
      order.length := by
  unfold updateOrder
  rw [if_neg hnz]
  have hl : (List.zipWith (newRef mean avg nMeas) ref el).length = order.length := by simp [hr, he]
  refine ⟨hl, ?_⟩
  have := (hs (List.zipWith (newRef mean avg nMeas) ref el)).1
  rw [hl] at this
  exact orderOf_write this rfl

/-- The order stays a permutation of the jobs, so every job enters the queue exactly once. -/
theorem order_perm {α J : Type} [LinearOrder α] [OfNat α 0] {mean : Nat → α → α → α} {avg : Bool}
    {sort : List α → List Nat} {nMeas : Nat} {ref el : List α} {order : List Nat} (hr : ref.length = order.length)
    (he : el.length = order.length) (hs : SortOk sort) (ho : order.Perm (List.range order.length)) (jobs : List J)
    (hj : jobs.length = order.length) :
    (updateOrder mean avg sort nMeas ref el order).2.Perm (List.range order.length) ∧
      (queued jobs (updateOrder mean avg sort nMeas ref el order).2).Perm jobs := by
  have key : (updateOrder mean avg sort nMeas ref el order).2.Perm (List.range order.length) := by
    by_cases hz : el.all (· = 0)
    · unfold updateOrder; rw [if_pos hz]; exact ho
    · obtain ⟨hl, h⟩ := updateOrder_spec (mean := mean) (avg := avg) (nMeas := nMeas) hr he hs hz
      have := (hs (updateOrder mean avg sort nMeas ref el order).1).1
      rw [hl] at this
      exact orderOf_perm this h
  exact ⟨key, queued_perm (by rw [hj]; exact key)⟩

/-- The number given to a job is its rank: jobs with smaller numbers have times at least as large. -/
theorem order_rank {α : Type} [LinearOrder α] [OfNat α 0] {mean : Nat → α → α → α} {avg : Bool}
    {sort : List α → List Nat} {nMeas : Nat} {ref el : List α} {order : List Nat} (hr : ref.length = order.length)
    (he : el.length = order.length) (hs : SortOk sort) (hnz : ¬ el.all (· = 0)) {a b u w : Nat} {x y : α}
    (ha : (updateOrder mean avg sort nMeas ref el order).2[a]? = some u)
    (hb : (updateOrder mean avg sort nMeas ref el order).2[b]? = some w) (hlt : u < w)
    (hx : (updateOrder mean avg sort nMeas ref el order).1[a]? = some x)
    (hy : (updateOrder mean avg sort nMeas ref el order).1[b]? = some y) : y ≤ x := by
  obtain ⟨hl, h⟩ := updateOrder_spec (mean := mean) (avg := avg) (nMeas := nMeas) hr he hs hnz
  have hp := (hs (updateOrder mean avg sort nMeas ref el order).1).1
  rw [hl] at hp
  exact orderOf_rank hp h (hs _).2 ha hb hlt hx hy

theorem queued_get {J : Type} {jobs : List J} {order : List Nat} (h : ∀ x ∈ order, x < jobs.length) (i a : Nat)
    (ha : order[i]? = some a) : (queued jobs order)[i]? = jobs[a]? := by
  have hd : a < jobs.length := h a (List.mem_of_getElem? ha)
  rw [queued_map h jobs[a], List.getElem?_map, ha]
  simp [hd]

/-- With pairwise different times the queue is in descending order exactly when the order, taken as a
permutation, is its own inverse: `thpool_add_jobs` uses the rank of job `i` as the job at place `i`. -/
theorem queue_descending_iff {α : Type} [LinearOrder α] [OfNat α 0] {mean : Nat → α → α → α} {avg : Bool}
    {sort : List α → List Nat} {nMeas : Nat} {ref el : List α} {order : List Nat} (hr : ref.length = order.length)
    (he : el.length = order.length) (hs : SortOk sort) (hnz : ¬ el.all (· = 0))
    (hdist : (updateOrder mean avg sort nMeas ref el order).1.Nodup) :
    Descending (queued (updateOrder mean avg sort nMeas ref el order).1 (updateOrder mean avg sort nMeas ref el order).2) ↔
      ∀ i a : Nat, (updateOrder mean avg sort nMeas ref el order).2[i]? = some a →
        (updateOrder mean avg sort nMeas ref el order).2[a]? = some i := by
  obtain ⟨hl, h⟩ := updateOrder_spec (mean := mean) (avg := avg) (nMeas := nMeas) hr he hs hnz
  have hrank := fun {a b u w : Nat} {x y : α} => order_rank (mean := mean) (avg := avg) (nMeas := nMeas) (a := a) (b := b)
    (u := u) (w := w) (x := x) (y := y) hr he hs hnz
  have hsort := (hs (updateOrder mean avg sort nMeas ref el order).1).1
  rw [hl] at hsort
  have hperm := orderOf_perm hsort h
  generalize (updateOrder mean avg sort nMeas ref el order).2 = ord at *
  generalize (updateOrder mean avg sort nMeas ref el order).1 = times at *
  have hb : ∀ x ∈ ord, x < times.length := by
    intro x hx; rw [hl]; exact List.mem_range.1 (hperm.mem_iff.1 hx)
  have hlen : ord.length = order.length := h.len
  unfold Descending
  constructor
  · intro hdes
    -- the ranks of the queued jobs, in queue order
    have hmapperm : (queued ord ord).Perm (List.range order.length) := by
      have : (queued ord ord).Perm ord := queued_perm (by rw [hlen]; exact hperm)
      exact this.trans hperm
    have hb' : ∀ x ∈ ord, x < ord.length := by
      intro x hx; rw [hlen, ← hl]; exact hb x hx
    have hqlen : (queued times ord).length = ord.length := by
      by_cases e : times = []
      · subst e
        cases hord : ord with
        | nil => rfl
        | cons x xs => have := hb x (by rw [hord]; simp); simp at this
      · obtain ⟨d, _, _⟩ := List.exists_cons_of_ne_nil e
        rw [queued_map hb d]; simp
    have hqlen' : (queued ord ord).length = ord.length := by
      have := hmapperm.length_eq
      rw [this, List.length_range, hlen]
    have hsorted : (queued ord ord).Pairwise (· < ·) := by
      rw [List.pairwise_iff_getElem]
      intro i k hi hk hik
      have hi' : i < ord.length := by omega
      have hk' : k < ord.length := by omega
      have gi := queued_get hb' i ord[i] (List.getElem?_eq_getElem hi')
      have gk := queued_get hb' k ord[k] (List.getElem?_eq_getElem hk')
      have ti := queued_get hb i ord[i] (List.getElem?_eq_getElem hi')
      have tk := queued_get hb k ord[k] (List.getElem?_eq_getElem hk')
      have hai := hb' ord[i] (List.getElem_mem _)
      have hak := hb' ord[k] (List.getElem_mem _)
      rw [List.getElem?_eq_getElem hi, List.getElem?_eq_getElem hai, Option.some.injEq] at gi
      rw [List.getElem?_eq_getElem hk, List.getElem?_eq_getElem hak, Option.some.injEq] at gk
      have hai2 : ord[i] < times.length := hb _ (List.getElem_mem _)
      have hak2 : ord[k] < times.length := hb _ (List.getElem_mem _)
      rw [List.getElem?_eq_getElem (by omega : i < (queued times ord).length), List.getElem?_eq_getElem hai2,
        Option.some.injEq] at ti
      rw [List.getElem?_eq_getElem (by omega : k < (queued times ord).length), List.getElem?_eq_getElem hak2,
        Option.some.injEq] at tk
      have hd := List.pairwise_iff_getElem.1 hdes i k (by omega) (by omega) hik
      rw [ti, tk] at hd
      rw [gi, gk]
      have hnd : ord.Nodup := hperm.nodup_iff.2 List.nodup_range
      have hne : ord[i] ≠ ord[k] := by
        intro e
        have := (List.Nodup.getElem_inj_iff hnd).1 e
        omega
      have htne : times[ord[i]] ≠ times[ord[k]] := by
        intro e
        exact hne ((List.Nodup.getElem_inj_iff hdist).1 e)
      by_contra hcon
      have hne2 : ord[ord[i]] ≠ ord[ord[k]] := by
        intro e
        exact hne ((List.Nodup.getElem_inj_iff hnd).1 e)
      have hlt2 : ord[ord[k]] < ord[ord[i]] := by omega
      have := hrank (List.getElem?_eq_getElem hak) (List.getElem?_eq_getElem hai) hlt2
        (List.getElem?_eq_getElem hak2) (List.getElem?_eq_getElem hai2)
      exact htne (le_antisymm this hd)
    have heq : queued ord ord = List.range order.length :=
      List.Perm.eq_of_pairwise (fun a b _ _ h1 h2 => absurd h1 (by omega)) hsorted List.pairwise_lt_range hmapperm
    intro i a ha
    have := queued_get hb' i a ha
    rw [heq] at this
    have hi' := (List.getElem?_eq_some_iff.1 ha).1
    rw [List.getElem?_range (by omega)] at this
    exact this.symm
  · intro hinv
    rw [List.pairwise_iff_getElem]
    intro i k hi hk hik
    have hqle : (queued times ord).length ≤ ord.length := by
      unfold queued; exact List.length_filterMap_le _ _
    have ti := queued_get hb i ord[i] (List.getElem?_eq_getElem (by omega))
    have tk := queued_get hb k ord[k] (List.getElem?_eq_getElem (by omega))
    rw [List.getElem?_eq_getElem hi] at ti
    rw [List.getElem?_eq_getElem hk] at tk
    exact hrank (hinv i _ (List.getElem?_eq_getElem (by omega))) (hinv k _ (List.getElem?_eq_getElem (by omega))) hik
      ti.symm tk.symm

/-- insertion sort of indices, as an instance of `qsort` -/
def isort (l : List Nat) : List Nat :=
  (List.range l.length).foldr (fun a acc => acc.takeWhile (fun b => l.getD b 0 < l.getD a 0) ++
    a :: acc.dropWhile (fun b => l.getD b 0 < l.getD a 0)) []

/-- Counterexample to the descending order: times 2, 1, 3 lead to the queue 1, 3, 2. -/
theorem queue_order_counterexample :
    ∃ sorted : List Nat, sorted.Perm (List.range 3) ∧
      (sorted.Pairwise fun a b => ∀ x y, [2, 1, 3][a]? = some x → [2, 1, 3][b]? = some y → x ≤ y) ∧
      updateOrder (fun _ _ e => e) false (fun _ => sorted) 0 [0, 0, 0] [2, 1, 3] [0, 1, 2] = ([2, 1, 3], [1, 2, 0]) ∧
      queued [2, 1, 3] [1, 2, 0] = [1, 3, 2] ∧ ¬ Descending [1, 3, 2] := by
  refine ⟨[1, 0, 2], by decide, ?_, by decide, by decide, by unfold Descending; decide⟩
  simp

/-- non-vacuity of `queue_descending_iff`: times 1, 2 (the order is its own inverse) -/
example : updateOrder (fun _ _ e => e) false (fun _ => [0, 1]) 0 [0, 0] [1, 2] [0, 1] = ([1, 2], [1, 0]) ∧
    queued [1, 2] [1, 0] = [2, 1] := by decide
example : isort [2, 1, 3] = [1, 0, 2] := by decide

/-- When all measured times are zero nothing changes. -/
theorem order_unchanged {α : Type} [LinearOrder α] [OfNat α 0] (mean : Nat → α → α → α) (avg : Bool)
    (sort : List α → List Nat) (nMeas : Nat) (ref : List α) (order : List Nat) (n : Nat) :
    updateOrder mean avg sort nMeas ref (List.replicate n 0) order = (ref, order) := by
  unfold updateOrder
  rw [if_pos (by simp)]

/-- With minimum times the reference never grows, and it is a measured value after the first measurement. -/
theorem ref_min {α : Type} [LinearOrder α] (mean : Nat → α → α → α) (nMeas : Nat) (ref el : α) :
    newRef mean false nMeas ref el = if nMeas = 0 then el else min ref el := by
  unfold newRef
  rw [if_neg (by simp)]
  by_cases h0 : nMeas = 0
  · simp [h0]
  · simp only [h0, false_or, if_false]
    by_cases hlt : el < ref
    · rw [if_pos hlt, min_eq_right hlt.le]
    · rw [if_neg hlt, min_eq_left (not_lt.1 hlt)]

/-! ### C36: static scheduling -/

theorem placeJobs_ok {J : Type} (n : Nat) (table : List Int) (jobs : List J) (hl : table.length = jobs.length)
    (hv : ∀ x ∈ table, 0 ≤ x ∧ x < (n : Int)) :
    ∃ groups, placeJobs n table jobs = some groups ∧ groups.length = n ∧ (groups.map (·.2)).flatten.Perm jobs ∧
      ∀ g ∈ groups, g.2.length = g.1 := by
  obtain ⟨counts, groups, c1, c2, c3, c4, c5⟩ := place_ok n (table.map Int.toNat) jobs
    (by simpa using hl) (by
      intro i hi
      obtain ⟨x, hx, rfl⟩ := List.mem_map.1 hi
      have := hv x hx
      omega)
  refine ⟨groups, ?_, c3, c5, c4⟩
  unfold placeJobs
  rw [if_neg (by
    rw [Bool.not_eq_true, List.any_eq_false]
    intro x hx
    have := (hv x hx).1
    simp [this])]
  rw [c1]
  exact c2

/-- When the table is computed, every job is put in exactly one group, no array is left, every group is
filled exactly to its allocated size, and all thread numbers are valid. -/
theorem static_fresh {α J : Type} [Add α] [LT α] [DecidableLT α] [OfNat α 0] (target : Nat → α) (threads : Nat)
    (jobs : List J) (avgElapsed : List α) (table : List Int) (changed : Bool) (ht : 0 < threads) (hj : jobs ≠ [])
    (hl : avgElapsed.length = jobs.length) (hfresh : changed = true ∨ ∃ x xs, table = x :: xs ∧ x < 0) :
    ∃ table' groups, pushStaticJobs target threads jobs avgElapsed table changed = some (table', groups) ∧
      table'.length = jobs.length ∧ (∀ x ∈ table', 0 ≤ x ∧ x < ((min jobs.length threads : Nat) : Int)) ∧
      groups.length = min jobs.length threads ∧ (groups.map (·.2)).flatten.Perm jobs ∧ ∀ g ∈ groups, g.2.length = g.1 := by
  have hn : 0 < min jobs.length threads := by
    have := List.length_pos_iff.2 hj
    omega
  generalize hN : min jobs.length threads = n at *
  obtain ⟨a1, a2⟩ := assign_ok (target n) avgElapsed (List.replicate n 0)
    (by
      intro e
      have := congrArg List.length e
      rw [List.length_replicate, List.length_nil] at this
      omega)
  rw [List.length_replicate] at a2
  have hv : ∀ x ∈ (assign (target n) (List.replicate n 0) avgElapsed).map Int.ofNat, 0 ≤ x ∧ x < (n : Int) := by
    intro x hx
    obtain ⟨y, hy, rfl⟩ := List.mem_map.1 hx
    have := a2 y hy
    exact ⟨Int.natCast_nonneg y, Int.ofNat_lt.2 this⟩
  obtain ⟨groups, g1, g2, g3, g4⟩ := placeJobs_ok n _ jobs (by rw [List.length_map, a1, hl]) hv
  refine ⟨_, groups, ?_, by rw [List.length_map, a1, hl], hv, g2, g3, g4⟩
  unfold pushStaticJobs
  have hf : isFresh changed table = true := by
    rcases hfresh with rfl | ⟨x, xs, rfl, hx⟩
    · cases table <;> simp [isFresh]
    · simp [isFresh, hx]
  simp only [hf, if_true, hN, g1, Option.map_some]

/-- Reusing the table of an earlier call is fine when its entries are valid for the present number of
threads. -/
theorem static_reuse_partial {α J : Type} [Add α] [LT α] [DecidableLT α] [OfNat α 0] (target : Nat → α) (threads : Nat)
    (jobs : List J) (avgElapsed : List α) (table : List Int) (hl : table.length = jobs.length)
    (hv : ∀ x ∈ table, 0 ≤ x ∧ x < ((min jobs.length threads : Nat) : Int)) :
    ∃ groups, pushStaticJobs target threads jobs avgElapsed table false = some (table, groups) ∧
      groups.length = min jobs.length threads ∧ (groups.map (·.2)).flatten.Perm jobs ∧ ∀ g ∈ groups, g.2.length = g.1 := by
  obtain ⟨groups, g1, g2, g3, g4⟩ := placeJobs_ok _ table jobs hl hv
  refine ⟨groups, ?_, g2, g3, g4⟩
  unfold pushStaticJobs
  have hf : isFresh false table = false := by
    cases table with
    | nil => rfl
    | cons x xs =>
      have := (hv x (by simp)).1
      simp [isFresh, this]
  simp only [hf, Bool.false_eq_true, if_false, g1, Option.map_some]

/-- Two calls on the same table: the second one may reuse it if the number of threads has not shrunk. -/
theorem static_two_calls_partial {α J : Type} [Add α] [LT α] [DecidableLT α] [OfNat α 0] (target target' : Nat → α)
    (threads threads' : Nat) (jobs jobs' : List J) (avg avg' : List α) (table : List Int) (ht : 0 < threads)
    (hge : threads ≤ threads') (hj : jobs ≠ []) (hl : avg.length = jobs.length) (hl' : jobs'.length = jobs.length) :
    ∃ table' groups groups', pushStaticJobs target threads jobs avg table true = some (table', groups) ∧
      pushStaticJobs target' threads' jobs' avg' table' false = some (table', groups') ∧
      (groups'.map (·.2)).flatten.Perm jobs' ∧ ∀ g ∈ groups', g.2.length = g.1 := by
  obtain ⟨table', groups, h1, h2, h3, -, -, -⟩ := static_fresh target threads jobs avg table true ht hj hl (.inl rfl)
  obtain ⟨groups', g1, g2, g3, g4⟩ := static_reuse_partial target' threads' jobs' avg' table' (by rw [h2, hl']) (by
    intro x hx
    have := h3 x hx
    refine ⟨this.1, ?_⟩
    have h := this.2
    rw [hl']
    have : ((min jobs.length threads : Nat) : Int) ≤ ((min jobs.length threads' : Nat) : Int) := by
      exact_mod_cast (by omega : min jobs.length threads ≤ min jobs.length threads')
    omega)
  exact ⟨table', groups, groups', h1, g1, g3, g4⟩

/-- non-vacuity: five jobs, two threads -/
example : (pushStaticJobs (fun n => 10 / n) 2 ["a", "b", "c", "d", "e"] [4, 3, 1, 1, 1] [-1, -1, -1, -1, -1] false) =
    some ([0, 1, 1, 0, 1], [(2, ["a", "d"]), (3, ["b", "c", "e"])]) := by decide

/-- Counterexample: the table of a run with four threads is reused by a pool with two threads; the count
array is written out of bounds. -/
theorem static_reuse_counterexample :
    ∃ table groups, pushStaticJobs (fun n => 4 / n) 4 ["a", "b", "c", "d"] [1, 1, 1, 1] [-1, -1, -1, -1] false
        = some (table, groups) ∧
      pushStaticJobs (fun n => 4 / n) 2 ["a", "b", "c", "d"] [1, 1, 1, 1] table false = none := by
  exact ⟨[0, 1, 2, 3], [(1, ["a"]), (1, ["b"]), (1, ["c"]), (1, ["d"])], by decide, by decide⟩

/-- Counterexample to "considering the elapsed time of each job" (l.617): `newjobs[j]` is job `order[j]` but
its time is taken from place `j`. Jobs with times 1, 1, 8, 8 and order [2, 3, 0, 1] should be split 8+1 and
8+1; the code puts both long jobs in one group. -/
theorem static_times_counterexample :
    let times := [1, 1, 8, 8]
    let order := [2, 3, 0, 1]
    (pushStaticJobs (fun n => 18 / n) 2 (queued times order) times [-1, -1, -1, -1] false).map (·.2)
      = some [(3, [8, 8, 1]), (1, [1])] := by
  decide

end Verif.Pool
