import Verif.Pool.LemmasWait
namespace Verif.Pool

/-- the client is inside `thpool_wait` -/
def CPc.isWaiting : CPc → Bool
  | .lockReq _ | .len _ | .grp _ | .work _ | .ready _ | .asleep _ => true
  | _ => false

/-- Use of the pool under which it makes progress: it is not destroyed, the scheduling strategy is not
changed away from static while work groups are queued, and only one client waits at a time. -/
def Calm (s : State) : Act → Prop
  | .callDestroy _ => False
  | .setStrategy _ st => s.groups = [] ∨ st = .static
  | .callWait _ => ∀ p ∈ s.cs, p.isWaiting = false
  | _ => True

/-- a sequence of calm steps -/
inductive CalmRun : State → List Act → State → Prop
  | nil (s : State) : CalmRun s [] s
  | cons {s s1 s2 : State} {a : Act} {as : List Act} : Calm s a → exec s a = some s1 → CalmRun s1 as s2 →
      CalmRun s (a :: as) s2

/-- the worker will come to a pull without passing the semaphore -/
def WPc.busy : WPc → Bool
  | .check | .inc | .loop | .pull | .run _ => true
  | _ => false

structure Live (s : State) : Prop where
  inv : Inv s
  keep : s.keepalive = true
  strat : s.groups ≠ [] → s.strategy = .static
  stay : ∀ p ∈ s.ws, p ≠ .exit ∧ p ≠ .gone
  sem : s.v = true → (∃ i : Nat, s.ws[i]? = some WPc.bsem) ∨ WPc.asleep ∉ s.ws
  pend : (s.queue ≠ [] ∨ s.groups ≠ []) → s.v = true ∨ ∃ (i : Nat) (p : WPc), s.ws[i]? = some p ∧ p.busy = true
  one : ∀ (c d : Nat) (p q : CPc), s.cs[c]? = some p → s.cs[d]? = some q → p.isWaiting = true → q.isWaiting = true → c = d
  sleeper : ∀ (c : Nat) (S : List Nat), (s.cs[c]? = some (.ready S) ∨ s.cs[c]? = some (.asleep S)) →
    s.queue ≠ [] ∨ s.groups ≠ [] ∨ 0 < s.working

theorem live_init (st : Strategy) (n m : Nat) : Live (init st n m) where
  inv := inv_init st n m
  keep := rfl
  strat := fun h => absurd rfl h
  stay := by
    intro p hp
    have : p = .top := List.eq_of_mem_replicate hp
    subst this; simp
  sem := by intro h; cases h
  pend := by rintro (h | h) <;> exact absurd rfl h
  one := by
    intro c d p q hp _ hw
    have := get_replicate hp; subst this; cases hw
  sleeper := by
    rintro c S (h | h) <;> · have := get_replicate h; cases this

theorem mem_of_get {α : Type} {l : List α} {i : Nat} {a : α} (h : l[i]? = some a) : a ∈ l :=
  List.mem_of_getElem? h

theorem mem_set {α : Type} {l : List α} {i : Nat} {a p : α} (h : p ∈ l.set i a) : p = a ∨ p ∈ l := by
  rcases List.mem_or_eq_of_mem_set h with h | h
  · exact .inr h
  · exact .inl h

theorem mem_broadcast {ws : List WPc} {p : WPc} (h : p ∈ broadcastW ws) : p ≠ .asleep ∧ (p = .bsem ∨ p ∈ ws) := by
  unfold broadcastW at h
  obtain ⟨q, hq, rfl⟩ := List.mem_map.1 h
  cases q <;> simp_all

theorem get_broadcast {ws : List WPc} {i : Nat} {p : WPc} (h : ws[i]? = some p) (hp : p ≠ .asleep) :
    (broadcastW ws)[i]? = some p := by
  unfold broadcastW
  rw [List.getElem?_map, h]
  cases p <;> simp_all

theorem signal_stay {ws ws' : List WPc} {wake : Option Nat} (h : signalW ws wake = some ws')
    (hs : ∀ p ∈ ws, p ≠ .exit ∧ p ≠ .gone) : ∀ p ∈ ws', p ≠ .exit ∧ p ≠ .gone := by
  rcases signalW_eq h with ⟨rfl, _⟩ | ⟨i, _, rfl⟩
  · exact hs
  · intro p hp
    rcases mem_set hp with rfl | hp
    · simp
    · exact hs p hp

theorem signal_sem {ws ws' : List WPc} {wake : Option Nat} (h : signalW ws wake = some ws') :
    (∃ i : Nat, ws'[i]? = some WPc.bsem) ∨ WPc.asleep ∉ ws' := by
  rcases signalW_eq h with ⟨rfl, h⟩ | ⟨i, hi, rfl⟩
  · exact .inr h
  · exact .inl ⟨i, get_set_self hi⟩

/-- setting a pc which is neither asleep nor the removal of a `bsem` keeps the semaphore invariant -/
theorem sem_set {ws : List WPc} {i : Nat} {a b : WPc} (h : ws[i]? = some a) (ha : a ≠ .bsem) (hb : b ≠ .asleep)
    (hs : (∃ i : Nat, ws[i]? = some WPc.bsem) ∨ WPc.asleep ∉ ws) :
    (∃ i' : Nat, (ws.set i b)[i']? = some WPc.bsem) ∨ WPc.asleep ∉ ws.set i b := by
  rcases hs with ⟨j, hj⟩ | hs
  · left
    refine ⟨j, ?_⟩
    rw [get_set_ne]
    · exact hj
    · rintro rfl; rw [h] at hj; cases hj; exact ha rfl
  · right
    intro hm
    rcases mem_set hm with e | hm
    · exact hb e.symm
    · exact hs hm

theorem busy_set {ws : List WPc} {i : Nat} {a b : WPc} (h : ws[i]? = some a) (hb : a.busy = true → b.busy = true)
    (hs : ∃ (i : Nat) (p : WPc), ws[i]? = some p ∧ p.busy = true) :
    ∃ (i' : Nat) (p : WPc), (ws.set i b)[i']? = some p ∧ p.busy = true := by
  obtain ⟨j, p, hj, hp⟩ := hs
  by_cases e : i = j
  · subst e
    rw [h] at hj; cases hj
    exact ⟨i, b, get_set_self h, hb hp⟩
  · exact ⟨j, p, by rw [get_set_ne e]; exact hj, hp⟩

theorem stay_set {ws : List WPc} {i : Nat} {b : WPc} (hb : b ≠ .exit ∧ b ≠ .gone)
    (hs : ∀ p ∈ ws, p ≠ .exit ∧ p ≠ .gone) : ∀ p ∈ ws.set i b, p ≠ .exit ∧ p ≠ .gone := by
  intro p hp
  rcases mem_set hp with rfl | hp
  · exact hb
  · exact hs p hp

theorem working_pos {s : State} (hw : InvWorking s) {i : Nat} {p : WPc} (h : s.ws[i]? = some p) (hp : counted p = 1) :
    0 < s.working := by
  have := sum_pos (f := counted) h
  rw [hw]; omega

theorem one_set {s : State} (hl : Live s) {c : Nat} {a b : CPc} (h : s.cs[c]? = some a)
    (hb : b.isWaiting = true → a.isWaiting = true) :
    ∀ (c' d : Nat) (p q : CPc), (s.cs.set c b)[c']? = some p → (s.cs.set c b)[d]? = some q →
      p.isWaiting = true → q.isWaiting = true → c' = d := by
  intro c' d p q hp hq wp wq
  rcases get_set hp with ⟨rfl, rfl⟩ | ⟨_, _⟩
  · rcases get_set hq with ⟨rfl, rfl⟩ | ⟨_, hq⟩
    · rfl
    · exact hl.one _ _ _ _ h hq (hb wp) wq
  · rename_i hp1
    rcases get_set hq with ⟨rfl, rfl⟩ | ⟨_, hq⟩
    · exact hl.one _ _ _ _ hp1 h wp (hb wq)
    · exact hl.one _ _ _ _ hp1 hq wp wq

theorem pullJobs_left {st : Strategy} {queue : List Nat} {groups : List (List Nat)} {k : Nat}
    {grp : Option (List Nat)} {q : List Nat} {gs : List (List Nat)}
    (h : pullJobs st queue groups k = some (grp, q, gs)) :
    (gs ≠ [] → groups ≠ []) ∧ (grp = none → q = [] ∧ gs = groups ∧ (groups ≠ [] → st ≠ .static)) := by
  unfold pullJobs at h
  split at h
  · cases h; exact ⟨fun _ => by simp, fun h => by cases h⟩
  · rename_i hst
    split at h
    · rename_i hq
      cases h
      refine ⟨fun h => h, fun _ => ⟨hq, rfl, ?_⟩⟩
      intro hg he
      cases groups with
      | nil => exact hg rfl
      | cons g gs => exact hst g gs he rfl
    · simp only at h
      generalize (if st = .dynamic then 1 else k) = k' at h
      split at h
      · cases h; exact ⟨fun h => h, fun h => by cases h⟩
      · cases h

theorem busy_broadcast {ws : List WPc} (hs : ∃ (i : Nat) (p : WPc), ws[i]? = some p ∧ p.busy = true) :
    ∃ (i : Nat) (p : WPc), (broadcastW ws)[i]? = some p ∧ p.busy = true := by
  obtain ⟨i, p, h, hp⟩ := hs
  exact ⟨i, p, get_broadcast h (by rintro rfl; cases hp), hp⟩

theorem live_step {s s' : State} {a : Act} (hl : Live s) (hc : Calm s a) (h : exec s a = some s') : Live s' := by
  have hinv := inv_step hl.inv h
  have hE := exec_eff h
  cases hE with
  | worker w =>
    rename_i i k wake
    cases w with
    | topExit _ hk | checkExit _ hk | loopExit _ hk => rw [hl.keep] at hk; cases hk
    | exit hp _ => exact absurd rfl (hl.stay _ (mem_of_get hp)).1
    | topGo hp _ =>
      refine ⟨hinv, hl.keep, hl.strat, stay_set (by simp) hl.stay, fun hv => .inl ⟨i, get_set_self hp⟩, ?_, hl.one, hl.sleeper⟩
      intro hq
      rcases hl.pend hq with h | h
      · exact .inl h
      · exact .inr (busy_set hp (by simp [WPc.busy]) h)
    | pass hp hv =>
      refine ⟨hinv, hl.keep, hl.strat, stay_set (by simp) hl.stay, fun hv => (by cases hv), ?_, hl.one, hl.sleeper⟩
      intro _
      exact .inr ⟨i, .check, get_set_self hp, rfl⟩
    | sleep hp hv =>
      refine ⟨hinv, hl.keep, hl.strat, stay_set (by simp) hl.stay, fun hv' => (by rw [hv] at hv'; cases hv'), ?_, hl.one, hl.sleeper⟩
      intro hq
      rcases hl.pend hq with h | h
      · rw [hv] at h; cases h
      · exact .inr (busy_set hp (by simp [WPc.busy]) h)
    | checkGo hp _ =>
      refine ⟨hinv, hl.keep, hl.strat, stay_set (by simp) hl.stay, fun hv => sem_set hp (by simp) (by simp) (hl.sem hv), ?_, hl.one, hl.sleeper⟩
      intro hq
      exact .inr ⟨i, _, get_set_self hp, rfl⟩
    | inc hp hlock =>
      refine ⟨hinv, hl.keep, hl.strat, stay_set (by simp) hl.stay, fun hv => sem_set hp (by simp) (by simp) (hl.sem hv), ?_, hl.one, ?_⟩
      · intro hq
        exact .inr ⟨i, _, get_set_self hp, rfl⟩
      · intro c S hcs
        exact .inr (.inr (Nat.succ_pos _))
    | loopGo hp _ =>
      refine ⟨hinv, hl.keep, hl.strat, stay_set (by simp) hl.stay, fun hv => sem_set hp (by simp) (by simp) (hl.sem hv), ?_, hl.one, hl.sleeper⟩
      intro hq
      exact .inr ⟨i, _, get_set_self hp, rfl⟩
    | runDone hp =>
      refine ⟨hinv, hl.keep, hl.strat, stay_set (by simp) hl.stay, fun hv => sem_set hp (by simp) (by simp) (hl.sem hv), ?_, hl.one, hl.sleeper⟩
      intro hq
      exact .inr ⟨i, _, get_set_self hp, rfl⟩
    | runJob j js hp =>
      refine ⟨hinv, hl.keep, hl.strat, stay_set (by simp) hl.stay, fun hv => sem_set hp (by simp) (by simp) (hl.sem hv), ?_, hl.one, hl.sleeper⟩
      intro hq
      exact .inr ⟨i, _, get_set_self hp, rfl⟩
    | pull k' grp q gs ws' v' hp hj hpost =>
      have hleft := pullJobs_left hj
      have hpc : pcOf grp ≠ .exit ∧ pcOf grp ≠ .gone ∧ pcOf grp ≠ .asleep := by cases grp <;> simp [pcOf]
      have hstay := stay_set (i := i) (b := pcOf grp) ⟨hpc.1, hpc.2.1⟩ hl.stay
      have hwpos := working_pos hl.inv.working hp rfl
      rcases hpost with ⟨hne, rfl, wk, hsig⟩ | ⟨hq, hg, rfl, rfl⟩
      · exact ⟨hinv, hl.keep, fun h => hl.strat (hleft.1 h), signal_stay hsig hstay, fun _ => signal_sem hsig,
          fun _ => .inl rfl, hl.one, fun c S _ => .inr (.inr hwpos)⟩
      · refine ⟨hinv, hl.keep, fun h => absurd hg h, hstay, fun hv => sem_set hp (by simp) hpc.2.2 (hl.sem hv), ?_,
          hl.one, fun c S _ => .inr (.inr hwpos)⟩
        rintro (h | h)
        · exact absurd hq h
        · exact absurd hg h
    | dec hp hlock hw =>
      refine ⟨hinv, hl.keep, hl.strat, stay_set (by simp) hl.stay, fun hv => sem_set hp (by simp) (by simp) (hl.sem hv), ?_, hl.one, ?_⟩
      · intro hq
        rcases hl.pend hq with h | h
        · exact .inl h
        · exact .inr (busy_set hp (by simp [WPc.busy]) h)
      · intro c S _
        exact .inr (.inr (Nat.pos_of_ne_zero hw))
    | decSignal cs wk hp hlock hw hsig =>
      have hpend : (s.queue ≠ [] ∨ s.groups ≠ []) → s.v = true ∨ ∃ (i' : Nat) (p : WPc), (s.ws.set i .top)[i']? = some p ∧ p.busy = true := by
        intro hq
        rcases hl.pend hq with h | h
        · exact .inl h
        · exact .inr (busy_set hp (by simp [WPc.busy]) h)
      have hready : ∀ (c : Nat) (S : List Nat), s.cs[c]? ≠ some (.ready S) := by
        intro c S hcs
        have := (hl.inv.lock c).2 ⟨_, hcs, rfl⟩
        rw [hlock] at this; cases this
      rcases signalC_eq hsig with ⟨rfl, hno⟩ | ⟨c0, S0, hc0, rfl⟩
      · refine ⟨hinv, hl.keep, hl.strat, stay_set (by simp) hl.stay, fun hv => sem_set hp (by simp) (by simp) (hl.sem hv), hpend, hl.one, ?_⟩
        rintro c S (hcs | hcs)
        · exact absurd hcs (hready c S)
        · have : s.cs.any CPc.isAsleep = true := List.any_eq_true.2 ⟨_, mem_of_get hcs, rfl⟩
          rw [hno] at this; cases this
      · refine ⟨hinv, hl.keep, hl.strat, stay_set (by simp) hl.stay, fun hv => sem_set hp (by simp) (by simp) (hl.sem hv), hpend, one_set hl hc0 (fun _ => rfl), ?_⟩
        rintro c S (hcs | hcs)
        · rcases get_set hcs with ⟨_, e⟩ | ⟨_, hcs⟩
          · cases e
          · exact absurd hcs (hready c S)
        · rcases get_set hcs with ⟨_, e⟩ | ⟨hne, hcs⟩
          · cases e
          · exact absurd (hl.one _ _ _ _ hc0 hcs rfl rfl) hne
  | client w =>
    rename_i c
    have mk : ∀ (b q : CPc) (lk : Option Nat), s.cs[c]? = some q → (b.isWaiting = true → q.isWaiting = true) →
        ((∃ S, b = .ready S ∨ b = .asleep S) → s.queue ≠ [] ∨ s.groups ≠ [] ∨ 0 < s.working) →
        Inv { s with lock := lk, cs := s.cs.set c b } → Live { s with lock := lk, cs := s.cs.set c b } := by
      intro b q lk hq hw hsl hin
      refine ⟨hin, hl.keep, hl.strat, hl.stay, hl.sem, hl.pend, one_set hl hq hw, ?_⟩
      rintro d S (hd | hd)
      · rcases get_set hd with ⟨rfl, rfl⟩ | ⟨_, hd⟩
        · exact hsl ⟨S, .inl rfl⟩
        · exact hl.sleeper d S (.inl hd)
      · rcases get_set hd with ⟨rfl, rfl⟩ | ⟨_, hd⟩
        · exact hsl ⟨S, .inr rfl⟩
        · exact hl.sleeper d S (.inr hd)
    cases w with
    | lock S hp _ => exact mk _ _ _ hp (fun _ => rfl) (by rintro ⟨T, h | h⟩ <;> cases h) hinv
    | lenBusy S hp hq => exact mk _ _ s.lock hp (fun _ => rfl) (fun _ => .inl hq) hinv
    | lenZero S hp _ => exact mk _ _ s.lock hp (fun _ => rfl) (by rintro ⟨T, h | h⟩ <;> cases h) hinv
    | grpBusy S hp hq => exact mk _ _ s.lock hp (fun _ => rfl) (fun _ => .inr (.inl hq)) hinv
    | grpZero S hp _ => exact mk _ _ s.lock hp (fun _ => rfl) (by rintro ⟨T, h | h⟩ <;> cases h) hinv
    | workBusy S hp hq => exact mk _ _ s.lock hp (fun _ => rfl) (fun _ => .inr (.inr (Nat.pos_of_ne_zero hq))) hinv
    | ret S hp _ => exact mk _ _ _ hp (fun _ => rfl) (by rintro ⟨T, h | h⟩ <;> cases h) hinv
    | sleep S hp => exact mk _ _ _ hp (fun _ => rfl) (fun _ => hl.sleeper c S (.inl hp)) hinv
    | repost hp _ => exact absurd hp ((hl.inv.drop hl.keep).2 _)
    | clear hp _ => exact absurd hp ((hl.inv.drop hl.keep).2 _)
  | push ws hp hsig =>
    exact ⟨hinv, hl.keep, hl.strat, signal_stay hsig hl.stay, fun _ => signal_sem hsig, fun _ => .inl rfl, hl.one,
      fun c S _ => .inl (by simp)⟩
  | multipush hp =>
    refine ⟨hinv, hl.keep, hl.strat, ?_, fun _ => .inr (fun hm => (mem_broadcast hm).1 rfl), fun _ => .inl rfl, hl.one, ?_⟩
    · intro p hp
      rcases (mem_broadcast hp).2 with rfl | hp
      · simp
      · exact hl.stay p hp
    · intro c S hcs
      rcases hl.sleeper c S hcs with h | h | h
      · exact .inl (by simp [h])
      · exact .inr (.inl h)
      · exact .inr (.inr h)
  | pushStatic hp hst hperm =>
    refine ⟨hinv, hl.keep, fun _ => hst, ?_, fun _ => .inr (fun hm => (mem_broadcast hm).1 rfl), fun _ => .inl rfl, hl.one, ?_⟩
    · intro p hp
      rcases (mem_broadcast hp).2 with rfl | hp
      · simp
      · exact hl.stay p hp
    · intro c S hcs
      rcases hl.sleeper c S hcs with h | h | h
      · exact .inl h
      · exact .inr (.inl (by simp [h]))
      · exact .inr (.inr h)
  | callWait hp =>
    rename_i c
    have hno : ∀ (d : Nat) (q : CPc), s.cs[d]? = some q → q.isWaiting = false := fun d q hq => hc q (mem_of_get hq)
    refine ⟨hinv, hl.keep, hl.strat, hl.stay, hl.sem, hl.pend, ?_, ?_⟩
    · intro c' d p q hp' hq wp wq
      rcases get_set hp' with ⟨rfl, rfl⟩ | ⟨_, hp'⟩
      · rcases get_set hq with ⟨rfl, rfl⟩ | ⟨_, hq⟩
        · rfl
        · rw [hno _ _ hq] at wq; cases wq
      · rw [hno _ _ hp'] at wp; cases wp
    · rintro d S (hd | hd)
      · rcases get_set hd with ⟨_, e⟩ | ⟨_, hd⟩
        · cases e
        · exact hl.sleeper d S (.inl hd)
      · rcases get_set hd with ⟨_, e⟩ | ⟨_, hd⟩
        · cases e
        · exact hl.sleeper d S (.inr hd)
  | setStrategy hp =>
    refine ⟨hinv, hl.keep, ?_, hl.stay, hl.sem, hl.pend, hl.one, hl.sleeper⟩
    intro hg
    rcases hc with h | h
    · exact absurd h hg
    · exact h
  | callDestroy hp => exact hc.elim
  | spuriousW hp =>
    rename_i i
    refine ⟨hinv, hl.keep, hl.strat, stay_set (by simp) hl.stay, fun hv => .inl ⟨i, get_set_self hp⟩, ?_, hl.one, hl.sleeper⟩
    intro hq
    rcases hl.pend hq with h | h
    · exact .inl h
    · exact .inr (busy_set hp (by simp [WPc.busy]) h)
  | spuriousC S hp =>
    refine ⟨hinv, hl.keep, hl.strat, hl.stay, hl.sem, hl.pend, one_set hl hp (fun _ => rfl), ?_⟩
    rintro d T (hd | hd)
    · rcases get_set hd with ⟨_, e⟩ | ⟨_, hd⟩
      · cases e
      · exact hl.sleeper d T (.inl hd)
    · rcases get_set hd with ⟨_, e⟩ | ⟨_, hd⟩
      · cases e
      · exact hl.sleeper d T (.inr hd)

theorem live_run {s s' : State} {as : List Act} (h : CalmRun s as s') (hl : Live s) : Live s' := by
  induction h with
  | nil => exact hl
  | cons hc h _ ih => exact ih (live_step hl hc h)

/-! ### bounded activity -/

def wWeight : WPc → Nat
  | .top => 2 | .bsem => 1 | .asleep => 0 | .check => 13 | .inc => 12 | .loop => 11 | .pull => 10
  | .run js => 12 + js.length | .dec => 9 | .exit => 1 | .gone => 0

def cWeight : CPc → Nat
  | .lockReq _ => 6 | .len _ => 5 | .grp _ => 4 | .work _ => 3 | .ready _ => 2 | _ => 0

/-- bound on the number of steps until the pool is idle -/
def bound (s : State) : Nat :=
  18 * s.queue.length + (s.groups.map fun g => 17 + g.length).sum + (if s.v then 13 else 0) +
  (s.ws.map wWeight).sum + (s.cs.map cWeight).sum

theorem sum_signal_le {ws ws' : List WPc} {wake : Option Nat} (h : signalW ws wake = some ws') :
    (ws'.map wWeight).sum ≤ (ws.map wWeight).sum + 1 := by
  rcases signalW_eq h with ⟨rfl, _⟩ | ⟨i, hi, rfl⟩
  · omega
  · have := sum_set wWeight ws i _ .bsem hi
    simp only [wWeight] at this
    omega

theorem sum_signalC_le {cs cs' : List CPc} {wake : Option Nat} (h : signalC cs wake = some cs') :
    (cs'.map cWeight).sum ≤ (cs.map cWeight).sum + 6 := by
  rcases signalC_eq h with ⟨rfl, _⟩ | ⟨i, S, hi, rfl⟩
  · omega
  · have := sum_set cWeight cs i _ (.lockReq S) hi
    simp only [cWeight] at this
    omega

/-- weight removed by a pull which takes something -/
theorem pullJobs_weight {st : Strategy} {queue : List Nat} {groups : List (List Nat)} {k : Nat}
    {js : List Nat} {q : List Nat} {gs : List (List Nat)}
    (h : pullJobs st queue groups k = some (some js, q, gs)) :
    18 * q.length + (gs.map fun g => 17 + g.length).sum + 17 + js.length
      ≤ 18 * queue.length + (groups.map fun g => 17 + g.length).sum := by
  unfold pullJobs at h
  split at h
  · cases h; simp; omega
  · split at h
    · cases h
    · simp only at h
      generalize (if st = .dynamic then 1 else k) = k' at h
      split at h
      · rename_i hk
        cases h
        simp only [List.length_take, List.length_drop]
        have : min k' queue.length = k' := Nat.min_eq_left hk.2
        omega
      · cases h

/-- steps the pool and a waiting client make by themselves -/
def Act.internal : Act → Bool
  | .worker .. | .client _ => true
  | _ => false

theorem bound_step {s s' : State} {a : Act} (hl : Live s) (hi : a.internal = true) (h : exec s a = some s') :
    bound s' < bound s := by
  have hE := exec_eff h
  unfold bound
  cases hE with
  | worker w =>
    rename_i i k wake
    cases w with
    | topExit _ hk | checkExit _ hk | loopExit _ hk => rw [hl.keep] at hk; cases hk
    | exit hp _ => exact absurd rfl (hl.stay _ (mem_of_get hp)).1
    | pull k' grp q gs ws' v' hp hj hpost =>
      have hset := sum_set wWeight s.ws i _ (pcOf grp) hp
      cases grp with
      | none =>
        obtain ⟨hq, hgs, hst⟩ := (pullJobs_left hj).2 rfl
        have hg : s.groups = [] := by
          by_cases hg : s.groups = []
          · exact hg
          · exact absurd (hl.strat hg) (hst hg)
        subst hq
        rw [hg] at hgs
        subst hgs
        rcases hpost with ⟨h | h, _⟩ | ⟨_, _, rfl, rfl⟩
        · exact absurd rfl h
        · exact absurd rfl h
        · simp only [pcOf, wWeight, List.length_nil, List.map_nil, List.sum_nil] at *
          omega
      | some js =>
        have hw := pullJobs_weight hj
        simp only [pcOf, wWeight] at *
        rcases hpost with ⟨_, rfl, wk, hsig⟩ | ⟨_, _, rfl, rfl⟩
        · have := sum_signal_le hsig
          simp only [if_true]
          split <;> omega
        · omega
    | decSignal cs wk hp hlock hw hsig =>
      have hset := sum_set wWeight s.ws i _ .top hp
      have := sum_signalC_le hsig
      simp only [wWeight] at *
      omega
    | pass hp hv =>
      have hset := sum_set wWeight s.ws i _ .check hp
      simp only [wWeight, hv, if_true, Bool.false_eq_true, if_false] at *
      omega
    | topGo hp _ =>
      have hset := sum_set wWeight s.ws i _ .bsem hp
      simp only [wWeight] at *; omega
    | sleep hp _ =>
      have hset := sum_set wWeight s.ws i _ .asleep hp
      simp only [wWeight] at *; omega
    | checkGo hp _ =>
      have hset := sum_set wWeight s.ws i _ .inc hp
      simp only [wWeight] at *; omega
    | inc hp _ =>
      have hset := sum_set wWeight s.ws i _ .loop hp
      simp only [wWeight] at *; omega
    | loopGo hp _ =>
      have hset := sum_set wWeight s.ws i _ .pull hp
      simp only [wWeight] at *; omega
    | runDone hp =>
      have hset := sum_set wWeight s.ws i _ .loop hp
      simp only [wWeight, List.length_nil] at *; omega
    | runJob j js hp =>
      have hset := sum_set wWeight s.ws i _ (.run js) hp
      simp only [wWeight, List.length_cons] at *; omega
    | dec hp _ _ =>
      have hset := sum_set wWeight s.ws i _ .top hp
      simp only [wWeight] at *; omega
  | client w =>
    rename_i c
    cases w with
    | repost hp _ => exact absurd hp ((hl.inv.drop hl.keep).2 _)
    | clear hp _ => exact absurd hp ((hl.inv.drop hl.keep).2 _)
    | lock S hp _ =>
      have hset := sum_set cWeight s.cs c _ (.len S) hp
      simp only [cWeight] at *; omega
    | lenBusy S hp _ | grpBusy S hp _ | workBusy S hp _ =>
      have hset := sum_set cWeight s.cs c _ (.ready S) hp
      simp only [cWeight] at *; omega
    | lenZero S hp _ =>
      have hset := sum_set cWeight s.cs c _ (.grp S) hp
      simp only [cWeight] at *; omega
    | grpZero S hp _ =>
      have hset := sum_set cWeight s.cs c _ (.work S) hp
      simp only [cWeight] at *; omega
    | ret S hp _ =>
      have hset := sum_set cWeight s.cs c _ .idle hp
      simp only [cWeight] at *; omega
    | sleep S hp =>
      have hset := sum_set cWeight s.cs c _ (.asleep S) hp
      simp only [cWeight] at *; omega
  | push | multipush | pushStatic | callWait | setStrategy | callDestroy | spuriousW | spuriousC => cases hi

/-! ### enabled steps -/

theorem signalW_enabled (ws : List WPc) : ∃ wake ws', signalW ws wake = some ws' := by
  by_cases h : WPc.asleep ∈ ws
  · obtain ⟨i, hi⟩ := List.getElem?_of_mem h
    exact ⟨some i, ws.set i .bsem, by simp [signalW, hi]⟩
  · exact ⟨none, ws, by simp [signalW, h]⟩

theorem signalC_enabled (cs : List CPc) : ∃ wake cs', signalC cs wake = some cs' := by
  by_cases h : cs.any CPc.isAsleep = true
  · obtain ⟨p, hp, ha⟩ := List.any_eq_true.1 h
    obtain ⟨i, hi⟩ := List.getElem?_of_mem hp
    cases p with
    | asleep S => exact ⟨some i, cs.set i (.lockReq S), by simp [signalC, hi]⟩
    | _ => cases ha
  · exact ⟨none, cs, by simp [signalC, h]⟩

theorem pullJobs_enabled (st : Strategy) (queue : List Nat) (groups : List (List Nat)) :
    ∃ r, pullJobs st queue groups 1 = some r := by
  unfold pullJobs
  split
  · exact ⟨_, rfl⟩
  · split
    · exact ⟨_, rfl⟩
    · rename_i h
      simp only
      have : (if st = .dynamic then 1 else 1) = 1 := by split <;> rfl
      rw [this]
      have hl : 1 ≤ queue.length := List.length_pos_iff.2 h
      rw [if_pos ⟨Nat.le_refl _, hl⟩]
      exact ⟨_, rfl⟩

/-- a worker which is not asleep (or gone) can make a step if the lock is free -/
theorem worker_enabled {s : State} (hlock : s.lock = none) {i : Nat} {p : WPc} (h : s.ws[i]? = some p)
    (hp : p ≠ .asleep) (hg : p ≠ .gone) : ∃ k wake s', workerStep s i k wake = some s' := by
  cases p with
  | asleep => exact absurd rfl hp
  | gone => exact absurd rfl hg
  | pull =>
    obtain ⟨⟨grp, q, gs⟩, hr⟩ := pullJobs_enabled s.strategy s.queue s.groups
    obtain ⟨wake, ws', hsig⟩ := signalW_enabled (s.ws.set i (pcOf grp))
    by_cases hq : q ≠ [] ∨ gs ≠ []
    · refine ⟨1, wake, { s with queue := q, groups := gs, ws := ws', v := true }, ?_⟩
      simp only [workerStep, h, pullStep, hr]
      rw [if_pos hq, hsig]; rfl
    · refine ⟨1, wake, { s with queue := q, groups := gs, ws := s.ws.set i (pcOf grp) }, ?_⟩
      simp only [workerStep, h, pullStep, hr]
      rw [if_neg hq]
  | dec =>
    obtain ⟨wake, cs', hsig⟩ := signalC_enabled s.cs
    refine ⟨0, wake, ?_⟩
    simp only [workerStep, h, hlock, if_true, hsig]
    split <;> exact ⟨_, rfl⟩
  | top | check | loop => exact ⟨0, none, _, by simp only [workerStep, h]; rfl⟩
  | bsem =>
    refine ⟨0, none, ?_⟩
    simp only [workerStep, h]
    split <;> exact ⟨_, rfl⟩
  | inc | exit =>
    refine ⟨0, none, ?_⟩
    simp only [workerStep, h, hlock, if_true]
    exact ⟨_, rfl⟩
  | run js =>
    cases js with
    | nil => exact ⟨0, none, _, by simp only [workerStep, h]; rfl⟩
    | cons j js => exact ⟨0, none, _, by simp only [workerStep, h]; rfl⟩

theorem client_enabled {s : State} {c : Nat} {p : CPc} (h : s.cs[c]? = some p) (hp : p.holds = true) :
    ∃ s', clientStep s c = some s' := by
  unfold clientStep
  rw [h]
  cases p with
  | len S | grp S | ready S => exact ⟨_, rfl⟩
  | work S => simp only; split <;> exact ⟨_, rfl⟩
  | _ => cases hp

/-- when nothing can move by itself, everything is done -/
theorem quiescent {s : State} (hl : Live s) (hne : s.ws ≠ [])
    (hq : ∀ a : Act, a.internal = true → exec s a = none) :
    s.queue = [] ∧ s.groups = [] ∧ (∀ p ∈ s.ws, p = .asleep) ∧ (∀ p ∈ s.cs, p.isWaiting = false) := by
  have hlock : s.lock = none := by
    cases hk : s.lock with
    | none => rfl
    | some c =>
      obtain ⟨p, hp, hh⟩ := (hl.inv.lock c).1 hk
      obtain ⟨s', hs'⟩ := client_enabled hp hh
      have := hq (.client c) rfl
      simp only [exec] at this
      rw [this] at hs'; cases hs'
  have hasleep : ∀ p ∈ s.ws, p = .asleep := by
    intro p hp
    by_cases e : p = .asleep
    · exact e
    · obtain ⟨i, hi⟩ := List.getElem?_of_mem hp
      obtain ⟨k, wake, s', hs'⟩ := worker_enabled hlock hi e (hl.stay p hp).2
      have := hq (.worker i k wake) rfl
      simp only [exec] at this
      rw [this] at hs'; cases hs'
  have hv : s.v = false := by
    cases hv : s.v with
    | false => rfl
    | true =>
      rcases hl.sem hv with ⟨i, hi⟩ | h
      · have := hasleep _ (mem_of_get hi); cases this
      · obtain ⟨p, ws, e⟩ := List.exists_cons_of_ne_nil hne
        have hp : p ∈ s.ws := by rw [e]; simp
        rw [hasleep p hp] at hp
        exact absurd hp h
  have hqg : ¬ (s.queue ≠ [] ∨ s.groups ≠ []) := by
    intro h
    rcases hl.pend h with h | ⟨i, p, hi, hb⟩
    · rw [hv] at h; cases h
    · have := hasleep p (mem_of_get hi); subst this; cases hb
  have hq0 : s.queue = [] := by
    by_cases e : s.queue = []
    · exact e
    · exact absurd (.inl e) hqg
  have hg0 : s.groups = [] := by
    by_cases e : s.groups = []
    · exact e
    · exact absurd (.inr e) hqg
  have hw0 : s.working = 0 := by
    rw [hl.inv.working]
    have : ∀ ws : List WPc, (∀ p ∈ ws, p = .asleep) → (ws.map counted).sum = 0 := by
      intro ws
      induction ws with
      | nil => intro _; rfl
      | cons p ws ih =>
        intro h
        have h1 := h p (by simp)
        subst h1
        simp only [List.map_cons, List.sum_cons, ih (fun q hq => h q (by simp [hq]))]
        rfl
    exact this _ hasleep
  refine ⟨hq0, hg0, hasleep, ?_⟩
  intro p hp
  obtain ⟨c, hc⟩ := List.getElem?_of_mem hp
  have holds_no : p.holds = false := by
    cases hh : p.holds with
    | false => rfl
    | true =>
      have := (hl.inv.lock c).2 ⟨p, hc, hh⟩
      rw [hlock] at this; cases this
  cases p with
  | lockReq S =>
    have := hq (.client c) rfl
    simp only [exec, clientStep, hc, hlock, if_true] at this
    cases this
  | asleep S =>
    rcases hl.sleeper c S (.inr hc) with h | h | h
    · exact absurd hq0 h
    · exact absurd hg0 h
    · omega
  | idle | shut | dead => rfl
  | len S | grp S | work S | ready S => cases holds_no

end Verif.Pool
