import Verif.Pool.Model
namespace Verif.Pool

/-! ### sums over the threads -/

theorem sum_set {α : Type} (f : α → Nat) (l : List α) (i : Nat) (a b : α) (h : l[i]? = some a) :
    ((l.set i b).map f).sum + f a = (l.map f).sum + f b := by
  induction l generalizing i with
  | nil => simp at h
  | cons x l ih =>
    cases i with
    | zero => simp at h; subst h; simp; omega
    | succ i =>
      simp at h
      have := ih i h
      simp only [List.set_cons_succ, List.map_cons, List.sum_cons]
      omega

theorem sum_broadcast (f : WPc → Nat) (hf : f .asleep = f .bsem) (ws : List WPc) :
    ((broadcastW ws).map f).sum = (ws.map f).sum := by
  unfold broadcastW
  induction ws with
  | nil => rfl
  | cons p ws ih =>
    simp only [List.map_cons, List.sum_cons, ih]
    cases p <;> simp [hf]

theorem signalW_eq {ws ws' : List WPc} {wake : Option Nat} (h : signalW ws wake = some ws') :
    (ws' = ws ∧ WPc.asleep ∉ ws) ∨ ∃ i, ws[i]? = some .asleep ∧ ws' = ws.set i .bsem := by
  unfold signalW at h
  cases wake with
  | none =>
    simp only at h
    split at h
    · cases h
    · rename_i hn; left; exact ⟨by simpa using h.symm, hn⟩
  | some i =>
    simp only at h
    split at h
    · rename_i hi; right; exact ⟨i, hi, by simpa using h.symm⟩
    · cases h

theorem sum_signal (f : WPc → Nat) (hf : f .asleep = f .bsem) {ws ws' : List WPc} {wake : Option Nat}
    (h : signalW ws wake = some ws') : (ws'.map f).sum = (ws.map f).sum := by
  rcases signalW_eq h with ⟨rfl, _⟩ | ⟨i, hi, rfl⟩
  · rfl
  · have := sum_set f ws i .asleep .bsem hi
    omega

theorem signalC_eq {cs cs' : List CPc} {wake : Option Nat} (h : signalC cs wake = some cs') :
    (cs' = cs ∧ cs.any CPc.isAsleep = false) ∨ ∃ i S, cs[i]? = some (.asleep S) ∧ cs' = cs.set i (.lockReq S) := by
  unfold signalC at h
  cases wake with
  | none =>
    simp only at h
    split at h
    · cases h
    · rename_i hn; left; exact ⟨by simpa using h.symm, by simpa using hn⟩
  | some i =>
    simp only at h
    split at h
    · rename_i S hi; right; exact ⟨i, S, hi, by simpa using h.symm⟩
    · cases h

/-! ### steps, case by case -/

/-- effect of the post after a pull -/
def PostEff (q : List Nat) (gs : List (List Nat)) (ws : List WPc) (v : Bool) (ws' : List WPc) (v' : Bool) : Prop :=
  ((q ≠ [] ∨ gs ≠ []) ∧ v' = true ∧ ∃ wake, signalW ws wake = some ws') ∨
  (q = [] ∧ gs = [] ∧ v' = v ∧ ws' = ws)

/-- steps of worker `i` -/
inductive WEff (s : State) (i : Nat) : State → Prop
  | topGo : s.ws[i]? = some .top → s.keepalive = true → WEff s i { s with ws := s.ws.set i .bsem }
  | topExit : s.ws[i]? = some .top → s.keepalive = false → WEff s i { s with ws := s.ws.set i .exit }
  | pass : s.ws[i]? = some .bsem → s.v = true → WEff s i { s with v := false, ws := s.ws.set i .check }
  | sleep : s.ws[i]? = some .bsem → s.v = false → WEff s i { s with ws := s.ws.set i .asleep }
  | checkGo : s.ws[i]? = some .check → s.keepalive = true → WEff s i { s with ws := s.ws.set i .inc }
  | checkExit : s.ws[i]? = some .check → s.keepalive = false → WEff s i { s with ws := s.ws.set i .exit }
  | inc : s.ws[i]? = some .inc → s.lock = none →
      WEff s i { s with working := s.working + 1, ws := s.ws.set i .loop }
  | loopGo : s.ws[i]? = some .loop → s.keepalive = true → WEff s i { s with ws := s.ws.set i .pull }
  | loopExit : s.ws[i]? = some .loop → s.keepalive = false → WEff s i { s with ws := s.ws.set i .dec }
  | pull (k : Nat) (grp : Option (List Nat)) (q : List Nat) (gs : List (List Nat)) (ws' : List WPc) (v' : Bool) :
      s.ws[i]? = some .pull → pullJobs s.strategy s.queue s.groups k = some (grp, q, gs) →
      PostEff q gs (s.ws.set i (pcOf grp)) s.v ws' v' →
      WEff s i { s with queue := q, groups := gs, ws := ws', v := v' }
  | runDone : s.ws[i]? = some (.run []) → WEff s i { s with ws := s.ws.set i .loop }
  | runJob (j : Nat) (js : List Nat) : s.ws[i]? = some (.run (j :: js)) →
      WEff s i { s with ws := s.ws.set i (.run js), done := s.done ++ [j] }
  | decSignal (cs : List CPc) (wake : Option Nat) : s.ws[i]? = some .dec → s.lock = none → s.working - 1 = 0 →
      signalC s.cs wake = some cs →
      WEff s i { s with working := s.working - 1, ws := s.ws.set i .top, cs := cs }
  | dec : s.ws[i]? = some .dec → s.lock = none → s.working - 1 ≠ 0 →
      WEff s i { s with working := s.working - 1, ws := s.ws.set i .top }
  | exit : s.ws[i]? = some .exit → s.lock = none →
      WEff s i { s with alive := s.alive - 1, ws := s.ws.set i .gone }

theorem workerStep_eff {s s' : State} {i k : Nat} {wake : Option Nat} (h : workerStep s i k wake = some s') :
    WEff s i s' := by
  unfold workerStep at h
  cases hp : s.ws[i]? with
  | none => rw [hp] at h; cases h
  | some pc =>
    rw [hp] at h
    cases pc with
    | top =>
      simp only at h
      by_cases hk : s.keepalive = true
      · rw [if_pos hk] at h; cases h; exact .topGo hp hk
      · rw [if_neg hk] at h; cases h; exact .topExit hp (by simpa using hk)
    | bsem =>
      simp only at h
      by_cases hk : s.v = true
      · rw [if_pos hk] at h; cases h; exact .pass hp hk
      · rw [if_neg hk] at h; cases h; exact .sleep hp (by simpa using hk)
    | asleep => cases h
    | check =>
      simp only at h
      by_cases hk : s.keepalive = true
      · rw [if_pos hk] at h; cases h; exact .checkGo hp hk
      · rw [if_neg hk] at h; cases h; exact .checkExit hp (by simpa using hk)
    | inc =>
      simp only at h
      split at h
      · cases h; exact .inc hp (by assumption)
      · cases h
    | loop =>
      simp only at h
      by_cases hk : s.keepalive = true
      · rw [if_pos hk] at h; cases h; exact .loopGo hp hk
      · rw [if_neg hk] at h; cases h; exact .loopExit hp (by simpa using hk)
    | pull =>
      simp only [pullStep] at h
      cases hj : pullJobs s.strategy s.queue s.groups k with
      | none => rw [hj] at h; cases h
      | some r =>
        obtain ⟨grp, q, gs⟩ := r
        rw [hj] at h
        simp only at h
        by_cases hq : q ≠ [] ∨ gs ≠ []
        · rw [if_pos hq] at h
          cases hs : signalW (s.ws.set i (pcOf grp)) wake with
          | none => rw [hs] at h; cases h
          | some ws' =>
            rw [hs] at h
            simp at h
            subst h
            exact .pull k grp q gs ws' true hp hj (.inl ⟨hq, rfl, wake, hs⟩)
        · rw [if_neg hq] at h
          simp at h
          subst h
          have hq' : q = [] ∧ gs = [] := by
            constructor
            · by_cases e : q = []
              · exact e
              · exact absurd (.inl e) hq
            · by_cases e : gs = []
              · exact e
              · exact absurd (.inr e) hq
          exact .pull k grp q gs _ s.v hp hj (.inr ⟨hq'.1, hq'.2, rfl, rfl⟩)
    | run js =>
      cases js with
      | nil => simp at h; subst h; exact .runDone hp
      | cons j js => simp at h; subst h; exact .runJob j js hp
    | dec =>
      simp only at h
      split at h
      · split at h
        · cases hs : signalC s.cs wake with
          | none => rw [hs] at h; cases h
          | some cs =>
            rw [hs] at h; simp at h; subst h
            rename_i h1 h2
            exact .decSignal cs wake hp h1 h2 hs
        · cases h
          exact .dec hp (by assumption) (by assumption)
      · cases h
    | exit =>
      simp only at h
      split at h
      · cases h; exact .exit hp (by assumption)
      · cases h
    | gone => cases h

/-- steps of client `c` -/
inductive CEff (s : State) (c : Nat) : State → Prop
  | lock (S : List Nat) : s.cs[c]? = some (.lockReq S) → s.lock = none →
      CEff s c { s with lock := some c, cs := s.cs.set c (.len S) }
  | lenBusy (S : List Nat) : s.cs[c]? = some (.len S) → s.queue ≠ [] → CEff s c { s with cs := s.cs.set c (.ready S) }
  | lenZero (S : List Nat) : s.cs[c]? = some (.len S) → s.queue = [] → CEff s c { s with cs := s.cs.set c (.grp S) }
  | grpBusy (S : List Nat) : s.cs[c]? = some (.grp S) → s.groups ≠ [] → CEff s c { s with cs := s.cs.set c (.ready S) }
  | grpZero (S : List Nat) : s.cs[c]? = some (.grp S) → s.groups = [] → CEff s c { s with cs := s.cs.set c (.work S) }
  | workBusy (S : List Nat) : s.cs[c]? = some (.work S) → s.working ≠ 0 → CEff s c { s with cs := s.cs.set c (.ready S) }
  | ret (S : List Nat) : s.cs[c]? = some (.work S) → s.working = 0 →
      CEff s c { s with lock := none, cs := s.cs.set c .idle }
  | sleep (S : List Nat) : s.cs[c]? = some (.ready S) → CEff s c { s with lock := none, cs := s.cs.set c (.asleep S) }
  | repost : s.cs[c]? = some .shut → s.alive ≠ 0 → CEff s c { s with v := true, ws := broadcastW s.ws }
  | clear : s.cs[c]? = some .shut → s.alive = 0 →
      CEff s c { s with queue := [], groups := [], dropped := s.dropped ++ s.queue ++ s.groups.flatten, cs := s.cs.set c .dead }

theorem clientStep_eff {s s' : State} {c : Nat} (h : clientStep s c = some s') : CEff s c s' := by
  unfold clientStep at h
  cases hp : s.cs[c]? with
  | none => rw [hp] at h; cases h
  | some pc =>
    rw [hp] at h
    cases pc with
    | idle => cases h
    | lockReq S =>
      simp only at h
      split at h
      · cases h; exact .lock S hp (by assumption)
      · cases h
    | len S =>
      simp only at h
      by_cases hq : s.queue = []
      · rw [if_neg (by simpa using hq)] at h; cases h; exact .lenZero S hp hq
      · rw [if_pos hq] at h; cases h; exact .lenBusy S hp hq
    | grp S =>
      simp only at h
      by_cases hq : s.groups = []
      · rw [if_neg (by simpa using hq)] at h; cases h; exact .grpZero S hp hq
      · rw [if_pos hq] at h; cases h; exact .grpBusy S hp hq
    | work S =>
      simp only at h
      by_cases hq : s.working = 0
      · rw [if_neg (by simpa using hq)] at h; cases h; exact .ret S hp hq
      · rw [if_pos hq] at h; cases h; exact .workBusy S hp hq
    | ready S => cases h; exact .sleep S hp
    | asleep S => cases h
    | shut =>
      simp only at h
      by_cases hq : s.alive = 0
      · rw [if_neg (by simpa using hq)] at h; cases h; exact .clear hp hq
      · rw [if_pos hq] at h; cases h; exact .repost hp hq
    | dead => cases h

/-- all steps -/
inductive Eff (s : State) : Act → State → Prop
  | worker {i k : Nat} {wake : Option Nat} {s' : State} : WEff s i s' → Eff s (.worker i k wake) s'
  | client {c : Nat} {s' : State} : CEff s c s' → Eff s (.client c) s'
  | push {c : Nat} {wake : Option Nat} (ws : List WPc) : s.cs[c]? = some .idle → signalW s.ws wake = some ws →
      Eff s (.push c wake) { s with queue := s.queue ++ [s.next], next := s.next + 1, v := true, ws := ws }
  | multipush {c n : Nat} : s.cs[c]? = some .idle →
      Eff s (.multipush c n) { s with queue := s.queue ++ List.range' s.next n, next := s.next + n, v := true,
                                      ws := broadcastW s.ws }
  | pushStatic {c n : Nat} {gs : List (List Nat)} : s.cs[c]? = some .idle → s.strategy = .static →
      gs.flatten.Perm (List.range' s.next n) →
      Eff s (.pushStatic c n gs) { s with groups := gs ++ s.groups, next := s.next + n, v := true, ws := broadcastW s.ws }
  | callWait {c : Nat} : s.cs[c]? = some .idle →
      Eff s (.callWait c) { s with cs := s.cs.set c (.lockReq (List.range s.next)) }
  | setStrategy {c : Nat} {st : Strategy} : s.cs[c]? = some .idle → Eff s (.setStrategy c st) { s with strategy := st }
  | callDestroy {c : Nat} : s.cs[c]? = some .idle →
      Eff s (.callDestroy c) { s with keepalive := false, cs := s.cs.set c .shut }
  | spuriousW {i : Nat} : s.ws[i]? = some .asleep → Eff s (.spuriousW i) { s with ws := s.ws.set i .bsem }
  | spuriousC {c : Nat} (S : List Nat) : s.cs[c]? = some (.asleep S) →
      Eff s (.spuriousC c) { s with cs := s.cs.set c (.lockReq S) }

theorem exec_eff {s s' : State} {a : Act} (h : exec s a = some s') : Eff s a s' := by
  cases a with
  | worker i k wake => exact .worker (workerStep_eff h)
  | client c => exact .client (clientStep_eff h)
  | push c wake =>
    simp only [exec] at h
    split at h
    · cases hs : signalW s.ws wake with
      | none => rw [hs] at h; cases h
      | some ws => rw [hs] at h; simp at h; subst h; exact .push ws (by assumption) hs
    · cases h
  | multipush c n =>
    simp only [exec] at h
    split at h
    · cases h; exact .multipush (by assumption)
    · cases h
  | pushStatic c n gs =>
    simp only [exec] at h
    split at h
    · rename_i hc
      cases h
      exact .pushStatic hc.1 hc.2.1 (List.isPerm_iff.1 hc.2.2)
    · cases h
  | callWait c =>
    simp only [exec] at h
    split at h
    · cases h; exact .callWait (by assumption)
    · cases h
  | setStrategy c st =>
    simp only [exec] at h
    split at h
    · cases h; exact .setStrategy (by assumption)
    · cases h
  | callDestroy c =>
    simp only [exec] at h
    split at h
    · cases h; exact .callDestroy (by assumption)
    · cases h
  | spuriousW i =>
    simp only [exec] at h
    split at h
    · cases h; exact .spuriousW (by assumption)
    · cases h
  | spuriousC c =>
    simp only [exec] at h
    split at h
    · rename_i S hS; cases h; exact .spuriousC S hS
    · cases h

/-! ### every job is in exactly one place -/

/-- occurrences of a job in the hands of a worker -/
def heldCount (j : Nat) : WPc → Nat
  | .run js => js.count j
  | _ => 0

/-- occurrences of job `j` anywhere -/
def places (s : State) (j : Nat) : Nat :=
  s.queue.count j + s.groups.flatten.count j + (s.ws.map (heldCount j)).sum + s.done.count j + s.dropped.count j

def InvPlaces (s : State) : Prop := ∀ j, places s j = if j < s.next then 1 else 0

theorem pullJobs_count {st : Strategy} {queue : List Nat} {groups : List (List Nat)} {k : Nat}
    {grp : Option (List Nat)} {q : List Nat} {gs : List (List Nat)}
    (h : pullJobs st queue groups k = some (grp, q, gs)) (j : Nat) :
    queue.count j + groups.flatten.count j = heldCount j (pcOf grp) + q.count j + gs.flatten.count j := by
  have key : ∀ (h' : (if queue = [] then some (none, queue, groups)
      else
        let k' := if st = .dynamic then 1 else k
        if 1 ≤ k' ∧ k' ≤ queue.length then some (some (queue.take k'), queue.drop k', groups) else none)
        = some (grp, q, gs)),
      queue.count j + groups.flatten.count j = heldCount j (pcOf grp) + q.count j + gs.flatten.count j := by
    intro h'
    by_cases hq : queue = []
    · rw [if_pos hq] at h'; cases h'; simp [pcOf, heldCount]
    · rw [if_neg hq] at h'
      simp only at h'
      generalize (if st = .dynamic then 1 else k) = k' at h'
      split at h'
      · cases h'
        have : (queue.take k' ++ queue.drop k').count j = queue.count j := by rw [List.take_append_drop]
        rw [List.count_append] at this
        simp only [pcOf, heldCount]
        omega
      · cases h'
  unfold pullJobs at h
  split at h
  · cases h
    simp [pcOf, heldCount, List.count_append]
    omega
  · exact key h

theorem count_range' (j a n : Nat) : (List.range' a n).count j = if a ≤ j ∧ j < a + n then 1 else 0 := by
  have hn : (List.range' a n).Nodup := List.nodup_range' (step := 1) ..
  rw [hn.count]
  simp [List.mem_range'_1]

theorem invPlaces_step {s s' : State} {a : Act} (hi : InvPlaces s) (h : exec s a = some s') : InvPlaces s' := by
  have hE := exec_eff h
  intro j
  have hj := hi j
  unfold places at hj ⊢
  have hs : heldCount j .asleep = heldCount j .bsem := rfl
  cases hE with
  | worker w =>
    rename_i i k wake
    cases w with
    | pull k' grp q gs ws' v' hp hj' hpost =>
      have hc := pullJobs_count hj' j
      have hset := sum_set (heldCount j) s.ws i _ (pcOf grp) hp
      have hws : (ws'.map (heldCount j)).sum = ((s.ws.set i (pcOf grp)).map (heldCount j)).sum := by
        rcases hpost with ⟨_, _, wk, hsig⟩ | ⟨_, _, _, rfl⟩
        · exact sum_signal _ hs hsig
        · rfl
      simp only [heldCount, hws] at *
      omega
    | runJob j' js hp =>
      have hset := sum_set (heldCount j) s.ws i _ (.run js) hp
      simp only [heldCount, List.count_cons, List.count_append, List.count_nil] at *
      omega
    | topGo hp _ | pass hp _ | sleep hp _ | checkGo hp _ | inc hp _ | loopGo hp _ | runDone hp
    | dec hp _ _ | topExit hp _ | checkExit hp _ | loopExit hp _ | exit hp _ | decSignal _ _ hp _ _ _ =>
      have hset := fun b => sum_set (heldCount j) s.ws i _ b hp
      simp only [heldCount, List.count_nil, Nat.add_zero] at *
      simp only [hset]
      omega
  | client w =>
    cases w with
    | repost =>
      simp only [sum_broadcast _ hs]
      omega
    | clear => simp only [List.count_append, List.count_nil, List.flatten_nil]; omega
    | _ => exact hj
  | push ws hp hsig =>
    simp only [sum_signal _ hs hsig, List.count_append, List.count_cons, List.count_nil]
    by_cases e : s.next = j
    · subst e; simp at hj ⊢; omega
    · have : (s.next == j) = false := by simpa using e
      rw [this]
      simp only [Bool.false_eq_true, if_false]
      split at hj <;> split <;> omega
  | multipush hp =>
    simp only [sum_broadcast _ hs, List.count_append, count_range']
    split at hj <;> split <;> split <;> omega
  | pushStatic hp hst hperm =>
    simp only [sum_broadcast _ hs, List.flatten_append, List.count_append, hperm.count_eq, count_range']
    split at hj <;> split <;> split <;> omega
  | spuriousW hp =>
    rename_i i
    have hset := sum_set (heldCount j) s.ws i _ .bsem hp
    simp only [heldCount, Nat.add_zero] at *
    simp only [hset]
    exact hj
  | callWait | setStrategy | callDestroy | spuriousC => exact hj

/-! ### counters -/

/-- the worker is between the increment and the decrement of `num_threads_working` -/
def counted : WPc → Nat
  | .loop | .pull | .run _ | .dec => 1
  | _ => 0

def InvWorking (s : State) : Prop := s.working = (s.ws.map counted).sum

theorem sum_pos {α : Type} {f : α → Nat} {l : List α} {i : Nat} {a : α} (h : l[i]? = some a) :
    f a ≤ (l.map f).sum := by
  induction l generalizing i with
  | nil => simp at h
  | cons x l ih =>
    cases i with
    | zero => simp at h; subst h; simp
    | succ i => simp at h; have := ih h; simp; omega

theorem counted_pcOf (g : Option (List Nat)) : counted (pcOf g) = 1 := by cases g <;> rfl

theorem invWorking_step {s s' : State} {a : Act} (hi : InvWorking s) (h : exec s a = some s') : InvWorking s' := by
  have hE := exec_eff h
  unfold InvWorking at *
  have hs : counted .asleep = counted .bsem := rfl
  cases hE with
  | worker w =>
    rename_i i k wake
    cases w with
    | pull k' grp q gs ws' v' hp hj' hpost =>
      have hset := sum_set counted s.ws i _ (pcOf grp) hp
      have hws : (ws'.map counted).sum = ((s.ws.set i (pcOf grp)).map counted).sum := by
        rcases hpost with ⟨_, _, wk, hsig⟩ | ⟨_, _, _, rfl⟩
        · exact sum_signal _ hs hsig
        · rfl
      simp only [counted_pcOf, hws] at *
      simp only [counted] at hset
      omega
    | topGo hp _ | pass hp _ | sleep hp _ | checkGo hp _ | inc hp _ | loopGo hp _ | runDone hp | runJob _ _ hp
    | dec hp _ _ | topExit hp _ | checkExit hp _ | loopExit hp _ | exit hp _ | decSignal _ _ hp _ _ _ =>
      have hset := fun b => sum_set counted s.ws i _ b hp
      have hpos := sum_pos (f := counted) hp
      simp only [counted, Nat.add_zero] at *
      first
        | (have := hset .bsem; simp only at this; omega)
        | (have := hset .exit; simp only at this; omega)
        | (have := hset .check; simp only at this; omega)
        | (have := hset .asleep; simp only at this; omega)
        | (have := hset .inc; simp only at this; omega)
        | (have := hset .loop; simp only at this; omega)
        | (have := hset .pull; simp only at this; omega)
        | (have := hset .dec; simp only at this; omega)
        | (have := hset .top; simp only at this; omega)
        | (have := hset .gone; simp only at this; omega)
        | (rename_i js; have := hset (.run js); simp only at this; omega)
  | client w =>
    cases w with
    | repost => simp only [sum_broadcast _ hs]; exact hi
    | _ => exact hi
  | push ws hp hsig => simp only [sum_signal _ hs hsig]; exact hi
  | multipush hp => simp only [sum_broadcast _ hs]; exact hi
  | pushStatic hp hst hperm => simp only [sum_broadcast _ hs]; exact hi
  | spuriousW hp =>
    rename_i i
    have hset := sum_set counted s.ws i _ .bsem hp
    simp only [counted, Nat.add_zero] at hset
    simp only [hset]; exact hi
  | callWait | setStrategy | callDestroy | spuriousC => exact hi

end Verif.Pool
