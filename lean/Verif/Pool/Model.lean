/-
Model of the thread pool of /repo/include/cppad/cg/model/threadpool/pthread_pool.c as a transition
system: any number of worker threads (`thread_do`) and any number of client threads calling the public
functions.

Simplifications
* memory is sequentially consistent (`len` and `group_front` are read without the lock of the queue,
  l.796: each read is a separate step here);
* the critical sections guarded by `rwmutex` and by the mutex of the semaphore are single steps (they
  contain no blocking call and the two locks are always taken in this order). `thcount_lock` is held by
  a waiting client over several steps and is therefore explicit;
* condition variables: a thread in `pthread_cond_wait` is `asleep`; a signal wakes one sleeping thread,
  chosen arbitrarily, if there is one; a broadcast wakes all; spurious wake-ups are separate actions;
* jobs are numbered in the order in which they are added; running a job appends its number to `done`;
* time measurements and verbose output are left out; how many jobs guided scheduling takes is an
  arbitrary number here (the choice made by the code is modelled in Guided.lean).
-/
namespace Verif.Pool

/-- `ScheduleStrategy` -/
inductive Strategy | static | dynamic | guided
deriving DecidableEq, Repr

/-- program points of `thread_do`, l.962-1078 -/
inductive WPc
  /-- test of the outer loop, l.996 -/
  | top
  /-- in `bsem_wait`, about to test `v`, l.1412 -/
  | bsem
  /-- in `pthread_cond_wait` of `bsem_wait`, l.1413 -/
  | asleep
  /-- l.1000 -/
  | check
  /-- about to count itself as working, l.1004-1006 -/
  | inc
  /-- test of the inner loop, l.1008 -/
  | loop
  /-- about to pull, l.1010-1012 -/
  | pull
  /-- running the jobs of a group, l.1021-1048 -/
  | run (js : List Nat)
  /-- about to leave the working state, l.1064-1069 -/
  | dec
  /-- left the loop, about to decrement the number of living threads, l.1072-1074 -/
  | exit
  | gone
deriving DecidableEq, Repr

/-- program points of a client. The list is bookkeeping: the jobs which had been added when
`thpool_wait` was called. -/
inductive CPc
  | idle
  /-- `thpool_wait`: about to take `thcount_lock` (l.795, or on return of `pthread_cond_wait`) -/
  | lockReq (S : List Nat)
  /-- holds the lock, about to read `len`, l.796 -/
  | len (S : List Nat)
  /-- about to read `group_front` -/
  | grp (S : List Nat)
  /-- about to read `num_threads_working` -/
  | work (S : List Nat)
  /-- about to call `pthread_cond_wait`, l.797 -/
  | ready (S : List Nat)
  | asleep (S : List Nat)
  /-- in the polling loops of `thpool_destroy`, l.890-902 -/
  | shut
  /-- pool destroyed -/
  | dead
deriving DecidableEq, Repr

structure State where
  strategy : Strategy
  keepalive : Bool
  /-- the binary semaphore `has_jobs` -/
  v : Bool
  queue : List Nat
  /-- `group_front` and its `prev` links -/
  groups : List (List Nat)
  working : Nat
  alive : Nat
  /-- the client holding `thcount_lock` -/
  lock : Option Nat
  ws : List WPc
  cs : List CPc
  /-- number of jobs added so far -/
  next : Nat
  /-- jobs run so far -/
  done : List Nat
  /-- jobs thrown away by `jobqueue_clear` -/
  dropped : List Nat
deriving DecidableEq, Repr

/-- state after `thpool_init`, l.461-517 -/
def init (st : Strategy) (nWorkers nClients : Nat) : State where
  strategy := st
  keepalive := true
  v := false
  queue := []
  groups := []
  working := 0
  alive := nWorkers
  lock := none
  ws := List.replicate nWorkers .top
  cs := List.replicate nClients .idle
  next := 0
  done := []
  dropped := []

/-- what happens next, with the choices left to the environment -/
inductive Act
  /-- worker `i` makes a step; `k` is the number of jobs taken when the strategy leaves a choice, `wake`
  the thread woken by a signal -/
  | worker (i k : Nat) (wake : Option Nat)
  /-- `jobqueue_push` of one job -/
  | push (c : Nat) (wake : Option Nat)
  /-- `jobqueue_multipush` -/
  | multipush (c n : Nat)
  /-- `jobqueue_push_static_jobs`: the new jobs distributed to groups -/
  | pushStatic (c n : Nat) (groups : List (List Nat))
  | callWait (c : Nat)
  /-- next step of a client inside `thpool_wait` or `thpool_destroy` -/
  | client (c : Nat)
  | setStrategy (c : Nat) (s : Strategy)
  | callDestroy (c : Nat)
  /-- spurious wake-ups -/
  | spuriousW (i : Nat)
  | spuriousC (c : Nat)
deriving DecidableEq, Repr

/-- `pthread_cond_signal` on the semaphore, l.1392 -/
def signalW (ws : List WPc) (wake : Option Nat) : Option (List WPc) :=
  match wake with
  | none => if WPc.asleep ∈ ws then none else some ws
  | some i => if ws[i]? = some .asleep then some (ws.set i .bsem) else none

/-- `pthread_cond_broadcast`, l.1402 -/
def broadcastW (ws : List WPc) : List WPc :=
  ws.map fun p => match p with | .asleep => .bsem | q => q

def CPc.isAsleep : CPc → Bool
  | .asleep _ => true
  | _ => false

/-- `pthread_cond_signal(&threads_all_idle)`, l.1067 -/
def signalC (cs : List CPc) (wake : Option Nat) : Option (List CPc) :=
  match wake with
  | none => if cs.any CPc.isAsleep then none else some cs
  | some i => match cs[i]? with
    | some (.asleep S) => some (cs.set i (.lockReq S))
    | _ => none

/-- `jobqueue_pull`, l.1246-1351, without the final post: the group taken, the remaining queue and the
remaining groups -/
def pullJobs (s : Strategy) (queue : List Nat) (groups : List (List Nat)) (k : Nat) :
    Option (Option (List Nat) × List Nat × List (List Nat)) :=
  match s, groups with
  | .static, g :: gs => some (some g, queue, gs)
  | _, _ =>
    if queue = [] then some (none, queue, groups)
    else
      let k' := if s = .dynamic then 1 else k
      if 1 ≤ k' ∧ k' ≤ queue.length then some (some (queue.take k'), queue.drop k', groups) else none

/-- where a pull leads: back to sleep or to running the group, l.1014-1021 -/
def pcOf : Option (List Nat) → WPc
  | none => .dec
  | some js => .run js

/-- the pull of worker `i`, with the post of l.1353-1355 -/
def pullStep (s : State) (i k : Nat) (wake : Option Nat) : Option State :=
  match pullJobs s.strategy s.queue s.groups k with
  | none => none
  | some (grp, q, gs) =>
    let ws := s.ws.set i (pcOf grp)
    if q ≠ [] ∨ gs ≠ [] then
      (signalW ws wake).map fun ws => { s with queue := q, groups := gs, ws := ws, v := true }
    else some { s with queue := q, groups := gs, ws := ws }

/-- one step of a worker -/
def workerStep (s : State) (i k : Nat) (wake : Option Nat) : Option State :=
  match s.ws[i]? with
  | none => none
  | some .top => some { s with ws := s.ws.set i (if s.keepalive then .bsem else .exit) }
  | some .bsem =>
    if s.v then some { s with v := false, ws := s.ws.set i .check } else some { s with ws := s.ws.set i .asleep }
  | some .asleep => none
  | some .check => some { s with ws := s.ws.set i (if s.keepalive then .inc else .exit) }
  | some .inc =>
    if s.lock = none then some { s with working := s.working + 1, ws := s.ws.set i .loop } else none
  | some .loop => some { s with ws := s.ws.set i (if s.keepalive then .pull else .dec) }
  | some .pull => pullStep s i k wake
  | some (.run []) => some { s with ws := s.ws.set i .loop }
  | some (.run (j :: js)) => some { s with ws := s.ws.set i (.run js), done := s.done ++ [j] }
  | some .dec =>
    if s.lock = none then
      if s.working - 1 = 0 then
        (signalC s.cs wake).map fun cs => { s with working := s.working - 1, ws := s.ws.set i .top, cs := cs }
      else some { s with working := s.working - 1, ws := s.ws.set i .top }
    else none
  | some .exit =>
    if s.lock = none then some { s with alive := s.alive - 1, ws := s.ws.set i .gone } else none
  | some .gone => none

/-- one step of a client inside `thpool_wait` (l.794-804) or `thpool_destroy` (l.879-923) -/
def clientStep (s : State) (c : Nat) : Option State :=
  match s.cs[c]? with
  | some (.lockReq S) =>
    if s.lock = none then some { s with lock := some c, cs := s.cs.set c (.len S) } else none
  | some (.len S) => some { s with cs := s.cs.set c (if s.queue ≠ [] then .ready S else .grp S) }
  | some (.grp S) => some { s with cs := s.cs.set c (if s.groups ≠ [] then .ready S else .work S) }
  | some (.work S) =>
    if s.working ≠ 0 then some { s with cs := s.cs.set c (.ready S) }
    else some { s with lock := none, cs := s.cs.set c .idle }
  | some (.ready S) => some { s with lock := none, cs := s.cs.set c (.asleep S) }
  | some .shut =>
    if s.alive ≠ 0 then some { s with v := true, ws := broadcastW s.ws }
    else some { s with queue := [], groups := [], dropped := s.dropped ++ s.queue ++ s.groups.flatten,
                       cs := s.cs.set c .dead }
  | _ => none

/-- the transition system -/
def exec (s : State) : Act → Option State
  | .worker i k wake => workerStep s i k wake
  | .push c wake =>
    if s.cs[c]? = some .idle then
      (signalW s.ws wake).map fun ws =>
        { s with queue := s.queue ++ [s.next], next := s.next + 1, v := true, ws := ws }
    else none
  | .multipush c n =>
    if s.cs[c]? = some .idle then
      some { s with queue := s.queue ++ List.range' s.next n, next := s.next + n, v := true,
                    ws := broadcastW s.ws }
    else none
  | .pushStatic c n gs =>
    if s.cs[c]? = some .idle ∧ s.strategy = .static ∧ gs.flatten.isPerm (List.range' s.next n) then
      some { s with groups := gs ++ s.groups, next := s.next + n, v := true, ws := broadcastW s.ws }
    else none
  | .callWait c =>
    if s.cs[c]? = some .idle then some { s with cs := s.cs.set c (.lockReq (List.range s.next)) } else none
  | .client c => clientStep s c
  | .setStrategy c st => if s.cs[c]? = some .idle then some { s with strategy := st } else none
  | .callDestroy c =>
    if s.cs[c]? = some .idle then some { s with keepalive := false, cs := s.cs.set c .shut } else none
  | .spuriousW i => if s.ws[i]? = some .asleep then some { s with ws := s.ws.set i .bsem } else none
  | .spuriousC c =>
    match s.cs[c]? with
    | some (.asleep S) => some { s with cs := s.cs.set c (.lockReq S) }
    | _ => none

/-- a sequence of steps -/
inductive Run : State → List Act → State → Prop
  | nil (s : State) : Run s [] s
  | cons {s s1 s2 : State} {a : Act} {as : List Act} : exec s a = some s1 → Run s1 as s2 → Run s (a :: as) s2

/-- executable form, for examples -/
def runAll : State → List Act → Option State
  | s, [] => some s
  | s, a :: as => (exec s a).bind fun s' => runAll s' as

end Verif.Pool
