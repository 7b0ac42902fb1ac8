/-
Model of how jobs are ordered, grouped and taken from the queue:
/repo/include/cppad/cg/model/threadpool/pthread_pool.c l.298-354 (`cppadcg_thpool_update_order`),
l.571-614 (`thpool_add_jobs`), l.619-766 (`jobqueue_push_static_jobs`), l.1144-1165, 1201-1223
(queue with its total time) and l.1290-1345 (guided branch of `jobqueue_pull`).

Times are elements of an arbitrary type with the operations used by the code, so that the theorems can be
read for exact numbers as well as for rounded ones.

Simplifications: the times behind the `avgElapsed` pointers do not change while the jobs are queued (the
generated code updates them only after waiting for all jobs); `malloc` does not fail; `qsort` returns
some sorted arrangement of its input; messages are left out.
-/
namespace Verif.Pool

/-! ### the queue and its total time -/

/-- `JobQueue`: the times of the queued jobs (`none`: `avgElapsed == NULL`), front first, and `total_time` -/
structure JobQ (α : Type) where
  times : List (Option α)
  total : α

/-- `jobqueue_push_internal`, l.1144-1165 -/
def JobQ.push {α : Type} [Add α] (q : JobQ α) (t : Option α) : JobQ α where
  times := q.times ++ [t]
  total := match t with
    | some x => q.total + x
    | none => q.total

/-- `jobqueue_extract_single`, l.1201-1223 -/
def JobQ.extract {α : Type} [Sub α] [OfNat α 0] (q : JobQ α) : JobQ α :=
  match q.times with
  | [] => q
  | [_] => ⟨[], 0⟩
  | some x :: js => ⟨js, q.total - x⟩
  | none :: js => ⟨js, q.total⟩

/-! ### guided scheduling -/

/-- outcome of the traversal: `null` when `job->avgElapsed` is read with `job == NULL` -/
inductive Take
  | null
  | group (size : Nat)
deriving DecidableEq, Repr

/-- the loop of l.1321-1333 over the jobs behind the front; `job != queue->front` always holds, the links
do not lead back to the front -/
def scan {α : Type} [Add α] [LT α] [DecidableLT α] (target : α) : α → Nat → List (Option α) → Take
  | _, _, [] => .null
  | _, size, none :: _ => .group size
  | next, size, some t :: js =>
    if next + t < target then scan target (next + t) (size + 1) js else .group size

/-- `jobqueue_pull` l.1264-1345 for a queue which is not empty and without static groups: number of jobs
taken. `target` gives l.1311-1319. -/
def guided {α : Type} [Add α] [LT α] [DecidableLT α] [OfNat α 0] (target : α → α) (q : JobQ α) : Take :=
  match q.times with
  | [] => .group 0
  | [_] => .group 1
  | none :: _ => .group 1
  | some t :: js => if 0 < q.total then scan (target q.total) t 1 js else .group 1

/-- l.1311-1319; `minDur` is `0.9 * (highest_expected_return - current_time)`, which is used only when
`highest_expected_return > 0` and the clock could not be read (`info != 0`, see l.411) -/
def codeTarget {α : Type} [Mul α] [Div α] [LT α] [DecidableLT α] (maxgroupwork threads : α) (minDur : Option α)
    (total : α) : α :=
  let t := total * maxgroupwork / threads
  match minDur with
  | some m => if t < m then m else t
  | none => t

/-! ### order of the jobs -/

/-- l.342-345: `order[sorted[i]] = nJobs - i - 1` -/
def writeOrder (n : Nat) : Nat → List Nat → List Nat → List Nat
  | _, [], order => order
  | i, ix :: rest, order => writeOrder n (i + 1) rest (order.set ix (n - i - 1))

/-- l.321-338: new reference times, `avg` for `ELAPSED_TIME_AVG` -/
def newRef {α : Type} [LT α] [DecidableLT α] (mean : Nat → α → α → α) (avg : Bool) (nMeas : Nat) (ref el : α) : α :=
  if avg then mean nMeas ref el else if nMeas = 0 ∨ el < ref then el else ref

/-- `cppadcg_thpool_update_order`; `sort` is `qsort` applied to the new reference times, it returns the
indices -/
def updateOrder {α : Type} [LT α] [DecidableLT α] [OfNat α 0] [DecidableEq α] (mean : Nat → α → α → α) (avg : Bool)
    (sort : List α → List Nat) (nMeas : Nat) (ref el : List α) (order : List Nat) : List α × List Nat :=
  if el.all (· = 0) then (ref, order)
  else
    let ref' := List.zipWith (newRef mean avg nMeas) ref el
    (ref', writeOrder order.length 0 (sort ref') order)

/-- `thpool_add_jobs`, l.580-606: the jobs in the order in which they enter the queue -/
def queued {J : Type} (jobs : List J) (order : List Nat) : List J :=
  order.filterMap fun j => jobs[j]?

/-! ### static scheduling -/

/-- l.671-680: first group which stays below the target -/
def firstFit {α : Type} [Add α] [LT α] [DecidableLT α] (target t : α) : List α → Nat → Option Nat
  | [], _ => none
  | d :: ds, i => if d + t < target then some i else firstFit target t ds (i + 1)

/-- l.682-690: group with the smallest duration -/
def bestFit {α : Type} [Add α] [LT α] [DecidableLT α] (t : α) : List α → Nat → α → Nat → Nat
  | [], _, _, iBest => iBest
  | d :: ds, i, best, iBest =>
    if d + t < best then bestFit t ds (i + 1) (d + t) i else bestFit t ds (i + 1) best iBest

/-- the group of one job, l.670-695 -/
def chooseGroup {α : Type} [Add α] [LT α] [DecidableLT α] [OfNat α 0] (target t : α) (durations : List α) : Nat :=
  match firstFit target t durations 0 with
  | some i => i
  | none => bestFit t durations.tail 1 (durations.headD 0 + t) 0

/-- l.669-697: `jobs2thread` -/
def assign {α : Type} [Add α] [LT α] [DecidableLT α] [OfNat α 0] (target : α) : List α → List α → List Nat
  | _, [] => []
  | durations, t :: ts =>
    let i := chooseGroup target t durations
    i :: assign target (durations.set i ((durations[i]?).getD 0 + t)) ts

/-- `n_jobs[i]++` for all jobs; `none`: an index outside of the array -/
def countJobs : List Nat → List Nat → Option (List Nat)
  | counts, [] => some counts
  | counts, i :: is => match counts[i]? with
    | some c => countJobs (counts.set i (c + 1)) is
    | none => none

/-- `group->jobs[group->size] = *newjobs[j]; group->size++` for all jobs, l.722-728; a group is its
capacity and its content; `none`: a write outside of an array -/
def fillGroups {J : Type} : List (Nat × List J) → List (Nat × J) → Option (List (Nat × List J))
  | groups, [] => some groups
  | groups, (i, j) :: rest => match groups[i]? with
    | some (cap, js) => if js.length < cap then fillGroups (groups.set i (cap, js ++ [j])) rest else none
    | none => none

/-- l.652: the table is computed anew -/
def isFresh (changed : Bool) : List Int → Bool
  | x :: _ => changed || decide (x < 0)
  | [] => changed

/-- l.657-704, 709-728 for a given table: count, allocate, fill -/
def placeJobs {J : Type} (n : Nat) (table : List Int) (jobs : List J) : Option (List (Nat × List J)) :=
  if table.any (· < 0) then none
  else
    match countJobs (List.replicate n 0) (table.map Int.toNat) with
    | none => none
    | some counts => fillGroups (counts.map fun c => (c, [])) ((table.map Int.toNat).zip jobs)

/-- `jobqueue_push_static_jobs`: new `jobs2thread` and the groups (allocated size, content); `target`
gives l.667 -/
def pushStaticJobs {α J : Type} [Add α] [LT α] [DecidableLT α] [OfNat α 0] (target : Nat → α) (threads : Nat)
    (jobs : List J) (avgElapsed : List α) (jobs2thread : List Int) (changed : Bool) :
    Option (List Int × List (Nat × List J)) :=
  let n := min jobs.length threads
  let table := if isFresh changed jobs2thread then
      (assign (target n) (List.replicate n 0) avgElapsed).map Int.ofNat
    else jobs2thread
  (placeJobs n table jobs).map fun groups => (table, groups)

end Verif.Pool
