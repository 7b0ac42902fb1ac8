/-
Model of the storage of array temporaries: /repo/include/cppad/cg/array_id_compresser.hpp.

The maps are lists sorted by their keys. Arguments are identified by what decides whether they are the
same: the parameter, or the node.
-/
import Verif.Arrays.Spec
namespace Verif.Arrays

inductive Err
  | ub
  | exception
  deriving DecidableEq, Repr

/-! ### `std::map` -/

/-- `find` -/
def mfind (k : Nat) (l : List (Nat × Nat)) : Option Nat := (l.find? fun p => p.1 == k).map (·.2)

/-- `erase` -/
def merase (k : Nat) (l : List (Nat × Nat)) : List (Nat × Nat) := l.filter fun p => p.1 != k

/-- `operator[]` with an assignment -/
def minsert (k v : Nat) (l : List (Nat × Nat)) : List (Nat × Nat) :=
  l.filter (fun p => decide (p.1 < k)) ++ (k, v) :: l.filter fun p => decide (k < p.1)

/-! ### the class -/

/-- the members, array_id_compresser.hpp l.30-47 -/
structure Comp (V : Type) where
  starts : List (Nat × Nat)          -- `_freeArrayStartSpace`
  ends : List (Nat × Nat)            -- `_freeArrayEndSpace`
  tmp : List (Option (Arg V))        -- `_tmpArrayValues`
  count : Nat                        -- `_idArrayCount`

/-- the constructor, l.54-59 -/
def Comp.init (V : Type) (size : Nat) : Comp V := ⟨[], [], List.replicate size none, 1⟩

/-- `addFreeArraySpace`, l.65-97, for an array of `size` elements at `arrayStart` -/
def Comp.addFree {V : Type} (s : Comp V) (arrayStart size : Nat) : Comp V :=
  if size = 0 then s
  else
    let arrayEnd := arrayStart + size - 1
    -- previous free space, l.73-81
    let prev := if arrayStart > 0 then mfind (arrayStart - 1) s.ends else none
    let start := prev.getD arrayStart
    let ends := if prev.isSome then merase (arrayStart - 1) s.ends else s.ends
    let starts := if prev.isSome then merase start s.starts else s.starts
    -- next free space, l.84-89
    let next := mfind (arrayEnd + 1) starts
    let last := next.getD arrayEnd
    let starts := if next.isSome then merase (arrayEnd + 1) starts else starts
    let ends := if next.isSome then merase last ends else ends
    { s with starts := minsert start last starts, ends := minsert last start ends }

/-- `isSameArrayElement`, l.215-227 -/
def sameElement {V : Type} [DecidableEq V] : Option (Arg V) → Arg V → Bool
  | some (.par a), .par b => b == a
  | some (.op m), .op n => n == m
  | _, _ => false

/-- the number of values likely to be the same, l.147-152 -/
def common {V : Type} [DecidableEq V] (tmp : List (Option (Arg V))) (start : Nat) (args : List (Arg V)) : Nat :=
  (List.range args.length).countP fun i =>
    match args[i]? with
    | some a => sameElement ((tmp[start + i]?).bind id) a
    | none => false

/-- the search for the best location, l.123-164: over the free spaces from the last to the first -/
def scan {V : Type} [DecidableEq V] (tmp : List (Option (Arg V))) (args : List (Arg V)) (black : List Nat) :
    List (Nat × Nat) → Option (Nat × Nat) → Nat → Option (Nat × Nat)
  | [], best, _ => best
  | (st, en) :: rest, best, bestCommon =>
    let space := en - st + 1
    if space < args.length then scan tmp args black rest best bestCommon
    else if black.any (fun b => decide (st ≤ b) && decide (b ≤ en)) then scan tmp args black rest best bestCommon
    else
      match best with
      | none => scan tmp args black rest (some (st, en)) bestCommon
      | some (bs, be) =>
        let c := common tmp st args
        if space < be - bs + 1 ∨ c > bestCommon then
          if c = args.length then some (st, en) else scan tmp args black rest (some (st, en)) c
        else scan tmp args black rest best bestCommon

/-- the new values, l.206-208; an index out of range is undefined behaviour -/
def setTmp {V : Type} (tmp : List (Option (Arg V))) (start : Nat) (args : List (Arg V)) : Except Err (List (Option (Arg V))) :=
  if start + args.length ≤ tmp.length then
    .ok (tmp.take start ++ args.map some ++ tmp.drop (start + args.length))
  else .error .ub

/-- the location in a free space, l.167-183; `at` raises an exception for a missing key -/
def Comp.useFree {V : Type} (s : Comp V) (best : Nat × Nat) (size : Nat) : Except Err (Nat × Comp V) :=
  let starts := merase best.1 s.starts
  if best.2 - best.1 + 1 = size then
    .ok (best.1, { s with starts := starts, ends := merase best.2 s.ends })
  else
    let newFree := best.1 + size
    if (mfind best.2 s.ends).isSome then
      .ok (best.1, { s with starts := minsert newFree best.2 starts, ends := minsert best.2 newFree s.ends })
    else .error .exception

/-- the location at the end, l.184-204. `_idArrayCount - 1 - 1` wraps around to a key which is not there if the
count is 1. -/
def Comp.useEnd {V : Type} (s : Comp V) (black : List Nat) (size : Nat) : Nat × Comp V :=
  let last := if s.count < 2 then none else mfind (s.count - 2) s.ends
  match last with
  | some lastStart =>
    if black.any (fun b => decide (lastStart ≤ b)) then (s.count - 1, { s with count := s.count + size })
    else
      (lastStart, { s with ends := merase (s.count - 2) s.ends, starts := merase lastStart s.starts,
                           count := s.count + size - (s.count - 2 - lastStart + 1) })
  | none => (s.count - 1, { s with count := s.count + size })

/-- `reserveArraySpace`, l.99-213, with the positions of the elements of other arrays among the arguments,
l.105-116, given as `black`. -/
def Comp.reserve {V : Type} [DecidableEq V] (s : Comp V) (args : List (Arg V)) (black : List Nat) : Except Err (Nat × Comp V) :=
  if args.length = 0 then .ok (0, s)
  else
    let r := match scan s.tmp args black s.starts.reverse none 0 with
      | some best => s.useFree best args.length
      | none => .ok (s.useEnd black args.length)
    match r with
    | .error e => .error e
    | .ok (start, s') =>
      match setTmp s'.tmp start args with
      | .error e => .error e
      | .ok tmp => .ok (start, { s' with tmp := tmp })

/-- a history, and the ranges handed out: start and size -/
def Comp.history {V : Type} [DecidableEq V] : List (Ev (Arg V)) → Comp V → (Nat → Nat × Nat) → Except Err (Comp V × (Nat → Nat × Nat))
  | [], s, rng => .ok (s, rng)
  | .reserve a args black :: l, s, rng =>
    match s.reserve args black with
    | .error e => .error e
    | .ok (start, s) => Comp.history l s (fun b => if b = a then (start, args.length) else rng b)
  | .release a :: l, s, rng => Comp.history l (s.addFree (rng a).1 (rng a).2) rng

end Verif.Arrays
