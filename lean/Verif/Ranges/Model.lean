import Verif.Ranges.Spec
/-
Model of /repo/include/cppad/cg/range.hpp and of the generation of iteration conditions.

Simplification: a flat vector (start1, end1, start2, end2, ...) of even size is a list of pairs,
except for `combineNonOverlap` where the flat representation matters.
-/
namespace Verif.Ranges

/-- `std::pair` comparison used by `std::lower_bound` in range.hpp l.80 -/
def pairLt (a b : Nat × Nat) : Bool := a.1 < b.1 || (a.1 == b.1 && a.2 < b.2)

/-- range.hpp l.77-83: each new range is inserted at `std::lower_bound(begin, end, p)`, the search
for the next one starts after it. `lower_bound` on an ordered vector is the first element not
smaller than `p`. -/
def insertAll : List (Nat × Nat) → List (Nat × Nat) → List (Nat × Nat)
  | s, [] => s
  | s, p :: ps =>
    s.takeWhile (pairLt · p) ++ p :: insertAll (s.dropWhile (pairLt · p)) ps

/-- range.hpp l.85-104: `top` is `result.back()`. -/
def mergeLoop : (Nat × Nat) → List (Nat × Nat) → List (Nat × Nat)
  | top, [] => [top]
  | top, c :: cs =>
    if top.2 = sizeMax then [top]                       -- l.92-93
    else if top.2 + 1 < c.1 then top :: mergeLoop c cs  -- l.97-98
    else if top.2 < c.2 then mergeLoop (top.1, c.2) cs  -- l.99-102
    else mergeLoop top cs

/-- range.hpp l.63-111 `combineOverlapingIterationRanges` -/
def combineOverlap (iter new : List (Nat × Nat)) : List (Nat × Nat) :=
  if iter = [] then new
  else if new = [] then iter
  else match insertAll iter new with
    | [] => []            -- cannot happen (l.87 reads sorted[0])
    | t :: ts => mergeLoop t ts

/-- range.hpp l.41-53, the loop of `combineNonOverlapingIterationRanges` on flat vectors.
`before` is the part of the vector in front of the iterator `itPos`, `here` the part from it on. -/
def combineNonOverlapGo : List Nat → List Nat → List Nat → List Nat
  | before, here, [] => before ++ here
  | before, here, pos :: rest =>
    let lo := here.takeWhile (· < pos)
    let hi := here.dropWhile (· < pos)
    match hi with
    | [] => before ++ lo ++ (pos :: rest)                       -- l.44-46 insert the rest, break
    | h :: hs =>
      if h = pos then combineNonOverlapGo (before ++ lo) hs rest          -- l.47-49 erase
      else combineNonOverlapGo (before ++ lo) (pos :: h :: hs) rest       -- l.50-52 insert (itPos stays on it)

/-- range.hpp l.27-55 -/
def combineNonOverlap (iter new : List Nat) : List Nat :=
  if iter = [] then new
  else if new = [] then iter
  else combineNonOverlapGo [] iter new

/-- range.hpp l.138-147, `e` is the end of the previous range -/
def invertGo : Nat → List (Nat × Nat) → List (Nat × Nat)
  | e, [] => if e ≠ sizeMax then [(e + 1, sizeMax)] else []
  | e, r :: rs => (e + 1, r.1 - 1) :: invertGo r.2 rs

/-- range.hpp l.122-150 `invertIterationRanges` -/
def invert : List (Nat × Nat) → List (Nat × Nat)
  | [] => [(0, sizeMax)]
  | r :: rs => (if r.1 ≠ 0 then [(0, r.1 - 1)] else []) ++ invertGo r.2 rs

/-- range.hpp l.174-200, the `Else` case of `ifBranchIterationRanges`.
`start` are the ranges of the `StartIf` condition, `elseIfs` the ranges of the `ElseIf` conditions
(last one first). The do-while loop (l.180-194) begins at the branch just before the `Else` and goes
on only while the *next* branch is an `ElseIf`. -/
def elseRanges (start : List (Nat × Nat)) (elseIfs : List (List (Nat × Nat))) : List (Nat × Nat) :=
  match elseIfs with
  | [] => invert (combineOverlap [] start)
  | _ => invert (elseIfs.foldl combineOverlap [])

/-! ### createIndexConditionExpression -/

/-- `allIters[k] = b` on a `std::map<size_t,bool>` kept as an ordered association list
(model_c_source_gen_loops.hpp l.395-401) -/
def mapSet : List (Nat × Bool) → Nat → Bool → List (Nat × Bool)
  | [], k, b => [(k, b)]
  | (k', b') :: m, k, b =>
    if k < k' then (k, b) :: (k', b') :: m
    else if k = k' then (k, b) :: m
    else (k', b') :: mapSet m k b

/-- model_c_source_gen_loops.hpp l.395-401 -/
def allIters (iterations used : List Nat) : List (Nat × Bool) :=
  iterations.foldl (fun m it => mapSet m it true)
    (used.foldl (fun m it => mapSet m it false) [])

/-- the iterators `min`, `max`, `minNew`, `maxNew` (l.408-415) -/
structure Run where
  min : Nat
  max : Nat
  minNew : Option Nat
  maxNew : Option Nat
deriving Repr, DecidableEq

/-- model_c_source_gen_loops.hpp l.417-428: extends a run of consecutive iterations -/
def runGo : Run → List (Nat × Bool) → Run × List (Nat × Bool)
  | r, [] => (r, [])
  | r, (k, b) :: rest =>
    if k ≠ r.max + 1 then (r, (k, b) :: rest)
    else runGo { min := r.min, max := k,
                 minNew := if b then (if r.minNew = none then some k else r.minNew) else r.minNew,
                 maxNew := if b then some k else r.maxNew } rest

/-- model_c_source_gen_loops.hpp l.408-415 -/
def runStart (k : Nat) (b : Bool) : Run :=
  { min := k, max := k, minNew := if b then some k else none, maxNew := if b then some k else none }

/-- model_c_source_gen_loops.hpp l.430-448 -/
def runInfo (maxIter : Nat) (r : Run) : List (Nat × Nat) :=
  match r.minNew, r.maxNew with
  | some a, some b =>
    if b = a then [(a, b)]
    else [(if r.min = 0 then r.min else a, if r.max = maxIter then sizeMax else b)]
  | _, _ => []

theorem runGo_length (r : Run) (l : List (Nat × Bool)) : (runGo r l).2.length ≤ l.length := by
  induction l generalizing r with
  | nil => simp [runGo]
  | cons p rest ih =>
    obtain ⟨k, b⟩ := p
    unfold runGo
    split
    · exact Nat.le_refl _
    · exact Nat.le_succ_of_le (ih _)

/-- model_c_source_gen_loops.hpp l.406-449: the `while` loop over the map -/
def condScan (maxIter : Nat) : List (Nat × Bool) → List (Nat × Nat)
  | [] => []
  | (k, b) :: rest =>
    runInfo maxIter (runGo (runStart k b) rest).1 ++
      condScan maxIter (runGo (runStart k b) rest).2
termination_by l => l.length
decreasing_by
  have := runGo_length (runStart k b) rest
  simp only [List.length_cons]; omega

/-- model_c_source_gen_loops.hpp l.390-452 `createIndexConditionExpression` -/
def createIndexCondition (iterations used : List Nat) (maxIter : Nat) : List (Nat × Nat) :=
  condScan maxIter (allIters iterations used)

/-! ### printed condition -/

/-- abstract syntax of the printed C condition; `idx` is the loop index variable -/
inductive CCond
  | idxEq (n : Nat)        -- `j == n` or `n == j`
  | idxLe (n : Nat)        -- `j <= n`
  | leIdx (n : Nat)        -- `n <= j`
  | and (a b : CCond)
  | or (a b : CCond)
deriving Repr, DecidableEq

/-- meaning of the C condition for loop index value `j` -/
def CCond.eval (j : Nat) : CCond → Bool
  | .idxEq n => j == n
  | .idxLe n => j ≤ n
  | .leIdx n => n ≤ j
  | .and a b => a.eval j && b.eval j
  | .or a b => a.eval j || b.eval j

/-- language_c.hpp l.573-592: condition printed for one range -/
def rangeCond (r : Nat × Nat) : CCond :=
  if r.1 = r.2 then .idxEq r.1
  else if r.1 = 0 then .idxLe r.2
  else if r.2 = sizeMax then .leIdx r.1
  else if r.2 - r.1 = 1 then .or (.idxEq r.1) (.idxEq r.2)
  else .and (.leIdx r.1) (.idxLe r.2)

/-- language_c.hpp l.563-594 `printIndexCondExpr`; the empty list violates the asserted
precondition (l.566): no condition is printed. -/
def printCond : List (Nat × Nat) → Option CCond
  | [] => none
  | [r] => some (rangeCond r)
  | r :: rs => (printCond rs).map (.or (rangeCond r))

/-! ### if / else if / else chains -/

/-- One branch of the chain: its iteration set and its condition (`none` = `else`) -/
structure Branch where
  iterations : List Nat
  cond : Option (List (Nat × Nat))
deriving Repr, DecidableEq

/-- `usedIter.insert(iterations.begin(), iterations.end())` on an ordered set -/
def setInsert : List Nat → Nat → List Nat
  | [], k => [k]
  | k' :: m, k => if k < k' then k :: k' :: m else if k = k' then k' :: m else k' :: setInsert m k

/-- model_c_source_gen_loops.hpp l.487-547 (case `!reusingIfElse`): walks over the branches in key
order. `first` is true while `ifBranch == nullptr`. The outcome `none` is the null dereference of
`*ifBranch` at l.505 (an `else` without an `if`). -/
def buildChain (maxIter nLocalIter : Nat) :
    Bool → List Nat → List (List Nat) → Option (List Branch)
  | _, _, [] => some []
  | first, used, its :: rest =>
    if used.length + its.length = nLocalIter then
      if first then none
      else (buildChain maxIter nLocalIter false used rest).map
        (⟨its, none⟩ :: ·)
    else
      (buildChain maxIter nLocalIter false (its.foldl setInsert used) rest).map
        (⟨its, some (createIndexCondition its used maxIter)⟩ :: ·)

/-- which branch of a printed `if / else if / else` chain runs for loop index `j`
(position in the chain) -/
def runChain (j : Nat) : List Branch → Option Nat
  | [] => none
  | b :: bs =>
    match b.cond with
    | none => some 0
    | some c =>
      match printCond c with
      | none => none
      | some e => if e.eval j then some 0 else (runChain j bs).map (· + 1)

end Verif.Ranges
