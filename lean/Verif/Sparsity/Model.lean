import Verif.Sparsity.Spec
/-
Model of the sparsity helpers of /repo/include/cppad/cg/util.hpp and extra/sparsity.hpp.

`std::set<size_t>` is the strictly increasing list of its elements. A vector access out of bounds is
undefined behaviour: the result is `none`. Assertions are compiled out.
-/
namespace Verif.Sparsity

/-- `std::set::insert` -/
def setInsert (j : Nat) : List Nat → List Nat
  | [] => [j]
  | k :: ks => if j < k then j :: k :: ks else if j = k then k :: ks else k :: setInsert j ks

/-- `r[i].insert(j)` -/
def insertAt (r : Pattern) (i j : Nat) : Option Pattern :=
  match r[i]? with
  | some row => some (r.set i (setInsert j row))
  | none => none

/-- `isIdentityPattern`, util.hpp l.45-55: returns at the first row which is not `{i}`. The argument
`k` counts the rows left. -/
def isIdentityFrom (p : Pattern) (i : Nat) : Nat → Option Bool
  | 0 => some true
  | k + 1 => do
    let row ← p[i]?
    if row.length ≠ 1 ∨ row.head? ≠ some i then some false else isIdentityFrom p (i + 1) k

def isIdentityPattern (p : Pattern) (mRows : Nat) : Option Bool := isIdentityFrom p 0 mRows

/-- the tests `n == q && isIdentityPattern(p, n)` of l.189-191, l.252 and l.258 (l.320) -/
def squareIdentity (n q : Nat) (p : Pattern) : Option Bool :=
  if n = q then isIdentityPattern p n else some false

/-- `addTransMatrixSparsity`, util.hpp l.82-93 -/
def addTrans (a : Pattern) (mRows : Nat) (result : Pattern) : Option Pattern :=
  (List.range mRows).foldlM (fun r i => do
    let row ← a[i]?
    row.foldlM (fun r j => insertAt r j i) r) result

/-- `transposePattern`, util.hpp l.58-70 -/
def transpose (p : Pattern) (mRows nCols : Nat) : Option Pattern :=
  (List.range mRows).foldlM (fun r i => do
    let row ← p[i]?
    row.foldlM (fun r j => insertAt r j i) r) (List.replicate nCols [])

/-- `addMatrixSparsity`, util.hpp l.117-131. The assertion of l.122 (`a.size() <= mRows`) is the wrong
way round: the loop reads rows `0 .. mRows-1` of `a`. -/
def addMatrix (a : Pattern) (mRows : Nat) (result : Pattern) : Option Pattern :=
  (List.range mRows).foldlM (fun r i => do
    let row ← r[i]?
    let arow ← a[i]?
    if row.isEmpty then pure (r.set i arow)
    else pure (r.set i (arow.foldl (fun s j => setInsert j s) row))) result

/-- `colB` meets `rowA` (the search loops of l.202-207, l.271-276, l.329-334) -/
def meets (xs ys : List Nat) : Bool := xs.any fun k => ys.contains k

/-- `multMatrixMatrixSparsity`, util.hpp l.178-212: `R += A * B` -/
def mult (a b result : Pattern) (m n q : Nat) : Option Pattern := do
  let ident ← squareIdentity n q b
  if ident then addMatrix a m result
  else
    let bt ← transpose b n q
    (List.range q).foldlM (fun r jj => do
      let colB ← bt[jj]?
      if colB.isEmpty then pure r
      else
        (List.range m).foldlM (fun r i => do
          let rowA ← a[i]?
          if meets colB rowA then insertAt r i jj else pure r) r) result

/-- the emptiness tests of l.240-249 and l.308-317: stops at the first non-empty row -/
def isEmptyFrom (p : Pattern) (i : Nat) : Nat → Option Bool
  | 0 => some true
  | k + 1 => do
    let row ← p[i]?
    if row.length > 0 then some false else isEmptyFrom p (i + 1) k

/-- `multMatrixTransMatrixSparsity`, util.hpp l.228-282: `R += A^T * B` -/
def multTrans (a b result : Pattern) (m n q : Nat) : Option Pattern := do
  let empty ← isEmptyFrom b 0 m
  if empty then pure result
  else
    let identA ← squareIdentity m n a
    if identA then addMatrix b n result
    else
      let identB ← squareIdentity m q b
      if identB then addTrans a m result
      else
        let at' ← transpose a m n
        let bt ← transpose b m q
        (List.range q).foldlM (fun r jj => do
          let colB ← bt[jj]?
          if colB.isEmpty then pure r
          else
            (List.range n).foldlM (fun r i => do
              let rowAt ← at'[i]?
              if rowAt.isEmpty then pure r
              else if meets colB rowAt then insertAt r i jj else pure r) r) result

/-- `multMatrixMatrixSparsityTrans`, util.hpp l.297-337: `(R += A * B)^T` given `A^T` -/
def multT (aT b rT : Pattern) (m n q : Nat) : Option Pattern := do
  let empty ← isEmptyFrom b 0 m
  if empty then pure rT
  else
    let identA ← squareIdentity m q aT
    if identA then addTrans b m rT
    else
      let a ← transpose aT m q
      let bT ← transpose b m n
      (List.range n).foldlM (fun r jj =>
        (List.range q).foldlM (fun r i => do
          let arow ← a[i]?
          let col ← bT[jj]?
          if meets arow col then insertAt r jj i else pure r) r) rT

/-- `intersects`, util.hpp l.414-438 -/
def intersects (a b : List Nat) : Bool :=
  match a, b with
  | [], _ => false
  | _, [] => false
  | a0 :: as, b0 :: bs =>
    if (a0 :: as).getLast! < b0 ∨ a0 > (b0 :: bs).getLast! then false
    else if as.length < bs.length then (a0 :: as).any fun k => (b0 :: bs).contains k
    else (b0 :: bs).any fun k => (a0 :: as).contains k

/-- `generateSparsityIndexes` for sets, sparsity.hpp l.270-296. The two vectors are allocated with the
number of non-zeros and filled consecutively, which is modelled by appending. -/
def indexesFrom : Nat → Pattern → List Nat × List Nat
  | _, [] => ([], [])
  | i, row :: rows =>
    let r := indexesFrom (i + 1) rows
    (List.replicate row.length i ++ r.1, row ++ r.2)

def indexes (p : Pattern) : List Nat × List Nat := indexesFrom 0 p

/-- number of non-zeros, sparsity.hpp l.276-279 -/
def nnz (p : Pattern) : Nat := (p.map (·.length)).sum

/-- `generateSparsityIndexes` for a flag per element, sparsity.hpp l.239-268; the vectors hold as
many elements as there are flags set, writing past them is undefined -/
def indexesBool (s : List Bool) (m n : Nat) : Option (List Nat × List Nat) := do
  let r ← (List.range m).foldlM (fun (acc : List Nat × List Nat) i =>
    (List.range n).foldlM (fun (acc : List Nat × List Nat) j => do
      let f ← s[i * n + j]?
      if f then
        if acc.1.length < s.count true then pure (acc.1 ++ [i], acc.2 ++ [j]) else none
      else pure acc) acc) (([], []) : List Nat × List Nat)
  pure r

/-- `generateSparsitySet`, sparsity.hpp l.298-309 -/
def generateSet (row col : List Nat) (sparsity : Pattern) : Option Pattern :=
  (List.range row.length).foldlM (fun r e => do
    let i ← row[e]?
    let j ← col[e]?
    insertAt r i j) sparsity

end Verif.Sparsity
