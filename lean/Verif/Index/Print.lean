import Verif.Index.Model
import Verif.Index.CSem
import Mathlib.Data.BitVec

/-
Model of the printing of index patterns, /repo/include/cppad/cg/lang/c/language_c_index_patterns.hpp.
The text is a list of tokens (blanks separate tokens, a negative number is a minus sign and a literal).
-/
namespace Verif.Index

open Verif.CExpr

/-- tokens of index expressions: literals are natural numbers -/
abbrev ITok := Tok Nat

/-- `os << z` for a `long` -/
def lit (z : Int) : List ITok := if z < 0 then [.op .sub, .num z.natAbs] else [.num z.natAbs]

/-- `linearIndexPattern2String`, l.278-316 -/
def linToks (p : Lin (BitVec 64)) (index : String) : List ITok :=
  let dy := p.dy.toInt
  let b := p.b.toInt
  (if dy ≠ 0 then
    (if p.xOffset ≠ 0 then [Tok.lp] else []) ++ [.id index] ++
    (if p.xOffset ≠ 0 then Tok.op .sub :: lit p.xOffset ++ [.rp] else []) ++
    (if p.dx ≠ 1 then .op .div :: lit p.dx else []) ++
    (if dy ≠ 1 then .op .mul :: lit dy else [])
  else if b = 0 then [.num 0]
  else []) ++
  (if b ≠ 0 then (if dy ≠ 0 then [Tok.op .add] else []) ++ lit b else [])

/-- the sections, l.215-236 -/
def secToks (index : String) : List (Nat × Lin (BitVec 64)) → List ITok
  | [] => []
  | [(_, p)] => linToks p index
  | (_, p) :: (s, q) :: rest =>
    [.lp, .id index, .op .lt, .num s, .rp, .quest] ++ linToks p index ++ .colon :: secToks index ((s, q) :: rest)

/-- `indexPattern2String` for patterns of one index; `name`: the name of the array of a random pattern,
l.206-236, 258-264 -/
def patToks (name : String) : Pat (BitVec 64) → String → List ITok
  | .linear p, index => linToks p index
  | .sectioned secs, index => secToks index secs
  | .random _, index => [.id name, .lb, .id index, .rb]

/-- `indexPattern2String` for planes, l.238-257 -/
def planeToks (name1 name2 : String) (p : Plane (BitVec 64)) (i j : String) : List ITok :=
  let useParens := p.p1.isSome && p.p2.isSome
  (if useParens then [Tok.lp] else []) ++
  (match p.p1 with | some f => patToks name1 f i | none => []) ++
  (if useParens then [Tok.rp, Tok.op .add, Tok.lp] else []) ++
  (match p.p2 with | some f => patToks name2 f j | none => []) ++
  (if useParens then [Tok.rp] else [])

/-- `indexPattern2String` for a two dimensional random pattern, l.265-271 -/
def random2Toks (name i j : String) : List ITok := [.id name, .lb, .id i, .rb, .lb, .id j, .rb]

/-! ### offset patterns, l.319-438 -/

variable {R : Type} [CommRing R] [DecidableEq R]

/-- `isOffsetBy` for linear patterns, l.356-364 -/
def linOffset (p ref : Lin R) (offset : R) : Bool :=
  ref.dx = p.dx ∧ ref.dy = p.dy ∧ ref.xOffset = p.xOffset ∧ ref.b + offset = p.b

/-- the loop over the sections, l.384-403 -/
def secOffsetLoop : List (Nat × Lin R) → List (Nat × Lin R) → R → Bool
  | [], _, _ => true
  | (s, p) :: secs, (s', q) :: refs, o => if s' ≠ s then false else if !linOffset p q o then false else secOffsetLoop secs refs o
  | _ :: _, [], _ => false

/-- `isOffsetBy`, l.319-353, 377-406 -/
def isOffsetBy : Pat R → Pat R → R → Bool
  | .linear p, .linear q, o => linOffset p q o
  | .sectioned s, .sectioned r, o => if r.length ≠ s.length then false else secOffsetLoop s r o
  | _, _, _ => false

/-- `encapsulateIndexPattern`, l.409-438 -/
def encapsulate : Pat R → R → Option (Plane R)
  | .linear p, starti => some ⟨some (.linear { p with b := p.b - starti }), some (.linear ⟨0, 1, 1, 0⟩)⟩
  | .sectioned secs, starti =>
    some ⟨some (.sectioned (secs.map fun q => (q.1, { q.2 with b := q.2.b - starti }))), some (.linear ⟨0, 1, 1, 0⟩)⟩
  | .random _, _ => none

/-! ### tables, l.56-179 -/

/-- `y[p.first] = p.second` on a vector of zeros of size `n`, l.68-70 -/
def fillVec (n : Nat) (pts : List (Nat × Nat)) : List Nat := pts.foldl (fun v p => v.set p.1 p.2) (List.replicate n 0)

/-- largest key plus one: `x2y.rbegin()->first + 1` -/
def keyEnd {β : Type} (pts : List (Nat × β)) : Nat := match pts.getLast? with | some p => p.1 + 1 | none => 0

/-- initializer printed by `printStaticIndexArray`, l.113-125 -/
def arrayToks : List Nat → List DTok
  | [] => [.open_, .close]
  | v :: rest => .open_ :: .num v :: (rest.flatMap fun w => [.comma, .num w]) ++ [.close]

/-- `Random1DIndexPattern` declaration, l.64-73: size and initializer -/
def declare1 (pts : List (Nat × Nat)) : Nat × List DTok :=
  let y := fillVec (keyEnd pts) pts
  (y.length, arrayToks y)

/-- one row, l.158-171: `y` is the next column -/
def rowToks (last : Nat) : List (Nat × Nat) → Nat → List DTok
  | [], _ => []
  | (k, z) :: rest, y =>
    ((List.replicate (k - y) [DTok.num 0, DTok.comma]).flatten) ++ [.num z] ++
    (if k ≠ last then [DTok.comma] else []) ++ rowToks last rest (k + 1)

/-- rows, l.148-177: `x` is the next row -/
def rowsToks (last : Nat) : List (Nat × List (Nat × Nat)) → Nat → List DTok
  | [], _ => []
  | (k, row) :: rest, x =>
    ((List.replicate (k - x) [DTok.open_, DTok.close, DTok.comma]).flatten) ++
    .open_ :: rowToks (keyEnd row - 1) row 0 ++ [.close] ++
    (if k ≠ last then [DTok.comma] else []) ++ rowsToks last rest (k + 1)

/-- `printStaticIndexMatrix`, l.128-179: rows, columns and initializer -/
def declare2 (pts : List (Nat × List (Nat × Nat))) : Nat × Nat × List DTok :=
  (keyEnd pts, (pts.map fun r => keyEnd r.2).foldl max 0, .open_ :: rowsToks (keyEnd pts - 1) pts 0 ++ [.close])

/-! ### names of the tables, l.23-53 -/

/-- `_C_STATIC_INDEX_ARRAY << c` -/
def tableName (pre : String) (c : Nat) : String := pre ++ Nat.repr c

/-- `do { name = prefix + c; c++ } while (used(name))`, l.42-48: the number which is used. The fuel is the
number of used names. -/
def freshIndex (pre : String) (used : List String) : Nat → Nat → Nat
  | 0, c => c
  | fuel + 1, c => if tableName pre c ∈ used then freshIndex pre used fuel (c + 1) else c

/-- l.36-51: patterns without a name (the empty one) get one -/
def nameLoop (pre : String) (used : List String) : List String → Nat → List String
  | [], _ => []
  | n :: rest, c =>
    if n = "" then
      tableName pre (freshIndex pre used used.length c) :: nameLoop pre used rest (freshIndex pre used used.length c + 1)
    else n :: nameLoop pre used rest c

/-- `generateNames4RandomIndexPatterns`, l.23-53 -/
def nameTables (pre : String) (names : List String) : List String :=
  nameLoop pre (names.filter (· ≠ "")) names 0

end Verif.Index
