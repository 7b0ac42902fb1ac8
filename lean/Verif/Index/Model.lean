import Mathlib.Algebra.Ring.Defs
import Mathlib.Algebra.Ring.Int.Defs

/-
Model of the index patterns, /repo/include/cppad/cg/patterns/index/:
linear_index_pattern.hpp l.76-78, sectioned_index_pattern.hpp l.61-208, index_pattern_impl.hpp l.22-51,
plane_2d_index_pattern.hpp l.78-189, random_1d_index_pattern.hpp.

Iterations (keys) are natural numbers and differences of keys integers: the code keeps them in `size_t`
and `long`, so keys are assumed to be below 2^63. Indexes (values), slopes and constant terms are elements
of an arbitrary commutative ring `R`: `BitVec 64` is the machine arithmetic of the code (`size_t` and
`long` converted to each other, wrapping), `Int` the ideal one.

Simplifications: signed overflow wraps; a `std::map` is a list sorted by key and an iterator a position in
it; memory management is left out.
-/
namespace Verif.Index

variable {R : Type} [CommRing R] [DecidableEq R]

/-- `LinearIndexPattern` -/
structure Lin (R : Type) where
  xOffset : Int
  dy : R
  dx : Int
  b : R
deriving DecidableEq

/-- `LinearIndexPattern::evaluate`, linear_index_pattern.hpp l.76-78 (C++ division truncates) -/
def Lin.eval (p : Lin R) (x : Nat) : R := ((((x : Int) - p.xOffset).tdiv p.dx : Int) : R) * p.dy + p.b

/-- `linearSections[x] = p` (a `std::map`) -/
def put {β : Type} (x : Nat) (p : β) : List (Nat × β) → List (Nat × β)
  | [] => [(x, p)]
  | (y, q) :: rest => if x < y then (x, p) :: (y, q) :: rest else if x = y then (x, p) :: rest else (y, q) :: put x p rest

/-- first position from `k` on where the points leave the pattern, or the end: l.154-162 -/
def leave (p : Lin R) : List (Nat × R) → Nat → Nat
  | [], k => k
  | (x, y) :: pts, k => if y ≠ p.eval x then k else leave p pts (k + 1)

/-- the linear pattern starting at the points `pts` (which begin at position `k`) and the position of the
next section: l.126-163 -/
def startSection : List (Nat × R) → Nat → Lin R × Nat
  | (x0, y0) :: (x1, y1) :: rest, k =>
    let dy := y1 - y0
    let p : Lin R :=
      if dy ≠ 0 then
        let dx := (x1 : Int) - x0
        let xOffset := Int.tmod x0 dx
        ⟨xOffset, dy, dx, y0 - ((((x0 : Int) - xOffset).tdiv dx : Int) : R) * dy⟩
      else ⟨0, 0, 1, y0⟩
    (p, leave p ((x1, y1) :: rest) (k + 1))
  | (_, y0) :: [], k => (⟨0, 0, 1, y0⟩, k + 1)
  | [], k => (⟨0, 0, 1, 0⟩, k)

/-- the loop which takes elements out of the previous section, l.170-189: position, previous pattern -/
def steal (pts : List (Nat × R)) (b : R) (prevStart : Nat) : Nat → Lin R → Nat × Lin R
  | 0, p => (0, p)
  | k + 1, p => match pts[k]? with
    | none => (k + 1, p)
    | some (x, _) =>
      if p.eval x ≠ b then (k + 1, p)
      else
        let p' := if prevStart + 1 = k then
            match pts[prevStart]? with
            | some (x', _) => { p with dy := 0, b := p.eval x' }
            | none => p
          else p
        steal pts b prevStart k p'

/-- `detectLinearSections` for a map, l.112-208. `prev`: position and key of the start of the previous
section and its pattern. -/
def sectionsLoop (pts : List (Nat × R)) (maxCount : Nat) :
    Nat → Nat → Option (Nat × Nat × Lin R) → List (Nat × Lin R) → List (Nat × Lin R)
  | 0, _, _, secs => secs
  | fuel + 1, k, prev, secs =>
    match pts.drop k with
    | [] => secs
    | (x0, y0) :: rest =>
      let (p, next) := startSection ((x0, y0) :: rest) k
      let (start, secs) : Nat × List (Nat × Lin R) :=
        match prev with
        | some (prevStart, prevKey, prevPat) =>
          if p.dy = 0 then
            let (k', prevPat') := steal pts p.b prevStart k prevPat
            (k', put prevKey prevPat' secs)
          else (k, secs)
        | none => (k, secs)
      let key := match pts[start]? with | some (x, _) => x | none => x0
      let secs := put key p secs
      if secs.length = maxCount ∧ next ≠ pts.length then []
      else sectionsLoop pts maxCount fuel next (some (start, key, p)) secs

def detectLinearSections (pts : List (Nat × R)) (maxCount : Nat) : List (Nat × Lin R) :=
  sectionsLoop pts maxCount pts.length 0 none []

/-! ### the version for vectors, l.61-106 -/

/-- l.85-90 -/
def leaveV (ys : List R) (dy b : R) : Nat → Nat → Nat
  | 0, x => x
  | fuel + 1, x => match ys[x]? with
    | none => x
    | some y => if y ≠ dy * x + b then x else leaveV ys dy b fuel (x + 1)

/-- l.76-91 -/
def startSectionV (ys : List R) (xStart : Nat) : Lin R × Nat :=
  match ys[xStart]?, ys[xStart + 1]? with
  | some y0, none => (⟨0, 0, 1, y0⟩, xStart + 1)
  | some y0, some y1 =>
    let dy := y1 - y0
    let b := y0 - dy * xStart
    (⟨0, dy, 1, b⟩, leaveV ys dy b ys.length (xStart + 2))
  | none, _ => (⟨0, 0, 1, 0⟩, xStart)

/-- l.96-105 -/
def stealV (b : R) (prevXStart : Nat) : Nat → Lin R → Nat × Lin R
  | 0, p => (0, p)
  | x + 1, p =>
    if p.eval x = b then
      stealV b prevXStart x (if prevXStart + 1 = x then { p with dy := 0, b := p.eval prevXStart } else p)
    else (x + 1, p)

/-- `detectLinearSections` for a vector -/
def sectionsLoopV (ys : List R) (maxCount : Nat) : Nat → Nat → Option (Nat × Lin R) → List (Nat × Lin R) → List (Nat × Lin R)
  | 0, _, _, secs => secs
  | fuel + 1, xStart, prev, secs =>
    if xStart = ys.length then secs
    else
      let (p, lastLinear) := startSectionV ys xStart
      let (start, secs) : Nat × List (Nat × Lin R) :=
        match prev with
        | some (prevXStart, prevPat) =>
          if p.dy = 0 then
            let (x', prevPat') := stealV p.b prevXStart xStart prevPat
            (x', put prevXStart prevPat' secs)
          else (xStart, secs)
        | none => (xStart, secs)
      let secs := put start p secs
      if secs.length = maxCount ∧ lastLinear ≠ ys.length then []
      else sectionsLoopV ys maxCount fuel lastLinear (some (start, p)) secs

def detectLinearSectionsV (ys : List R) (maxCount : Nat) : List (Nat × Lin R) :=
  sectionsLoopV ys maxCount ys.length 0 none []

/-! ### detection -/

/-- index patterns of one index -/
inductive Pat (R : Type)
  | linear (p : Lin R)
  | sectioned (secs : List (Nat × Lin R))
  | random (pts : List (Nat × R))
deriving DecidableEq

/-- the section used for `x`: the last one which starts at or before `x` -/
def lookup : List (Nat × Lin R) → Nat → Option (Lin R)
  | [], _ => none
  | (s, p) :: rest, x => if s ≤ x then (match lookup rest x with | some q => some q | none => some p) else none

/-- value of a pattern -/
def Pat.eval : Pat R → Nat → Option R
  | .linear p, x => some (p.eval x)
  | .sectioned secs, x => (lookup secs x).map fun p => p.eval x
  | .random pts, x => (pts.find? fun q => q.1 = x).map (·.2)

/-- `min(max(3, size / 4), 8)`, index_pattern_impl.hpp l.26, 42 -/
def maxSections (n : Nat) : Nat := min (max 3 (n / 4)) 8

/-- choice of the kind of pattern, l.29-35, 45-51 -/
def choose (secs : List (Nat × Lin R)) (pts : List (Nat × R)) : Pat R :=
  match secs with
  | [(_, p)] => .linear p
  | [] => .random pts
  | secs => .sectioned secs

/-- `IndexPattern::detect(const std::map&)`, l.39-52 -/
def detect (pts : List (Nat × R)) : Pat R := choose (detectLinearSections pts (maxSections pts.length)) pts

/-- `Random1DIndexPattern(const VectorSizeT&)`, random_1d_index_pattern.hpp -/
def enum (ys : List R) : List (Nat × R) := (List.range ys.length).zip ys

/-- `IndexPattern::detect(const VectorSizeT&)`, l.22-37 -/
def detectV (ys : List R) : Pat R := choose (detectLinearSectionsV ys (maxSections ys.length)) (enum ys)

/-! ### planes -/

/-- `Plane2DIndexPattern`: `none` is a null pointer -/
structure Plane (R : Type) where
  p1 : Option (Pat R)
  p2 : Option (Pat R)
deriving DecidableEq

/-- value: sum of the patterns which are present -/
def Plane.eval (p : Plane R) (x y : Nat) : Option R :=
  match p.p1, p.p2 with
  | some f, some g => match f.eval x, g.eval y with
    | some u, some v => some (u + v)
    | _, _ => none
  | some f, none => f.eval x
  | none, some g => g.eval y
  | none, none => some 0

/-- l.91-111: the map from x to z when there is always the same single y; empty otherwise -/
def singleY (y : Nat) : List (Nat × List (Nat × R)) → Option (List (Nat × R))
  | [] => some []
  | (x, [(y', z)]) :: rest => if y = y' then (singleY y rest).map ((x, z) :: ·) else none
  | _ :: _ => none

/-- l.128-137, one x: add the offsets of its points -/
def addOffsets (zFirst : R) : List (Nat × R) → List (Nat × R) → Option (List (Nat × R))
  | [], offs => some offs
  | (y, z) :: rest, offs => match offs.find? fun q => q.1 = y with
    | none => addOffsets zFirst rest (put y (z - zFirst) offs)
    | some (_, o) => if o ≠ z - zFirst then none else addOffsets zFirst rest offs

/-- `y2z.begin()->second` -/
def firstZ : List (Nat × R) → R
  | (_, z) :: _ => z
  | [] => 0

/-- `x2y2z.begin()->second.begin()->first` -/
def firstY : List (Nat × List (Nat × R)) → Nat
  | (_, (y, _) :: _) :: _ => y
  | _ => 0

/-- l.117-139: first values by x and offsets by y -/
def splitPlane : List (Nat × List (Nat × R)) → List (Nat × R) → Option (List (Nat × R) × List (Nat × R))
  | [], offs => some ([], offs)
  | (x, row) :: rest, offs =>
    let zFirst := firstZ row
    match addOffsets zFirst row offs with
    | none => none
    | some offs => (splitPlane rest offs).map fun r => ((x, zFirst) :: r.1, r.2)

/-- l.147-157, 163-174 -/
def ofSections : List (Nat × Lin R) → Option (Pat R)
  | [] => none
  | [(_, p)] => some (.linear p)
  | secs => some (.sectioned secs)

/-- `Plane2DIndexPattern::detectPlane2D`, l.78-189 -/
def detectPlane (pts : List (Nat × List (Nat × R))) : Option (Plane R) :=
  match pts with
  | [(_, row)] => some ⟨none, some (detect row)⟩
  | _ =>
    match singleY (firstY pts) pts with
    | some (q :: x2z) => some ⟨some (detect (q :: x2z)), none⟩
    | _ =>
      match splitPlane pts [] with
      | none => none
      | some (starts, offs) =>
        match ofSections (detectLinearSections starts 2), ofSections (detectLinearSections offs 2) with
        | some fx, some fy =>
          match fx, fy with
          | .linear px, .linear py =>
            if px.dy = 0 ∧ py.dy = 0 then some ⟨some (.linear { px with b := px.b + py.b }), none⟩
            else some ⟨some fx, some fy⟩
          | _, _ => some ⟨some fx, some fy⟩
        | _, _ => none

end Verif.Index
