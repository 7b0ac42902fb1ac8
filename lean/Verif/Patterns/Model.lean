import Verif.Patterns.Spec
/-
Model of the search for equations with the same pattern: `EquationPattern` (patterns/equation_pattern.hpp) and
`DependentPatternMatcher::findRelatedVariables` (patterns/dependent_pattern_matcher.hpp l.786-843), and of what an iteration
of the loop made from a pattern computes (patterns/loop.hpp).

There is one handler. Parameters are compared by a key: in C++ `0.0 == -0.0`, so both have one key; NaN, which is not
equal to itself, is excluded. `operationEO2Reference` is not modelled, it is only used for loops with several equations.
Dereferencing a null pointer is `none`, as is insufficient fuel.
-/
namespace Verif.Patterns

variable {V K : Type}

/-- the loops over aliases, equation_pattern.hpp l.274-285 -/
def skip (G : Graph V) : Nat → Nat → Option Nat
  | 0, _ => none
  | f + 1, i =>
    if (G i).op = .alias_ then
      match (G i).args with
      | .node j :: _ => if (G j).op = .inv then some i else skip G f j
      | _ => none
    else some i

/-- independents used by an operation: operation → argument → map from dependents to independents -/
abbrev Table := Nat → Nat → List (Nat × Nat)

/-- `m[k] = v` for a map -/
def put (m : List (Nat × Nat)) (k v : Nat) : List (Nat × Nat) := (k, v) :: m.filter (·.1 != k)

def get (m : List (Nat × Nat)) (k : Nat) : Option Nat := (m.find? (·.1 == k)).map (·.2)

/-- the members changed by a comparison: colors of the nodes, the next color, the independents -/
structure St where
  color : Nat → Nat
  cmp : Nat
  tbl : Table

def setColor (c : Nat → Nat) (i v : Nat) : Nat → Nat := fun k => if k = i then v else c k

/-- `saveIndependent`, l.364-392; `refDep` is `depRefIndex`, `cur` is `currDep_` and `cst` are the positions without index -/
def saveIndependent (G : Graph V) (cst : Nat → Nat → Bool) (refDep cur : Nat) (op a j1 j2 : Nat) (st : St) : Bool × St :=
  if (G j1).op ≠ .inv ∨ (G j2).op ≠ .inv then (false, st)
  else if cst op a then (false, st)
  else
    let m := st.tbl op a
    let m := if m.isEmpty then put m refDep j1 else m
    (true, { st with tbl := fun o b => if o = op ∧ b = a then put m cur j2 else st.tbl o b })

/-- the loop over the arguments, l.330-353; `cmpNode` is the recursive call -/
def compareArgs [DecidableEq K] (key : V → K) (G : Graph V) (cst : Nat → Nat → Bool) (refDep cur : Nat)
    (cmpNode : Nat → Nat → St → Option (Bool × St)) (r : Nat) :
    Nat → List (Arg V) → List (Arg V) → St → Option (Bool × St)
  | _, [], [], st => some (true, st)
  | a, .par c :: as, b :: bs, st =>
    match b with
    | .par c' => if key c = key c' then compareArgs key G cst refDep cur cmpNode r (a + 1) as bs st else some (false, st)
    | .node _ => some (false, st)
  | a, .node j :: as, b :: bs, st =>
    match b with
    | .par _ => some (false, st)
    | .node j' =>
      match (if (G j).op = .inv then some (saveIndependent G cst refDep cur r a j j' st) else cmpNode j j' st) with
      | none => none
      | some (false, st) => some (false, st)
      | some (true, st) => compareArgs key G cst refDep cur cmpNode r (a + 1) as bs st
  | _, _, _, st => some (false, st)

/-- `comparePath` of two nodes, l.265-356 -/
def comparePath [DecidableEq K] (key : V → K) (G : Graph V) (cst : Nat → Nat → Bool) (refDep cur minColor : Nat) :
    Nat → Nat → Nat → St → Option (Bool × St)
  | 0, _, _, _ => none
  | f + 1, r, s, st =>
    match skip G (f + 1) r, skip G (s + 1) s with
    | some r, some s =>
      if st.color s ≥ minColor ∧ st.color r ≥ minColor ∧ st.color s = st.color r then some (true, st)
      else
        let st := { st with color := setColor (setColor st.color r st.cmp) s st.cmp, cmp := st.cmp + 1 }
        if (G r).op ≠ (G s).op then some (false, st)
        else if (G r).info ≠ (G s).info then some (false, st)
        else if (G r).args.length ≠ (G s).args.length then some (false, st)
        else compareArgs key G cst refDep cur (comparePath key G cst refDep cur minColor f) r 0 (G r).args (G s).args st
    | _, _ => none

/-- a pattern: the reference, the dependents, the independents by position and the positions without index -/
structure Eqn where
  ref : Nat
  deps : List Nat
  tbl : Table
  cst : Nat → Nat → Bool

/-- the constructor, l.94-100 -/
def Eqn.new (ref : Nat) : Eqn := ⟨ref, [ref], fun _ _ => [], fun _ _ => false⟩

/-- colors of the nodes and the lowest color for the next comparison -/
structure Colors where
  color : Nat → Nat
  min : Nat

/-- `testAdd`, l.106-134, with `comparePath` of two `CG` objects, l.238-262. A constant has no handler, so a constant and a
variable are different. -/
def testAdd [DecidableEq K] (key : V → K) (G : Graph V) (deps : Nat → Dep V) (e : Eqn) (c : Colors) (d : Nat) :
    Option (Bool × Eqn × Colors) :=
  match deps e.ref, deps d with
  | .par v, .par v' => some (if key v = key v' then (true, { e with deps := e.deps ++ [d] }, c) else (false, e, c))
  | .node r, .node s =>
    match comparePath key G e.cst e.ref d c.min (r + 1) r s ⟨c.color, c.min, e.tbl⟩ with
    | none => none
    | some (true, st) => some (true, { e with deps := e.deps ++ [d], tbl := st.tbl }, ⟨st.color, st.cmp⟩)
    | some (false, st) => some (false, e, ⟨st.color, st.cmp⟩)
  | _, _ => some (false, e, c)

/-- the inner loop of `findRelatedVariables`, dependent_pattern_matcher.hpp l.815-826 -/
def addAll [DecidableEq K] (key : V → K) (G : Graph V) (deps : Nat → Dep V) :
    List Nat → Eqn → List Nat → Colors → Option (Eqn × List Nat × Colors)
  | [], e, used, c => some (e, used, c)
  | d :: ds, e, used, c =>
    if d ∈ used then addAll key G deps ds e used c
    else match testAdd key G deps e c d with
      | none => none
      | some (true, e, c) => addAll key G deps ds e (d :: used) c
      | some (false, e, c) => addAll key G deps ds e used c

/-- the loop over the references, l.802-835. A pattern is always new: `eqCurr_` is null after a reference without other
dependents, and otherwise `used` is not empty. -/
def findGroup [DecidableEq K] (key : V → K) (G : Graph V) (deps : Nat → Dep V) :
    List Nat → List Nat → Colors → Option (List Eqn × Colors)
  | [], _, c => some ([], c)
  | r :: ds, used, c =>
    if r ∈ used then findGroup key G deps ds used c
    else match addAll key G deps ds (Eqn.new r) used c with
      | none => none
      | some (e, used, c) =>
        match findGroup key G deps ds used c with
        | none => none
        | some (es, c) => some (if e.deps.length = 1 then es else e :: es, c)

/-- `detectNonIndexedIndependents`, equation_pattern.hpp l.181-232 -/
def Eqn.detect (e : Eqn) : Eqn :=
  let same (m : List (Nat × Nat)) : Bool := match m with
    | [] => false
    | p :: ps => ps.all fun q => p.2 == q.2
  { e with
    tbl := fun o a => if same (e.tbl o a) then [] else e.tbl o a
    cst := fun o a => e.cst o a || same (e.tbl o a) }

/-- `findRelatedVariables`, l.786-843: the patterns of each set of candidates -/
def findAll [DecidableEq K] (key : V → K) (G : Graph V) (deps : Nat → Dep V) :
    List (List Nat) → Colors → Option (List (List Eqn))
  | [], _ => some []
  | g :: gs, c =>
    match findGroup key G deps g [] c with
    | none => none
    | some (es, c) =>
      match findAll key G deps gs c with
      | none => none
      | some r => some (es.map Eqn.detect :: r)

/-- with the initial colors, l.788-792 -/
def findRelated [DecidableEq K] (key : V → K) (G : Graph V) (deps : Nat → Dep V) (groups : List (List Nat)) :
    Option (List (List Eqn)) :=
  findAll key G deps groups ⟨fun _ => 0, 1⟩

/-! ### the loop -/

/-- `findIndexedPath` (equation_pattern.hpp l.415-475) for the reference: whether a node depends on an independent with an index -/
def indexedAt (G : Graph V) (tbl : Table) : Nat → Nat → Bool
  | 0, _ => false
  | f + 1, r => ((G r).args.zipIdx).any fun p => match p.1 with
    | .par _ => false
    | .node j => if (G j).op = .inv then !(tbl r p.2).isEmpty else indexedAt G tbl f j

/-- What an iteration of the loop computes for a node: `makeGraphClones`, loop.hpp l.940-995, with
`createIndependentClone`, l.997-1014, evaluated. The iteration is named by its dependent. An operation without index is a
temporary variable computed before the loop. An independent with an index but without an entry for the iteration is not
defined. -/
def iterationAt (I : Nat → List Nat → List V → V) (G : Graph V) (x : Nat → V) (tbl : Table) (d : Nat) :
    Nat → Nat → Option V
  | 0, _ => none
  | f + 1, r =>
    if indexedAt G tbl (r + 1) r then
      match ((G r).args.zipIdx).mapM (fun p => match p.1 with
        | .par c => some c
        | .node j =>
          if (G j).op = .inv then
            (if (tbl r p.2).isEmpty then some (x j) else (get (tbl r p.2) d).map x)
          else iterationAt I G x tbl d f j) with
      | none => none
      | some vs => match (G r).op with
        | .inv => none
        | .alias_ => vs.head?
        | .other k => some (I k (G r).info vs)
    else some (value I G x r)

/-- the result of the iteration of dependent `d` -/
def iteration (I : Nat → List Nat → List V → V) (G : Graph V) (deps : Nat → Dep V) (x : Nat → V) (e : Eqn) (d : Nat) :
    Option V :=
  match deps e.ref with
  | .par c => some c
  | .node r => iterationAt I G x e.tbl d (r + 1) r

end Verif.Patterns
