import Verif.Deriv.Model
import Verif.Sparsity.Model
/-
Model of the sparsity patterns of the Hessians of the equations, model_c_source_gen_hes.hpp l.544-660 and `colorByRow`,
model_c_source_gen_impl.hpp l.256-311. The sparsity sweeps of CppAD are parameters. A map is a list of pairs with different
keys, the order of which is not used.
-/
namespace Verif.Deriv
open Verif.Sparsity (Pattern setInsert insertAt intersects indexes)

/-- `Color`, model_c_source_gen.hpp l.126-136, without `row2Columns` -/
structure Color where
  rows : List Nat
  column2Row : List (Nat × Nat)
  forbidden : List Nat
deriving DecidableEq, Repr

/-- `map[k] = v` -/
def mapPut (k v : Nat) (m : List (Nat × Nat)) : List (Nat × Nat) := (k, v) :: m.filter (·.1 != k)

/-- `map.at(k)` -/
def mapAt (m : List (Nat × Nat)) (k : Nat) : Except Err Nat :=
  match m.find? (·.1 == k) with
  | some p => .ok p.2
  | none => .error .exception

/-- `rowReduced`, impl.hpp l.270-279; `columns` is given if the user gave the elements -/
def reduceRow (columns : Option (List Nat)) (row : List Nat) : List Nat :=
  match columns with
  | none => row
  | some cs => row.filter fun j => cs.contains j

/-- impl.hpp l.299-304 -/
def Color.add (c : Color) (i : Nat) (red : List Nat) : Color :=
  { c with rows := setInsert i c.rows, column2Row := red.foldl (fun m j => mapPut j i m) c.column2Row }

/-- the choice of a color for row `i`, impl.hpp l.281-304 -/
def place (i : Nat) (red : List Nat) : List Color → List Color
  | [] => [Color.add ⟨[], [], red⟩ i red]
  | c :: cs =>
    if intersects c.forbidden red then c :: place i red cs
    else ({ c with forbidden := red.foldl (fun s j => setInsert j s) c.forbidden }).add i red :: cs

/-- the loop over the rows from `i` on, impl.hpp l.264-305 -/
def colorLoop (columns : Option (List Nat)) : Nat → Pattern → List Color → List Color
  | _, [], cs => cs
  | i, row :: rows, cs =>
    colorLoop columns (i + 1) rows (if row.length = 0 then cs else place i (reduceRow columns row) cs)

/-- `colorByRow` -/
def colorByRow (columns : Option (List Nat)) (sparsity : Pattern) : List Color := colorLoop columns 0 sparsity []

/-- `_hessSparsities[i].sparsity[j].insert(begin, end)`, hes.hpp l.624-625 -/
def insertRow (sps : List Pattern) (i j : Nat) (row : List Nat) : Except Err (List Pattern) :=
  match sps[i]? with
  | none => .error .ub
  | some p => match p[j]? with
    | none => .error .ub
    | some r => .ok (sps.set i (p.set j (row.foldl (fun s k => setInsert k s) r)))

/-- the loop over the variables of a color, hes.hpp l.620-627 -/
def retrieve (sparsityc : Pattern) (column2Row : List (Nat × Nat)) : List Nat → List Pattern → Except Err (List Pattern)
  | [], sps => .ok sps
  | j :: js, sps =>
    match sparsityc[j]? with
    | none => .error .ub
    | some row =>
      if row.length > 0 then
        match mapAt column2Row j with
        | .error e => .error e
        | .ok i => match insertRow sps i j row with
          | .error e => .error e
          | .ok sps => retrieve sparsityc column2Row js sps
      else retrieve sparsityc column2Row js sps

/-- the loop over the colors, hes.hpp l.597-629; `rev seeds eqs` is what `RevSparseHes` returns after `ForSparseJac` with
the diagonal matrix of `seeds`, for the sum of the equations `eqs` -/
def eachColor (rev : List Nat → List Nat → Pattern) : List Color → List Pattern → Except Err (List Pattern)
  | [], sps => .ok sps
  | c :: cs, sps =>
    match retrieve (rev c.forbidden c.rows) c.column2Row c.forbidden sps with
    | .error e => .error e
    | .ok sps => eachColor rev cs sps

/-- `customVarsInHess`, hes.hpp l.571-574 -/
def customVars (els : List (Nat × Nat)) : List Nat :=
  (els.map (·.2)).foldl (fun s j => setInsert j s) ((els.map (·.1)).foldl (fun s j => setInsert j s) [])

/-- The patterns of the equations, hes.hpp l.551-630; `forw seeds` is the Jacobian pattern with the columns `seeds`,
`custom` are the elements given by the user, if any. -/
def equationPatterns (forw : List Nat → Pattern) (rev : List Nat → List Nat → Pattern) (m n : Nat)
    (custom : Option (List (Nat × Nat))) : Except Err (List Pattern) :=
  let jac := match custom with
    | none => forw (List.range n)
    | some els => forw (customVars els)
  eachColor rev (colorByRow (custom.map customVars) jac) (List.replicate m (List.replicate n []))

/-- the elements of the user which are in the pattern, hes.hpp l.640-648 -/
def pick (p : Pattern) : List (Nat × Nat) → Except Err (List (Nat × Nat))
  | [] => .ok []
  | (i1, i2) :: els =>
    match p[i1]? with
    | none => .error .ub
    | some row => match pick p els with
      | .error e => .error e
      | .ok l => .ok (if row.contains i2 then (i1, i2) :: l else l)

/-- rows and columns of one equation, hes.hpp l.631-650 -/
def equationElements (custom : Option (List (Nat × Nat))) (p : Pattern) : Except Err (List (Nat × Nat)) :=
  match custom with
  | none => .ok ((indexes p).1.zip (indexes p).2)
  | some els => pick p els

/-- the Hessians of all equations as given to the sparsity function, hes.hpp l.551-651 -/
def hessianElements (forw : List Nat → Pattern) (rev : List Nat → List Nat → Pattern) (m n : Nat)
    (custom : Option (List (Nat × Nat))) : Except Err (List (List (Nat × Nat))) :=
  match equationPatterns forw rev m n custom with
  | .error e => .error e
  | .ok sps => mapE (equationElements custom) sps

end Verif.Deriv
