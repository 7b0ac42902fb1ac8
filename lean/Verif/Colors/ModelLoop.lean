import Verif.Colors.Model
import Verif.Sparsity.Model

/-
Model of `generateLoopForJacHes`, model/patterns/model_c_source_gen_loops_hess.hpp l.1096-1226.

Simplifications: maps are functions; `y` is left out; forward and reverse mode are as in the model of `sparseForJacHessian`; zero order forward mode needs
as many values as the function has variables. `none` is an access outside of an array or a wrong number of values.
-/
namespace Verif.Colors

/-- `map[j] = v` -/
def put {R : Type} (r : Nat → Option R) (j : Nat) (v : R) : Nat → Option R := fun j' => if j' = j then some v else r j'

/-- `vector::resize`, new elements are empty maps -/
def resize {A : Type} (m : Nat) (e : A) (l : List A) : List A := (l ++ List.replicate (m - l.length) e).take m

/-- saves the Jacobian, l.1158-1164 -/
def saveJac {R : Type} (row col : List Nat) (flat : List R) : List Nat → List (Nat → Option R) → Option (List (Nat → Option R))
  | [], jac => some jac
  | el :: els, jac =>
    match row[el]?, col[el]?, flat[el]? with
    | some i, some j, some v =>
      match jac[i]? with
      | some r => saveJac row col flat els (jac.set i (put r j v))
      | none => none
    | _, _, _ => none

/-- `hess[j1][j2] = v` -/
def put2 {R : Type} (M : Nat → Option (Nat → Option R)) (i j : Nat) (v : R) : Nat → Option (Nat → Option R) :=
  fun i' => if i' = i then some (put ((M i).getD fun _ => none) j v) else M i'

/-- saves one Hessian, l.1168-1175 -/
def saveHes {R : Type} (row col : List Nat) (flat : List R) : List Nat → (Nat → Option (Nat → Option R)) → Option (Nat → Option (Nat → Option R))
  | [], M => some M
  | el :: els, M =>
    match row[el]?, col[el]?, flat[el]? with
    | some i, some j, some v => saveHes row col flat els (put2 M i j v)
    | _, _, _ => none

/-- saves all Hessians, l.1166-1176 -/
def saveAll {R : Type} (row col : List Nat) : List (List R) → List (Nat → Option (Nat → Option R)) → Option (List (Nat → Option (Nat → Option R)))
  | [], [] => some []
  | flat :: flats, M :: Ms =>
    match saveHes row col flat (List.range row.length) M, saveAll row col flats Ms with
    | some M, some Ms => some (M :: Ms)
    | _, _ => none
  | _, _ => none

/-- saves a column of the Jacobian, l.1201-1205 -/
def saveColumn {R : Type} (dy : List R) (j : Nat) : List Nat → List (Nat → Option R) → Option (List (Nat → Option R))
  | [], jac => some jac
  | i :: is, jac =>
    match jac[i]?, dy[i]? with
    | some r, some v => saveColumn dy j is (jac.set i (put r j v))
    | _, _ => none

/-- saves a row of a Hessian, l.1218-1220 -/
def saveRow {R : Type} (px : List R) : List Nat → (Nat → Option R) → Option (Nat → Option R)
  | [], r => some r
  | j :: js, r =>
    match px[j * 2 + 1]? with
    | some v => saveRow px js (put r j v)
    | none => none

/-- saves a row of all Hessians, l.1211-1221 -/
def saveRows {R : Type} (u : List R) (j1 : Nat) (cols : List Nat) : List (List R → List R) → List (Nat → Option (Nat → Option R)) →
    Option (List (Nat → Option (Nat → Option R)))
  | [], [] => some []
  | rev :: revs, M :: Ms =>
    match saveRow (rev u) cols ((M j1).getD fun _ => none), saveRows u j1 cols revs Ms with
    | some r, some Ms => some ((fun i => if i = j1 then some r else M i) :: Ms)
    | _, _ => none
  | _, _ => none

/-- one variable, l.1191-1223 -/
def byVariable {R : Type} [Zero R] [One R] (fwd : List R → List R) (revs : List (List R → List R)) (n : Nat) (jacT hesEval : List (List Nat)) (j1 : Nat)
    (s : List (Nat → Option R) × List (Nat → Option (Nat → Option R))) : Option (List (Nat → Option R) × List (Nat → Option (Nat → Option R))) :=
  match jacT[j1]?, hesEval[j1]? with
  | some column, some cols =>
    if column = [] ∧ cols = [] then some s
    else
      let u : List R := (List.range n).map fun j => if j = j1 then 1 else 0
      match saveColumn (fwd u) j1 column s.1 with
      | none => none
      | some jac =>
        if cols = [] then some (jac, s.2)
        else
          match saveRows u j1 cols revs s.2 with
          | none => none
          | some vhess => some (jac, vhess)
  | _, _ => none

/-- `generateLoopForJacHes`, l.1096-1226; `nx` is the size of `x` -/
def loopForJacHes {R : Type} [Zero R] [One R] (sort : List Nat → List Nat) (m n nx : Nat) (fwd : List R → List R) (revs : List (List R → List R))
    (jacP jacEval : List (List Nat)) (jac : List (Nat → Option R)) (hesP hesEval : List (List Nat)) (vhess : List (Nat → Option (Nat → Option R)))
    (individual : Bool) : Option (List (Nat → Option R) × List (Nat → Option (Nat → Option R))) :=
  let jac := resize m (fun _ => none) jac
  let vhess := resize revs.length (fun _ => none) vhess
  if individual = false then
    let (jacRow, jacCol) := Sparsity.indexes jacEval
    let (hesRow, hesCol) := Sparsity.indexes hesEval
    if (if nx = 0 then 1 else nx) ≠ n then none
    else
      match sparseForJacHessian sort m n fwd revs jacP jacRow jacCol (List.replicate jacRow.length 0) hesP hesRow hesCol
          (revs.map fun _ => List.replicate hesRow.length 0) Work.empty with
      | none => none
      | some (_, jacFlat, vhessFlat, _) =>
        match saveJac jacRow jacCol jacFlat (List.range jacRow.length) jac, saveAll hesRow hesCol vhessFlat vhess with
        | some jac, some vhess => some (jac, vhess)
        | _, _ => none
  else
    match Sparsity.addTrans jacEval jacEval.length (List.replicate n []) with
    | none => none
    | some jacT =>
      if nx ≠ n then none
      else (List.range n).foldlM (fun s j1 => byVariable fwd revs n jacT hesEval j1 s) (jac, vhess)

end Verif.Colors
