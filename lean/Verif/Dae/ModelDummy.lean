import Verif.Dae.SpecDummy

/-
Model of the selection of dummy derivatives, /repo/include/cppad/cg/dae_index_reduction/dummy_deriv.hpp
l.299-415 (`addDummyDerivatives`), l.1312-1380 (`determineJacobian`), l.1382-1567 (`selectDummyDerivatives`).

Nodes are their indexes. The Jacobian is a function of equations and variables; the shifts by `diffEqStart_` and
`diffVarStart_` are left out. The QR decomposition of Eigen is a parameter which gives the variables in the order of
the permuted columns. `std::sort` is any reordering. Messages are left out.
-/
namespace Verif.Dae.Dummy

/-- `exception`: a `CGException`; `assertion`: a failed assertion of debug builds; `running`: the loop has not ended -/
inductive Res
  | ok (d : List Nat)
  | exception
  | assertion
  | ub
  | running
deriving DecidableEq, Repr

variable {K : Type} [Field K] [DecidableEq K]

/-- settings: `NDEBUG` is not defined, `avoidConvertAlg2DifVars_`, `avoidAsDummy_` (of names of variables), and
`varInfo[tape].getDerivative() < 0` for the original variable of a variable -/
structure Opts where
  debug : Bool
  algFirst : Bool
  avoid : Nat → Bool
  alg : Nat → Bool

/-- the normalised Jacobian, l.1358-1371 -/
def normJac (part : Nat → Nat → K) (normVar normEq : Nat → K) (i v : Nat) : K := part i v * normVar v / normEq i

/-- all elements of a column are zero, l.1414-1426 -/
def zeroCol (jac : Nat → Nat → K) (eqs : List Nat) (v : Nat) : Bool := eqs.all fun i => decide (jac i v = 0)

/-- `orderColumns`, l.1445-1502: the rank and the order of the columns, or an exception -/
def orderColumns (qr : QR) (eqs vl : List Nat) : Option (Nat × List Nat) :=
  match qr eqs vl with
  | none => none
  | some (r, p) => if r < eqs.length then none else if p.length < eqs.length then none else some (r, p)

/-- the first loop, l.1531-1540: variables which were algebraic -/
def addAlg (alg : Nat → Bool) (rows : Nat) : List Nat → List Nat → List Nat
  | acc, [] => acc
  | acc, v :: p => if acc.length < rows then addAlg alg rows (if alg v then acc ++ [v] else acc) p else acc

/-- the second loop, l.1542-1551; it does not check the number of columns -/
def addRest (alg : Nat → Bool) (rows : Nat) : List Nat → List Nat → Option (List Nat)
  | acc, [] => if acc.length < rows then none else some acc
  | acc, v :: p => if acc.length < rows then addRest alg rows (if alg v then acc else acc ++ [v]) p else some acc

/-- new dummy derivatives, l.1526-1558 -/
def pick (O : Opts) (rows r : Nat) (p : List Nat) : Option (List Nat) :=
  if O.algFirst then addRest O.alg rows (addAlg O.alg rows [] (p.take r)) p
  else if rows ≤ p.length then some (p.take rows) else none

/-- the end, l.1526-1567 -/
def finish (O : Opts) (eqs d : List Nat) (rp : Nat × List Nat) : Res :=
  match pick O eqs.length rp.1 rp.2 with
  | none => .ub
  | some new => if O.debug && new.any fun v => d.contains v then .assertion else .ok (d ++ new)

/-- `selectDummyDerivatives`, l.1382-1567 -/
def select (O : Opts) (jac : Nat → Nat → K) (qr : QR) (eqs vars d : List Nat) : Res :=
  if eqs.length = vars.length then
    -- l.1386-1400: the assertions are made after the insertion
    if O.debug && vars.any fun v => (d ++ vars).contains v then .assertion else .ok (d ++ vars)
  else
    let zero := fun v => zeroCol jac eqs v
    let avoid := fun v => !zeroCol jac eqs v && O.avoid v
    let ex := fun v =>
      if eqs.length ≤ vars.length - ((vars.filter zero).length + (vars.filter avoid).length) then zero v || avoid v else zero v
    match orderColumns qr eqs (vars.filter fun v => !ex v) with
    | some rp => finish O eqs d rp
    | none =>
      if vars.filter avoid = [] then .exception
      else match orderColumns qr eqs (vars.filter fun v => !(ex v && !avoid v)) with
        | some rp => finish O eqs d rp
        | none => .exception

/-- predecessors which have predecessors, l.361-369, 382-389 -/
def predecessors (f : Nat → Option Nat) (l : List Nat) : List Nat := (l.filterMap f).filter fun a => (f a).isSome

/-- the loop, l.333-391 -/
def stages (S : Sys) (O : Opts) (jac : Nat → Nat → K) (qr : QR) : Nat → List Nat → List Nat → List Nat → Res
  | 0, _, _, _ => .running
  | n + 1, eqs, vars, d =>
    match select O jac qr eqs vars d with
    | .ok d' =>
      if predecessors S.eqOf eqs = [] then .ok d'
      else stages S O jac qr n (predecessors S.eqOf eqs) (predecessors S.anti vars) d'
    | res => res

/-- the highest derivatives, l.311-317, 324-330 -/
def tops (n : Nat) (of der : Nat → Option Nat) : List Nat :=
  (List.range n).reverse.filter fun a => (of a).isSome && (der a).isNone

/-- `addDummyDerivatives`, l.299-391; `sort` is `std::sort`, l.320 -/
def addDummies (S : Sys) (O : Opts) (jac : Nat → Nat → K) (qr : QR) (sort : List Nat → List Nat) : Res :=
  stages S O jac qr (S.ne + 1) (tops S.ne S.eqOf S.eqDer) (sort (tops S.nv S.anti S.der)) []

/-- `DaeVarInfo`: positions of the variable of which it is the derivative, and of the derivative; -1 is `none` -/
structure Info where
  anti : Option Nat
  der : Option Nat
deriving DecidableEq, Repr

/-- the output information, l.397-405; `tape` is `tapeIndex()` -/
def newInfo (S : Sys) (tape : Nat → Nat) (info : Nat → Info) : List Nat → Option (Nat → Info)
  | [] => some info
  | v :: d =>
    match S.anti v with
    | none => none
    | some w =>
      let info := fun t => if t = tape v then { info t with anti := none } else info t
      newInfo S tape (fun t => if t = tape w then { info t with der := none } else info t) d

end Verif.Dae.Dummy
