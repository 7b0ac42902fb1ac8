import Verif.Dae.SpecTape
/-
Model of the new tape of the reduced system: `BipartiteGraph::generateNewModel`, bipartite_graph.hpp l.526-547 and l.598-712,
`reverseTimeDiff`, `forwardTimeDiff`, `prepareTimeDependentVariables`, l.714-817, and time_diff.hpp.

Tapes are lists of expressions, of sums, products and functions of one variable. The sweeps of CppAD are modelled for these;
values which are folded while the operations are recorded (C01) are not. Initial values and names are left out.
-/
namespace Verif.Dae.Tape
open Verif.Dae.Remove

variable {U : Type}

/-- `Forward(0, indep)`; for `time_var`: `time_diff_forward` with order 0, time_diff.hpp l.54-55 -/
def fwd : Ex U → Ex U
  | .const c => .const c
  | .var k => .var k
  | .add a b => .add (fwd a) (fwd b)
  | .mul a b => .mul (fwd a) (fwd b)
  | .un u a => .un u (fwd a)
  | .tv x _ _ => .var x

/-- `time_diff_reverse` with order 0, time_diff.hpp l.101-106: for x, dxdt and t -/
def timeDiffReverse (pzy tdxdt : Ex U) : Ex U × Ex U × Ex U := (.mul pzy (.const 1), .const 0, .mul pzy tdxdt)

/-- what `Reverse(1, v)` adds to the independent variable `T` for an expression with the factor `p` -/
def rev (d : U → U) (T : Nat) : Ex U → Ex U → Ex U
  | _, .const _ => .const 0
  | p, .var k => if k = T then p else .const 0
  | p, .add a b => .add (rev d T p a) (rev d T p b)
  | p, .mul a b => .add (rev d T (.mul p (fwd b)) a) (rev d T (.mul p (fwd a)) b)
  | p, .un u a => rev d T (.mul p (.un (d u) (fwd a))) a
  | p, .tv x dx t =>
    let q := timeDiffReverse p (.var dx)
    .add (if x = T then q.1 else .const 0) (.add (if dx = T then q.2.1 else .const 0) (if t = T then q.2.2 else .const 0))

/-- `time_diff_forward` with order 1, time_diff.hpp l.56-67: from the coefficients of t, x and dxdt; `none`: an assertion -/
def timeDiffForward (ttime txx : ℚ) (dxdt : Ex U) : Option (Ex U) :=
  if 0 < ttime then
    if txx = 0 then some (.mul (.const ttime) dxdt) else none
  else some (.const txx)

/-- `Forward(1, u)` where `u` is 1 for `T` and 0 otherwise -/
def for1 (d : U → U) (T : Nat) : Ex U → Option (Ex U)
  | .const _ => some (.const 0)
  | .var k => some (.const (if k = T then 1 else 0))
  | .add a b => do return .add (← for1 d T a) (← for1 d T b)
  | .mul a b => do return .add (.mul (← for1 d T a) (fwd b)) (.mul (fwd a) (← for1 d T b))
  | .un u a => do return .mul (.un (d u) (fwd a)) (← for1 d T a)
  | .tv x dx t => timeDiffForward (if t = T then 1 else 0) (if x = T then 1 else 0) (.var dx)

/-- `Parameter(i)` -/
def isParam : Ex U → Bool
  | .const _ => true
  | .var _ => false
  | .add a b => isParam a && isParam b
  | .mul a b => isParam a && isParam b
  | .un _ a => isParam a
  | .tv _ _ _ => false

/-- `Evaluator::evaluate` of an expression; the operations recorded contain no calls of `time_var` -/
def subst (σ : List (Ex U)) : Ex U → Ex U
  | .const c => .const c
  | .var k => (σ[k]?).getD (.const 0)
  | .add a b => .add (subst σ a) (subst σ b)
  | .mul a b => .mul (subst σ a) (subst σ b)
  | .un u a => .un u (subst σ a)
  | .tv x dx t => .tv x dx t

/-- `resize` -/
def resize (l : List (Ex U)) (n : Nat) : List (Ex U) := l.take n ++ List.replicate (n - l.length) (.const 0)

/-- `evaluate(indep, dep)` for a handler with `n` independent variables -/
def evaluate (n : Nat) (σ dep : List (Ex U)) : Except Err (List (Ex U)) :=
  if σ.length = n then .ok (dep.map (subst σ)) else .error .exception

/-- an element of `prepareTimeDependentVariables`, l.797-814, for `N` independent variables, the time is `T` -/
def prepare1 (vs : List VarOut) (N T j : Nat) : Except Err (Ex U) :=
  match vs[j]? with
  | some x =>
    match x.der with
    | some u => if u < N then .ok (.tv j u T) else .error .ub
    | none => .ok (.var j)
  | none => .ok (if j + 1 = N then .var T else .const 0)

def prepare (vs : List VarOut) (N T : Nat) : Except Err (List (Ex U)) := (List.range N).mapM (prepare1 vs N T)

/-- `derivative()` of an equation -/
def derivative (es : List EqOut) (k : Nat) : Option Nat :=
  (List.range es.length).find? fun q => (es[q]?).bind EqOut.anti == some k

/-- the loop which finds `newEquations`, l.537-546 -/
def levels (es : List EqOut) : Nat → List Nat → Except Err (List (List Nat))
  | 0, _ => .error .running
  | fuel + 1, l =>
    if l = [] then .ok []
    else
      match levels es fuel (l.filterMap (derivative es)) with
      | .ok ls => .ok (l :: ls)
      | .error e => .error e

/-- an iteration of the loop of `reverseTimeDiff`, l.744-766 -/
def timeDiff1 (d : U → U) (T : Nat) (es : List EqOut) (out : List (Ex U)) (dep : List (Ex U)) (e : Nat) : Except Err (List (Ex U)) :=
  match (es[e]?).bind EqOut.anti with
  | none => .error .ub
  | some i =>
    match out[i]? with
    | none => .error .ub
    | some f =>
      if e < dep.length then .ok (dep.set e (if isParam f then .const 0 else rev d T (.const 1) f))
      else .error .ub

/-- `reverseTimeDiff`, l.735-767 -/
def reverseTimeDiff (d : U → U) (T : Nat) (es : List EqOut) (out : List (Ex U)) (l : List Nat) (dep : List (Ex U)) :
    Except Err (List (Ex U)) := l.foldlM (timeDiff1 d T es out) dep

/-- the independent variables of the next tape and what the operations are evaluated with, l.674-699 -/
def nextVars (vs : List VarOut) (T : Nat) (added last : Bool) (n : Nat) : Except Err (Nat × List (Ex U)) :=
  if last then
    let n' := if added then n - 1 else n
    .ok (n', resize ((List.range n').map .var) n)
  else
    match prepare vs n T with
    | .ok σ => .ok (n, σ)
    | .error e => .error e

/-- the loop over the new equations, l.653-709, for a tape with `n` independent variables and the dependent ones `out` -/
def rounds (d : U → U) (vs : List VarOut) (es : List EqOut) (T : Nat) (added : Bool) :
    List (List Nat) → Nat → List (Ex U) → Except Err (Nat × List (Ex U))
  | [], n, out => .ok (n, out)
  | l :: ls, n, out => do
    let dep ← reverseTimeDiff d T es out l (out.map fwd)
    let (n', σ) ← nextVars vs T added ls.isEmpty n
    let out' ← evaluate n σ dep
    rounds d vs es T added ls n' out'

/-- `timeOrigVarIndex_`, l.121-131 -/
def timeOf (info : List VarInfo) : Option Nat :=
  (List.range info.length).find? fun j => ((info[j]?).map VarInfo.integrated).getD false

/-- the new tape, l.526-550 and l.598-712: the number of independent variables and the dependent ones -/
def newTape (d : U → U) (info : List VarInfo) (vs : List VarOut) (es : List EqOut) (dep0 : List (Ex U)) :
    Except Err (Option (Nat × List (Ex U))) := do
  let ls ← levels es (es.length + 1) ((List.range dep0.length).filterMap (derivative es))
  if ls.isEmpty then return none
  let (T, added) := match timeOf info with
    | some T => (T, false)
    | none => (vs.length, true)
  let n := if added then vs.length + 1 else vs.length
  let σ ← prepare vs n T
  let out ← evaluate info.length (resize σ info.length) dep0
  let r ← rounds d vs es T added ls n (resize out es.length)
  return some r

end Verif.Dae.Tape
