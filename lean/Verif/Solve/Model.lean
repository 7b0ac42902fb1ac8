import Verif.Eval.Model
import Verif.Paths.Model
/-
Model of the symbolic solver: /repo/include/cppad/cg/solver.hpp, collect_variable.hpp and
evaluator/evaluator_solve.hpp.

`half` is `Base(0.5)`. `ltr` tells which operand C++ evaluates first where both create operations
(one is evaluated completely before the other), `ord` the order in which the operands of each kind of
operation are evaluated by evaluators. All operations belong to one handler. Texts of
exceptions and output to `std::cerr` are not modelled. Graphs are searched with the recursion bound
`depth`; the `while` loop of `solveFor` with the bound `fuel` (exceeding them is `ub`).
-/
namespace Verif.Solve
open Verif.Codegen Verif.Cg Verif.Paths Verif.Eval

variable {α : Type}

/-- `CG<Base>(const Argument<Base>&)`, default.hpp l.40-47 -/
def ofArg : Arg α → Cg α
  | .node n => ⟨some n, none⟩
  | .param v => .const v

/-- access to an argument -/
def argAt (args : List (Arg α)) (i : Nat) : Except Err (Arg α) :=
  match args[i]? with
  | none => .error .ub
  | some a => .ok a

/-- `log(r) / log(b)`, solver.hpp l.157 -/
def logQuot (I : Interp α) (ltr : Bool) (w : World α) (r b : Cg α) : Except Err (Cg α × World α) :=
  if ltr then do
    let (u, w) ← unary (.un .log) (I.un .log) w r
    let (v, w) ← unary (.un .log) (I.un .log) w b
    binary I .div w u v
  else do
    let (v, w) ← unary (.un .log) (I.un .log) w b
    let (u, w) ← unary (.un .log) (I.un .log) w r
    binary I .div w u v

/-- `log(r + sqrt(r * r o 1))`, solver.hpp l.169 and l.174 -/
def logSqrt (I : Interp α) (o : Bin) (w : World α) (r : Cg α) : Except Err (Cg α × World α) := do
  let (p, w) ← binary I .mul w r r
  let (q, w) ← binary I o w p (.const I.one)
  let (s, w) ← unary (.un .sqrt) (I.un .sqrt) w q
  let (t, w) ← binary I .add w r s
  unary (.un .log) (I.un .log) w t

/-- `log(1 o r)`, solver.hpp l.178 -/
def log1 (I : Interp α) (o : Bin) (w : World α) (r : Cg α) : Except Err (Cg α × World α) := do
  let (p, w) ← binary I o w (.const I.one) r
  unary (.un .log) (I.un .log) w p

/-- `0.5 * (log(1 + r) - log(1 - r))`, solver.hpp l.178 -/
def halfLogs (I : Interp α) (half : α) (ltr : Bool) (w : World α) (r : Cg α) :
    Except Err (Cg α × World α) :=
  if ltr then do
    let (u, w) ← log1 I .add w r
    let (v, w) ← log1 I .sub w r
    let (d, w) ← binary I .sub w u v
    binary I .mul w (.const half) d
  else do
    let (v, w) ← log1 I .sub w r
    let (u, w) ← log1 I .add w r
    let (d, w) ← binary I .sub w u v
    binary I .mul w (.const half) d

/-- One step of `solveFor(path)`, solver.hpp l.92-184: the new right hand side; `first` is
`argIndex == 0`. -/
def invert (I : Interp α) (half : α) (ltr : Bool) (w : World α) (nd : Node α) (first : Bool) (r : Cg α) :
    Except Err (Cg α × World α) :=
  match nd.op with
  | .mul => do                                                                       -- l.94-99
    let o ← argAt nd.args (if first then 1 else 0)
    compound I .div w r (ofArg o)
  | .div =>                                                                          -- l.100-108
    if first then do
      let o ← argAt nd.args 1
      compound I .mul w r (ofArg o)
    else do
      let o ← argAt nd.args 0
      binary I .div w (ofArg o) r
  | .neg => compound I .mul w r (.const I.negOne)                                    -- l.110-112
  | .add => do                                                                       -- l.113-118
    let o ← argAt nd.args (if first then 1 else 0)
    compound I .sub w r (ofArg o)
  | .alias => .ok (r, w)                                                             -- l.119-121
  | .sub =>                                                                          -- l.122-130
    if first then do
      let o ← argAt nd.args 1
      compound I .add w r (ofArg o)
    else do
      let o ← argAt nd.args 0
      binary I .sub w (ofArg o) r
  | .un .exp => unary (.un .log) (I.un .log) w r                                     -- l.131-133
  | .un .log => unary (.un .exp) (I.un .exp) w r                                     -- l.134-136
  | .pow =>                                                                          -- l.137-160
    if first then do
      let o ← argAt nd.args 1
      match o with
      | .param v =>
        if I.cmp .eq v I.zero then .error .exception
        else if I.cmp .eq v I.one then .ok (r, w)
        else .error .exception
      | .node _ => .error .exception
    else do
      let o ← argAt nd.args 0
      logQuot I ltr w r (ofArg o)
  | .un .sqrt => compound I .mul w r r                                               -- l.161-163
  | .un .cosh => logSqrt I .sub w r                                                  -- l.167-172
  | .un .sinh => logSqrt I .add w r                                                  -- l.173-175
  | .un .tanh => halfLogs I half ltr w r                                             -- l.177-179
  | _ => .error .exception                                                           -- l.181-182

/-- `solveFor(path)`, solver.hpp l.83-188; `r` is `rightHs`. The last node of the path is not inverted. -/
def solvePath (I : Interp α) (half : α) (ltr : Bool) (G : Graph α) :
    UPath → World α → Cg α → Except Err (Cg α × World α)
  | [], _, _ => .error .ub                                  -- `path.size() - 1` of an empty path
  | [_], w, r => .ok (r, w)
  | (n, i) :: rest, w, r =>
    match invert I half ltr w (G n) (i == some 0) r with
    | .error e => .error e
    | .ok (r', w') => solvePath I half ltr G rest w' r'

/-- one step of `isSolvable(path)`, solver.hpp l.223-262 -/
def solvableStep (I : Interp α) (nd : Node α) (first : Bool) : Except Err Bool :=
  match nd.op with
  | .mul | .div | .neg | .add | .alias | .sub | .un .exp | .un .log | .un .sqrt | .un .cosh | .un .sinh
  | .un .tanh => .ok true
  | .pow =>
    if first then do
      let o ← argAt nd.args 1
      match o with
      | .param v =>
        if I.cmp .eq v I.zero then .ok false
        else if I.cmp .eq v I.one then .ok true
        else .ok false
      | .node _ => .ok false
    else .ok true
  | _ => .ok false

/-- `isSolvable(path)`, solver.hpp l.216-266 -/
def isSolvablePath (I : Interp α) (G : Graph α) : UPath → Except Err Bool
  | [] => .error .ub
  | [_] => .ok true
  | (n, i) :: rest =>
    match solvableStep I (G n) (i == some 0) with
    | .ok true => isSolvablePath I G rest
    | r => r

/-! ### collecting a variable -/

/-- the node after the divergence can be handled, collect_variable.hpp l.262-284 -/
def collectable (nd : Node α) (i : Option Nat) : Bool :=
  match nd.op with
  | .add | .sub | .mul | .neg | .alias => true
  | .div => i == some 0
  | _ => false

/-- `isCollectableVariableAddSub` for one of the paths (without its first node),
collect_variable.hpp l.251-287 -/
def collectablePath (G : Graph α) : UPath → Bool
  | [] => true
  | [_] => true
  | (n, i) :: rest => collectable (G n) i && collectablePath G rest

/-- One step of the loop which finds the coefficient, collect_variable.hpp l.160-196; `prev` is
`p[i - 1].argIndex`. -/
def coefStep (I : Interp α) (w : World α) (nd : Node α) (prev i : Option Nat) (c : Cg α) :
    Except Err (Cg α × World α) :=
  match nd.op with
  | .sub => if prev == some 1 then unary .neg I.neg w c else .ok (c, w)              -- l.171-175
  | .neg => unary .neg I.neg w c                                                     -- l.177-178
  | .mul => do                                                                       -- l.180-183
    let o ← argAt nd.args (if i == some 0 then 1 else 0)
    compound I .mul w c (ofArg o)
  | .div => do                                                                       -- l.185-187
    let o ← argAt nd.args 1
    compound I .div w c (ofArg o)
  | _ => .ok (c, w)

/-- the loop which finds the coefficient; the path is without its first node, `prev` the argument
number taken before -/
def coefPath (I : Interp α) (G : Graph α) : Option Nat → UPath → World α → Cg α → Except Err (Cg α × World α)
  | _, [], w, c => .ok (c, w)
  | _, [_], w, c => .ok (c, w)
  | prev, (n, i) :: rest, w, c =>
    match coefStep I w (G n) prev i c with
    | .error e => .error e
    | .ok (c', w') => coefPath I G i rest w' c'

/-- operations which are zero with the variable, collect_variable.hpp l.203-206 -/
def vanishes : Op → Bool
  | .mul | .neg | .div | .alias => true
  | _ => false

/-- which nodes of a path are replaced by zero (`replace[j]`), collect_variable.hpp l.150-151 and
l.201-211 -/
def replaced (G : Graph α) : UPath → List Bool
  | [] => []
  | [_] => [true]
  | (n, _) :: rest => (vanishes (G n).op && (replaced G rest).headD false) :: replaced G rest

/-- `isOnPath`, evaluator_solve.hpp l.198-217: `path` are the operations above the node `n` with the
arguments taken -/
def isOnPath (p : UPath) (path : List (Nat × Nat)) (n : Nat) : Bool :=
  match p[path.length]? with
  | none => false
  | some q => q.1 == n && (p.take path.length == path.map fun s => (s.1, some s.2))

/-- `evalOperation` of `EvaluatorCloneSolve` given paths, evaluator_solve.hpp l.140-157 and l.195 -/
def pathHook (I : Interp α) (p1 p2 : UPath) (f1 f2 : List Bool) (path : List (Nat × Nat)) (n : Nat) :
    Option (Cg α) :=
  if isOnPath p1 path n then
    if f1.getD path.length false then some (.const I.zero) else none
  else if isOnPath p2 path n then
    if f2.getD path.length false then some (.const I.zero) else none
  else some ⟨some n, none⟩

/-- `evalOperation` of `EvaluatorCloneSolve` given a graph and the replacement for one node,
evaluator_solve.hpp l.159-169 and l.195 -/
def graphHook (g : PGraph) (target : Nat) (e : Cg α) (_ : List (Nat × Nat)) (n : Nat) : Option (Cg α) :=
  match g n with
  | none => some ⟨some n, none⟩
  | some _ => if n = target then some e else none

/-- evaluation with the independent variables themselves, collect_variable.hpp l.66-69 and l.225-227 -/
def cloneSetup (I : Interp α) (w : World α) (ord : Op → List Nat)
    (hook : List (Nat × Nat) → Nat → Option (Cg α)) : Setup α (Cg α) (World α) :=
  ⟨cgOps I, w.graph, w.indeps, w.indeps.map fun n => ⟨some n, none⟩, hook, fun n => ord (w.graph n).op⟩

/-- `evaluate` of one expression by a new evaluator -/
def cloneExpr (I : Interp α) (w : World α) (ord : Op → List Nat) (depth : Nat)
    (hook : List (Nat × Nat) → Nat → Option (Cg α)) (n : Nat) : Except Err (Cg α × World α) :=
  match evaluate (cloneSetup I w ord hook) depth [⟨some n, none⟩] .new w with
  | (.ok [c], _, w') => .ok (c, w')
  | (.ok _, _, _) => .error .ub
  | (.error e, _, _) => .error e

/-- `collectVariableAddSub`, collect_variable.hpp l.104-240 -/
def collectAddSub (I : Interp α) (ord : Op → List Nat) (depth : Nat) (w : World α) (p1 p2 : UPath) :
    Except Err (Cg α × World α) :=
  match p1, p2, p1.getLast?, p2.getLast? with
  | (n, i1) :: r1, (n', i2) :: r2, some l1, some l2 =>
    if n ≠ n' then .error .exception                                                 -- l.110-112
    else if (w.graph n).op ≠ .add ∧ (w.graph n).op ≠ .sub then .error .exception     -- l.116-120
    else if l1.1 ≠ l2.1 then .error .exception                                       -- l.125-126
    else if !(collectablePath w.graph r1 && collectablePath w.graph r2) then .error .exception  -- l.133
    else do
      let (c1, w1) ← coefPath I w.graph i1 r1 w (.const I.one)
      let (s1, w1) ← compound I .add w1 (.const I.zero) c1                           -- l.199
      let (c2, w2) ← coefPath I w.graph i2 r2 w1
        (.const (if (w.graph n).op = .sub then I.negOne else I.one))                 -- l.156-159
      let (s2, w2) ← compound I .add w2 s1 c2
      let f1 := replaced w.graph p1
      let f2 := replaced w.graph p2
      let (e2, w3) ←
        if !(f1.getD 1 false && f2.getD 1 false) then                                -- l.215-232
          cloneExpr I w2 ord depth (pathHook I p1 p2 f1 f2) n
        else .ok (.const I.zero, w2)
      let (t, w4) ← binary I .mul w3 s2 ⟨some l1.1, none⟩                            -- l.238-239
      binary I .add w4 t e2
  | _, _, _, _ => .error .ub

/-- `collectVariable`, collect_variable.hpp l.25-101; `maxB` is the largest `size_t` -/
def collectVariable (I : Interp α) (ord : Op → List Nat) (depth maxB : Nat) (w : World α) (expression : Nat)
    (p1 p2 : UPath) (lastCommon : Nat) : Except Err (Cg α × World α) := do
  let (sub, w1) ← collectAddSub I ord depth w (p1.drop lastCommon) (p2.drop lastCommon)
  match p1[lastCommon]? with
  | none => .error .ub
  | some common =>
    match findPathGraph w1.graph depth expression common.1 0 maxB with
    | none => .error .ub
    | some (g, _) => cloneExpr I w1 ord depth (graphHook g common.1 sub) expression

/-! ### `solveFor` -/

/-- the loop of `solveFor`, solver.hpp l.38-76. `depth` bounds recursion through the graph of each
iteration, given the number of operations. -/
def solveLoop (I : Interp α) (half : α) (ltr : Bool) (ord : Op → List Nat) (depth : Nat → Nat) (maxB : Nat)
    (var : Nat) : Nat → Nat → World α → Except Err (Cg α × World α)
  | 0, _, _ => .error .ub
  | fuel + 1, root, w =>
    match findPathGraph w.graph (depth w.nodes.length) root var 0 50000 with         -- l.44
    | none => .error .ub
    | some (g, _) =>
      if (g var).isNone then .error .exception                                       -- l.47-51
      else
        match findSingleBifurcation w.graph g (depth w.nodes.length) root var with
        | none => .error .ub
        | some ([], _) => .error .exception                                          -- l.56-57
        | some ([p], _) => solvePath I half ltr w.graph p w (.const I.zero)          -- l.59-63
        | some (p1 :: p2 :: _, pos) =>                                               -- l.65-74
          match pos with
          | none => .error .ub
          | some b =>
            match collectVariable I ord (depth w.nodes.length) maxB w root p1 p2 b with
            | .error e => .error e
            | .ok (c, w') =>
              match c.node with
              | none => .error .exception
              | some root' => solveLoop I half ltr ord depth maxB var fuel root' w'

/-- `solveFor(expression, var)`, solver.hpp l.24-80 -/
def solveFor (I : Interp α) (half : α) (ltr : Bool) (ord : Op → List Nat) (depth : Nat → Nat) (maxB fuel : Nat)
    (w : World α) (expression var : Nat) : Except Err (Cg α × World α) :=
  if expression = var then .ok (⟨some var, none⟩, w)                                 -- l.29-30
  else solveLoop I half ltr ord depth maxB var fuel expression w

/-- `isSolvable(expression, var)`, solver.hpp l.190-214: the answer and the operations afterwards -/
def isSolvable (I : Interp α) (half : α) (ltr : Bool) (ord : Op → List Nat) (depth : Nat → Nat) (maxB fuel : Nat)
    (w : World α) (expression var : Nat) : Except Err Bool :=
  match findPathGraph w.graph (depth w.nodes.length) expression var 0 maxB with
  | none => .error .ub
  | some (g, bifs) =>
    if bifs = 0 then
      match findSingleBifurcation w.graph g (depth w.nodes.length) expression var with
      | none => .error .ub
      | some ([], _) => .ok false
      | some ([] :: _, _) => .ok false
      | some (p :: _, _) => isSolvablePath I w.graph p
    else
      match solveFor I half ltr ord depth maxB fuel w expression var with
      | .ok _ => .ok true
      | .error .exception => .ok false
      | .error .ub => .error .ub

end Verif.Solve
