import Verif.Codegen.Spec
/-
Model of the scalar, scope-free part of `CodeHandler::generateCode`
(/repo/include/cppad/cg/code_handler_impl.hpp l.266-472) together with `LanguageC`
(/repo/include/cppad/cg/lang/c/language_c.hpp).

Simplifications (see DESIGN.md):
* graph navigation with an explicit stack (operation_stack.hpp l.177-250) is recursion which does the
  same actions in the same order; recursion depth is bounded by `fuel`, running out is the distinct
  outcome `Err.fuel` (proved not to happen for `fuel` above the depth of the graph);
* null dereferences, out of range accesses and violated assertions are the outcome `Err.ub`;
* all operations are in the outermost scope; one local function; the dependent assignment operator is
  the default `=`;
* names are abstract (`x i`, `y i`, `v i`), as produced by `LangCDefaultVariableNameGenerator`
  (lang_c_default_var_name_gen.hpp l.92-123) with temporaries kept in one array.
-/
namespace Verif.Codegen

/-- abnormal outcomes -/
inductive Err
  | ub     -- undefined behaviour / failed assertion
  | fuel   -- recursion bound reached
deriving DecidableEq, Repr

/-- update of a per-node vector (`CodeHandlerVector`, code_handler_vector.hpp l.99-105) -/
def upd {β : Type} (f : Nat → β) (n : Nat) (v : β) : Nat → β := fun m => if m = n then v else f m

/-- sequential processing of a list -/
def foldE {σ β : Type} (f : σ → β → Except Err σ) : σ → List β → Except Err σ
  | s, [] => .ok s
  | s, b :: bs =>
    match f s b with
    | .ok s' => foldE f s' bs
    | .error e => .error e

variable {α : Type}

/-! ### variable IDs -/

/-- code_handler_impl.hpp l.321-323 -/
def idIndeps : List Nat → (Nat → Nat) × Nat → (Nat → Nat) × Nat
  | [], s => s
  | n :: ns, (vid, c) => idIndeps ns (upd vid n c, c + 1)

/-- code_handler_impl.hpp l.325-331 -/
def idDeps : List (Arg α) → (Nat → Nat) × Nat → (Nat → Nat) × Nat
  | [], s => s
  | .param _ :: ds, s => idDeps ds s
  | .node n :: ds, (vid, c) =>
    if vid n = 0 then idDeps ds (upd vid n c, c + 1) else idDeps ds (vid, c)

/-! ### use counts -/

/-- `markCodeBlockUsed`, code_handler_impl.hpp l.738-924 (scope-free part: l.740-763, l.797-801,
l.844). -/
def mark (G : Graph α) : Nat → Nat → (Nat → Nat) → Except Err (Nat → Nat)
  | 0, _, _ => .error .fuel
  | k + 1, n, c =>
    let c1 := upd c n (c n + 1)                                       -- l.745
    if (G n).op = .inv then .ok c1                                    -- l.748
    else if (G n).op = .alias then
      match (G n).args with
      | [.node m] => mark G k m c1                                    -- l.757
      | _ => .error .ub                                               -- null dereference of the child
    else if c1 n = 1 then foldE (fun s m => mark G k m s) c1 (kids G n)   -- l.761, l.801
    else .ok c1

/-- code_handler_impl.hpp l.338-343 -/
def markAll (G : Graph α) (fuel : Nat) (deps : List Nat) (c : Nat → Nat) : Except Err (Nat → Nat) :=
  foldE (fun s m => mark G fuel m s) c deps

/-! ### creation of variables -/

/-- state of the creation of variables -/
structure CSt where
  visited : Nat → Bool
  vid : Nat → Nat
  opCount : Nat → Nat
  queue : List Nat
  idCount : Nat

/-- `LanguageC::createsNewVariable`, language_c.hpp l.1091-1115 -/
def createsNew (maxOps : Nat) (op : Op) (count opCount : Nat) : Bool :=
  if count > 1 then true
  else match op with
    | .cond _ => true
    | .assign => true
    | _ => opCount ≥ maxOps

/-- `LanguageC::requiresVariableArgument`, language_c.hpp l.1166-1168 -/
def requiresVarArg : Op → Bool
  | .sign => true
  | _ => false

/-- operations needed to compute a node, code_handler_impl.hpp l.1555-1564 -/
def opCountOf (st : CSt) (ks : List Nat) : Nat :=
  ks.foldl (fun c m => if st.vid m = 0 then c + st.opCount m else c) 1

/-- `completeAnalysis`, code_handler_impl.hpp l.1460-1602: the node `n` with parent operation `p` after
its arguments have been processed -/
def complete (G : Graph α) (cnt : Nat → Nat) (maxOps : Nat) (p : Op) (n : Nat) (st : CSt) : CSt :=
  if st.visited n then st                                             -- l.1463
  else if st.vid n = 0 ∨ (G n).op ≠ .inv then
    if (G n).op = .alias then st                                      -- l.1520
    else
      let oc := opCountOf st (kids G n)
      if createsNew maxOps (G n).op (cnt n) oc || requiresVarArg p then
        { visited := upd st.visited n true                            -- l.1601
          opCount := upd st.opCount n oc
          queue := st.queue ++ [n]                                    -- l.1570
          vid := if st.vid n = 0 then upd st.vid n st.idCount else st.vid   -- l.1594
          idCount := if st.vid n = 0 then st.idCount + 1 else st.idCount }
      else { st with visited := upd st.visited n true, opCount := upd st.opCount n oc }
  else { st with visited := upd st.visited n true }

/-- `checkVariableCreation`, code_handler_impl.hpp l.1444-1609, for one node with parent operation
`p` -/
def create (G : Graph α) (cnt : Nat → Nat) (maxOps : Nat) : Nat → Op → Nat → CSt → Except Err CSt
  | 0, _, _, _ => .error .fuel
  | k + 1, p, n, st =>
    if st.visited n then .ok st                                       -- l.1450
    else
      match foldE (fun s m => create G cnt maxOps k (G n).op m s) st (kids G n) with
      | .ok st' => .ok (complete G cnt maxOps p n st')
      | .error e => .error e

/-- one iteration of the loop over the dependents, code_handler_impl.hpp l.352-369 -/
def createDep (G : Graph α) (cnt : Nat → Nat) (maxOps fuel : Nat) (st : CSt) (n : Nat) :
    Except Err CSt :=
  if st.visited n then .ok { st with visited := upd st.visited n true }
  else
    match foldE (fun s m => create G cnt maxOps fuel (G n).op m s) st (kids G n) with
    | .ok st' =>
      let st'' := if (st'.vid n = 0 ∨ (G n).op ≠ .inv) ∧ st'.visited n = false then
          { st' with queue := st'.queue ++ [n] } else st'
      .ok { st'' with visited := upd st''.visited n true }
    | .error e => .error e

/-- code_handler_impl.hpp l.350-369 -/
def createAll (G : Graph α) (cnt : Nat → Nat) (maxOps fuel : Nat) (deps : List Nat) (st : CSt) :
    Except Err CSt :=
  foldE (createDep G cnt maxOps fuel) st deps

/-! ### evaluation order -/

/-- `dependentAdded2EvaluationQueue`, code_handler_impl.hpp l.1970-1986: argument `m` of a node with
order `o` -/
def order (G : Graph α) : Nat → Nat → Nat → (Nat → Nat) → Except Err (Nat → Nat)
  | 0, _, _, _ => .error .fuel
  | k + 1, o, m, ord =>
    if ord m = 0 then foldE (fun s a => order G k o a s) (upd ord m o) (kids G m)
    else .ok ord

/-- code_handler_impl.hpp l.393-397; `p` is the position of the first element of the list -/
def orderAll (G : Graph α) (fuel : Nat) : Nat → List Nat → (Nat → Nat) → Except Err (Nat → Nat)
  | _, [], ord => .ok ord
  | p, n :: ns, ord =>
    match foldE (fun s a => order G fuel (p + 1) a s) (upd ord n (p + 1)) (kids G n) with
    | .ok ord' => orderAll G fuel (p + 1) ns ord'
    | .error e => .error e

/-! ### reordering (never moves anything) -/

/-- `findLastTemporaryLocation`, code_handler_impl.hpp l.1809-1853 -/
def findLast (G : Graph α) (ord : Nat → Nat) (depOrder : Nat) : Nat → Nat → Nat → Except Err Nat
  | 0, _, _ => .error .fuel
  | k + 1, n, acc =>
    foldE (fun s a => if ord a = depOrder then findLast G ord depOrder k a s else .ok (max s (ord a)))
      acc (kids G n)

/-- `reorderOperation`, code_handler_impl.hpp l.1742-1806. Moving a statement
(`repositionEvaluationQueue`) is not modelled: it is proved never to happen. -/
def reorderOne (G : Graph α) (ord : Nat → Nat) (isTemp : Nat → Bool) (queue : List Nat) (fuel : Nat)
    (visited : Nat → Bool) (n : Nat) : Except Err (Nat → Bool) :=
  match (if visited n then .ok (ord n) else findLast G ord (ord n) fuel n (ord n)) with
  | .error e => .error e
  | .ok lastTmp =>
    if lastTmp = ord n ∨ lastTmp + 1 = ord n then .ok (upd visited n true)
    else if (List.range (ord n)).any
        (fun l => lastTmp + 1 ≤ l && (match queue[l - 1]? with | some q => isTemp q | none => false))
      then .error .ub
      else .ok (upd visited n true)

/-- `reorderOperations`, code_handler_impl.hpp l.1716-1739 -/
def reorderAll (G : Graph α) (ord : Nat → Nat) (isTemp : Nat → Bool) (queue : List Nat) (fuel : Nat)
    (deps : List Nat) : Except Err (Nat → Bool) :=
  foldE (reorderOne G ord isTemp queue fuel) (fun _ => false) deps

/-! ### reuse of temporary variables -/

/-- `getOperationFromAlias`, code_handler_impl.hpp l.2089-2100 (`none`: a constant) -/
def followAlias (G : Graph α) : Nat → Nat → Except Err (Option Nat)
  | 0, _ => .error .fuel
  | k + 1, n =>
    if (G n).op = .alias then
      match (G n).args with
      | [.node m] => followAlias G k m
      | [.param _] => .ok none
      | _ => .error .ub
    else .ok (some n)

/-- state of the usage analysis -/
structure LSt where
  visited : Nat → Bool
  last : Nat → Nat

/-- `endAnalysis`, code_handler_impl.hpp l.1906-1932 -/
def useArg (G : Graph α) (ord : Nat → Nat) (fuel n : Nat) (s : LSt) (a : Nat) : Except Err LSt :=
  match followAlias G fuel a with
  | .error e => .error e
  | .ok none => .ok s
  | .ok (some aa) =>
    if s.last aa < ord n then .ok { s with last := upd s.last aa (ord n) } else .ok s

/-- `determineLastTempVarUsage`, code_handler_impl.hpp l.1873-1967: the unvisited arguments are pushed
at once and handled last one first, without checking again. -/
def lastUse (G : Graph α) (ord : Nat → Nat) (fuel : Nat) : Nat → Nat → LSt → Except Err LSt
  | 0, _, _ => .error .fuel
  | k + 1, n, s =>
    let s1 : LSt := { s with visited := upd s.visited n true }
    match foldE (fun t a => lastUse G ord fuel k a t) s1
        ((kids G n).filter (fun a => !s1.visited a)).reverse with
    | .error e => .error e
    | .ok s2 => foldE (useArg G ord fuel n) s2 (kids G n)

/-- code_handler_impl.hpp l.1645-1654 -/
def lastUseAll (G : Graph α) (ord : Nat → Nat) (fuel : Nat) (deps : List Nat) : Except Err LSt :=
  foldE (fun s n => if s.visited n then .ok s else lastUse G ord fuel fuel n s)
    ⟨fun _ => false, fun _ => 0⟩ deps

/-- state of the allocation of temporary variables -/
structure ASt where
  vid : Nat → Nat
  freed : List Nat
  idCount : Nat

/-- code_handler_impl.hpp l.1675-1706, step `i` -/
def allocStep (minTemp : Nat) (queue : List Nat) (last : Nat → Nat) (s : ASt) (i n : Nat) : ASt :=
  -- l.1657-1664: nodes released here, in queue order; l.1679-1686
  let released := queue.filter (fun q => decide (minTemp ≤ s.vid q) && decide (last q = i + 1))
  let freed := s.freed ++ released.map s.vid
  if minTemp ≤ s.vid n then                                         -- isTemporary, l.2057-2076
    match freed.getLast? with
    | none => { vid := upd s.vid n s.idCount, freed := freed, idCount := s.idCount + 1 }
    | some id => { vid := upd s.vid n id, freed := freed.dropLast, idCount := s.idCount }
  else { s with freed := freed }

/-- code_handler_impl.hpp l.1675-1706 -/
def allocLoop (minTemp : Nat) (queue : List Nat) (last : Nat → Nat) : Nat → List Nat → ASt → ASt
  | _, [], s => s
  | i, n :: ns, s => allocLoop minTemp queue last (i + 1) ns (allocStep minTemp queue last s i n)

/-- `reduceTemporaryVariables`, code_handler_impl.hpp l.1636-1713. A temporary which is never used
would make the release position underflow (l.1660-1661). -/
def reduce (G : Graph α) (fuel minTemp : Nat) (deps queue : List Nat) (ord : Nat → Nat)
    (vid : Nat → Nat) : Except Err ((Nat → Nat) × Nat × (Nat → Nat)) :=
  match reorderAll G ord (fun n => decide (minTemp ≤ vid n)) queue fuel deps with
  | .error e => .error e
  | .ok _ =>
    match lastUseAll G ord fuel deps with
    | .error e => .error e
    | .ok ls =>
      if queue.any (fun n => decide (minTemp ≤ vid n) &&
          (decide (ls.last n = 0) || decide (queue.length < ls.last n))) then .error .ub
      else
        let s := allocLoop minTemp queue ls.last 0 queue ⟨vid, [], minTemp⟩
        .ok (s.vid, s.idCount, ls.last)

/-! ### names -/

/-- language_c.hpp l.706-711 -/
def nameIndeps (vid : Nat → Nat) : List Nat → (Nat → Option Name) → (Nat → Option Name)
  | [], nm => nm
  | n :: ns, nm =>
    nameIndeps vid ns (if nm n = none then upd nm n (some (.x (vid n - 1))) else nm)

/-- language_c.hpp l.714-726; `i` is the index of the first dependent of the list -/
def nameDeps : Nat → List (Arg α) → (Nat → Option Name) → (Nat → Option Name)
  | _, [], nm => nm
  | i, .param _ :: ds, nm => nameDeps (i + 1) ds nm
  | i, .node n :: ds, nm => nameDeps (i + 1) ds (if nm n = none then upd nm n (some (.y i)) else nm)

/-- language_c.hpp l.2075-2081 -/
def isDependent (nIndep minTemp : Nat) (vid : Nat → Nat) (n : Nat) : Bool :=
  decide (nIndep < vid n) && decide (vid n < minTemp)

/-- `requiresVariableName`, language_c.hpp l.1117-1137 -/
def requiresName (G : Graph α) (cnt : Nat → Nat) (n : Nat) : Bool :=
  if cnt n > 1 then true else match (G n).op with | .cond _ => true | _ => false

/-- language_c.hpp l.794-806 -/
def nameTemps (G : Graph α) (cnt vid : Nat → Nat) (nIndep minTemp : Nat) :
    List Nat → (Nat → Option Name) → (Nat → Option Name)
  | [], nm => nm
  | n :: ns, nm =>
    nameTemps G cnt vid nIndep minTemp ns
      (if !isDependent nIndep minTemp vid n && requiresName G cnt n then
        upd nm n (some (.v (vid n - minTemp))) else nm)

/-- `_dependentIDs` and `dependentDuplicates`, language_c.hpp l.762-781; `i` is the index of the first
dependent of the list, `ids` the map from IDs to dependents -/
def depIds (G : Graph α) (vid : Nat → Nat) :
    Nat → List (Arg α) → List (Nat × Nat) → List Nat → List (Nat × Nat) × List Nat
  | _, [], ids, dup => (ids, dup)
  | i, .param _ :: ds, ids, dup => depIds G vid (i + 1) ds ids dup
  | i, .node n :: ds, ids, dup =>
    if (G n).op ≠ .inv ∧ 0 < vid n then
      match ids.lookup (vid n) with
      | none => depIds G vid (i + 1) ds (ids ++ [(vid n, i)]) dup
      | some _ => depIds G vid (i + 1) ds ids (dup ++ [i])
    else depIds G vid (i + 1) ds ids dup

/-- `createVariableName`, language_c.hpp l.1170-1229 -/
def varName (names : Nat → Option Name) (vid : Nat → Nat) (nIndep minTemp : Nat)
    (ids : List (Nat × Nat)) (n : Nat) : Except Err Name :=
  if vid n = 0 then .error .ub                                        -- l.1172
  else match names n with
    | some nm => .ok nm
    | none =>
      if vid n ≤ nIndep then .ok (.x (vid n - 1))
      else if vid n < minTemp then
        match ids.lookup (vid n) with
        | some i => .ok (.y i)
        | none => .error .ub
      else .ok (.v (vid n - minTemp))

/-! ### expressions and statements -/

/-- `push`, `pushExpression`, language_c.hpp l.1241-1262 -/
def argExpr (vid : Nat → Nat) (nameOf : Nat → Except Err Name) (rec : Nat → Except Err (Expr α)) :
    Arg α → Except Err (Expr α)
  | .param v => .ok (.const v)
  | .node n => if vid n ≠ 0 then (nameOf n).map .var else rec n

/-- `pushExpressionNoVarCheck` and the functions it calls, language_c.hpp l.1289-1694. An independent
variable or a conditional never reaches this point with a valid ID. -/
def nodeExpr (G : Graph α) (vid : Nat → Nat) (nameOf : Nat → Except Err Name) :
    Nat → Nat → Except Err (Expr α)
  | 0, _ => .error .fuel
  | k + 1, n =>
    let arg := argExpr vid nameOf (nodeExpr G vid nameOf k)
    match (G n).op, (G n).args with
    | .assign, [a] => (arg a).map .asg
    | .alias, [a] => (arg a).map .ali
    | .un f, [a] => (arg a).map (.un f)
    | .neg, [a] => (arg a).map .neg
    | .add, [a, b] => do let u ← arg a; let w ← arg b; pure (.add u w)
    | .sub, [a, b] => do let u ← arg a; let w ← arg b; pure (.sub u w)
    | .mul, [a, b] => do let u ← arg a; let w ← arg b; pure (.mul u w)
    | .div, [a, b] => do let u ← arg a; let w ← arg b; pure (.div u w)
    | .pow, [a, b] => do let u ← arg a; let w ← arg b; pure (.pow u w)
    | .sign, [.node m] => if vid m ≠ 0 then (nameOf m).map .sgn else .error .ub
    | _, _ => .error .ub

/-- test of `pushConditionalAssignment`, language_c.hpp l.1729-1730 -/
def sameArg [DecidableEq α] : Arg α → Arg α → Bool
  | .param p, .param q => p = q
  | .node a, .node b => a = b
  | _, _ => false

/-- `printAssignment`, language_c.hpp l.966-1009 and l.1717-1752 -/
def nodeStmt [DecidableEq α] (G : Graph α) (vid : Nat → Nat) (nameOf : Nat → Except Err Name)
    (fuel : Nat) (n : Nat) : Except Err (Stmt α) :=
  let arg := argExpr vid nameOf (nodeExpr G vid nameOf fuel)
  match (G n).op, (G n).args with
  | .cond c, [l, r, t, f] =>
    if sameArg t f then do let nm ← nameOf n; let e ← arg t; pure (.assign nm e)
    else do
      let nm ← nameOf n
      let le ← arg l; let re ← arg r; let te ← arg t; let fe ← arg f
      pure (.ite c le re nm te fe)
  | _, _ => do let nm ← nameOf n; let e ← nodeExpr G vid nameOf fuel n; pure (.assign nm e)

/-- statements of a list of nodes -/
def mapE {β γ : Type} (f : β → Except Err γ) : List β → Except Err (List γ)
  | [] => .ok []
  | b :: bs => do let c ← f b; let cs ← mapE f bs; pure (c :: cs)

/-- duplicates, language_c.hpp l.889-898 -/
def dupStmt (deps : List (Arg α)) (nameOf : Nat → Except Err Name) (i : Nat) :
    Except Err (Stmt α) :=
  match deps[i]? with
  | some (.node n) => (nameOf n).map fun nm => .assign (.y i) (.var nm)
  | _ => .error .ub

/-- constant dependents and dependents which are independents, language_c.hpp l.902-923 -/
def constStmts (G : Graph α) [DecidableEq α] (ignoreZero : Bool) (zero : α)
    (nameOf : Nat → Except Err Name) : Nat → List (Arg α) → Except Err (List (Stmt α))
  | _, [] => .ok []
  | i, .param v :: ds => do
    let rest ← constStmts G ignoreZero zero nameOf (i + 1) ds
    if !ignoreZero || !decide (v = zero) then pure (.assign (.y i) (.const v) :: rest) else pure rest
  | i, .node n :: ds =>
    if (G n).op = .inv then do
      let nm ← nameOf n
      let rest ← constStmts G ignoreZero zero nameOf (i + 1) ds
      pure (.assign (.y i) (.var nm) :: rest)
    else constStmts G ignoreZero zero nameOf (i + 1) ds

/-! ### the whole generation -/

/-- settings of the generation -/
structure Cfg where
  reuse : Bool        -- setReuseVariableIDs
  maxOps : Nat        -- setMaxOperationsPerAssignment
  zeroDeps : Bool     -- setZeroDependents
  ignoreZero : Bool   -- setIgnoreZeroDepAssign

/-- data kept in the handler (and nodes) between generations -/
structure HState where
  used : Bool
  vid : Nat → Nat
  cnt : Nat → Nat
  ord : Nat → Nat
  opCount : Nat → Nat
  scoped0 : List Nat           -- _scopedVariableOrder[0]
  varOrder : List Nat          -- _variableOrder
  names : Nat → Option Name    -- OperationNode::name_

/-- a handler which has not generated anything -/
def HState.fresh : HState :=
  { used := false, vid := fun _ => 0, cnt := fun _ => 0, ord := fun _ => 0, opCount := fun _ => 0,
    scoped0 := [], varOrder := [], names := fun _ => none }

/-- `resetManagedNodes`, code_handler_impl.hpp l.2158-2168 -/
def HState.resetManagedNodes (h : HState) : HState :=
  { h with vid := fun _ => 0, cnt := fun _ => 0, ord := fun _ => 0, opCount := fun _ => 0,
           scoped0 := [], varOrder := [] }

/-- `reset`, code_handler_impl.hpp l.493-507: the nodes are deleted (new ones have no name and take
their positions), but the per-node vectors keep their contents and `_used` becomes false, so that
`resetManagedNodes` is skipped by the next generation. -/
def HState.reset (h : HState) : HState := { h with used := false, names := fun _ => none }

/-- everything decided before printing -/
structure Plan where
  minTemp : Nat
  idCount : Nat
  vid : Nat → Nat
  cnt : Nat → Nat
  queue : List Nat
  ord : Nat → Nat
  opCount : Nat → Nat

/-- code_handler_impl.hpp l.266-404 -/
def plan (G : Graph α) (fuel : Nat) (cfg : Cfg) (indeps : List Nat) (deps : List (Arg α))
    (h0 : HState) : Except Err Plan :=
  let h := if h0.used then h0.resetManagedNodes else h0               -- l.311-313
  let ids := idDeps deps (idIndeps indeps (h.vid, 1))
  let minTemp := ids.2                                                -- l.333
  let dn := argNodes deps
  match markAll G fuel dn h.cnt with
  | .error e => .error e
  | .ok cnt =>
    match createAll G cnt cfg.maxOps fuel dn
        { visited := fun _ => false, vid := ids.1, opCount := h.opCount, queue := h.scoped0,
          idCount := ids.2 } with
    | .error e => .error e
    | .ok cs =>
      match orderAll G fuel 0 cs.queue h.ord with
      | .error e => .error e
      | .ok ord =>
        if cfg.reuse then
          match reduce G fuel minTemp dn cs.queue ord cs.vid with
          | .error e => .error e
          | .ok (vid, idCount, _) =>
            .ok { minTemp := minTemp, idCount := idCount, vid := vid, cnt := cnt, queue := cs.queue,
                  ord := ord, opCount := cs.opCount }
        else
          .ok { minTemp := minTemp, idCount := cs.idCount, vid := cs.vid, cnt := cnt,
                queue := cs.queue, ord := ord, opCount := cs.opCount }

/-- outcome of a generation: the function body and the number of temporary variables declared
(`getTemporaryVariableCount`, code_handler_impl.hpp l.475-480) -/
structure Gen (α : Type) where
  prog : List (Stmt α)
  tempCount : Nat

/-- `LanguageC::generateSourceCode`, language_c.hpp l.663-960; also returns the names left in the
nodes -/
def emit [DecidableEq α] (G : Graph α) (fuel : Nat) (cfg : Cfg) (zero : α) (indeps : List Nat)
    (deps : List (Arg α)) (p : Plan) (names : Nat → Option Name) :
    Except Err (Gen α × (Nat → Option Name)) :=
  let nm1 := nameIndeps p.vid indeps names
  let nm2 := nameDeps 0 deps nm1
  let dd := depIds G p.vid 0 deps [] []
  let nm3 := nameTemps G p.cnt p.vid indeps.length p.minTemp p.queue nm2
  let nameOf := varName nm3 p.vid indeps.length p.minTemp dd.1
  match mapE (nodeStmt G p.vid nameOf fuel) p.queue with
  | .error e => .error e
  | .ok body =>
    match mapE (dupStmt deps nameOf) dd.2 with
    | .error e => .error e
    | .ok dups =>
      match constStmts G cfg.ignoreZero zero nameOf 0 deps with
      | .error e => .error e
      | .ok consts =>
        let zeros := if cfg.zeroDeps && !p.queue.isEmpty then          -- l.789, l.811-824
            (List.range deps.length).map (fun i => Stmt.assign (.y i) (.const zero)) else []
        .ok (⟨zeros ++ body ++ dups ++ consts, p.idCount - p.minTemp⟩,
          fun n => if n ∈ p.queue then
              (match nameOf n with | .ok nm => some nm | .error _ => nm3 n) else nm3 n)

/-- `generateCode`, code_handler_impl.hpp l.266-472 -/
def generateCode [DecidableEq α] (G : Graph α) (fuel : Nat) (cfg : Cfg) (zero : α)
    (indeps : List Nat) (deps : List (Arg α)) (h : HState) : Except Err (Gen α × HState) :=
  match plan G fuel cfg indeps deps h with
  | .error e => .error e
  | .ok p =>
    match emit G fuel cfg zero indeps deps p h.names with
    | .error e => .error e
    | .ok (g, names) =>
      .ok (g, { used := true, vid := p.vid, cnt := p.cnt, ord := p.ord, opCount := p.opCount,
                scoped0 := if h.used then [] else h.varOrder,          -- swap at l.375
                varOrder := p.queue, names := names })

end Verif.Codegen
