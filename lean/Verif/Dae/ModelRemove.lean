import Verif.Dae.SpecRemove
import Verif.Dae.ModelSoares
/-
Model of the removal of the equations differentiated last, dae_index_reduction/soares_secchi.hpp l.134-137 and
`BipartiteGraph::remove`, bipartite_graph.hpp l.427-480, and of the information about the reduced system,
`BipartiteGraph::generateNewModel`, bipartite_graph.hpp l.517-596. The new tape itself is not part of this model.

Nodes are named by the position they had when they were created; the fields `index_` and `tapeIndex_` are kept apart, since
they are changed. Access to a node which was freed is undefined behaviour.
-/
namespace Verif.Dae.Remove

/-- the variables in the order of `vnodes_`, bipartite_graph.hpp l.181-202: the position on the tape of each -/
def tapeOf (info : List VarInfo) : List Nat :=
  match (List.range info.length).mapM (diffOrder info) with
  | .ok order => new2Tape info.length (fun t => (order[t]?).bind id) ((order.map (·.getD 0)).foldl max 0)
  | .error _ => []

/-- the nodes, `vnodes_` and `enodes_`, and the fields `index_` and `tapeIndex_` -/
structure Mem where
  g : BG
  vl : List Nat
  el : List Nat
  vi : Nat → Nat
  vt : Nat → Nat
  ei : Nat → Nat

/-- before anything is removed. `tapeIndex_` of given variables: l.209-219, of others: `createDerivate`, l.389-392 -/
def start (info : List VarInfo) (g : BG) : Mem where
  g := g
  vl := List.range g.nv
  el := List.range g.ne
  vi := id
  vt j := if j < (tapeOf info).length then ((tapeOf info)[j]?).getD 0 else info.length + (j - (tapeOf info).length)
  ei := id

/-- l.447-451, l.465-469 -/
def shift (l : List Nat) (pos : Nat) (f : Nat → Nat) (k : Nat) : Nat := if k ∈ l.drop pos then f k - 1 else f k

/-- a variable is removed, l.444-458; the antiderivative is returned -/
def eraseVar (M : Mem) (j : Nat) : Except Err (Nat × Mem) :=
  match (M.g.v j).anti with
  | none => .error .ub
  | some o =>
    if M.vl[M.vi j]? = some j ∧ o ∈ M.vl then
      let vl := M.vl.eraseIdx (M.vi j)
      .ok (o, { M with
        vl
        vi := shift vl (M.vi j) M.vi
        vt := shift vl (M.vi j) M.vt
        g := M.g.setV o fun n => { n with deriv := none } })
    else .error .ub

/-- the inner loop, l.441-460 -/
def dropEmpty : Nat → Nat → Mem → Except Err Mem
  | 0, _, _ => .error .running
  | fuel + 1, j, M =>
    if j ∈ M.vl then
      if (M.g.v j).eqs = [] then
        match (M.g.v j).deriv with
        | some _ => dropEmpty fuel j M
        | none =>
          match eraseVar M j with
          | .error x => .error x
          | .ok (o, M') => dropEmpty fuel o M'
      else .ok M
    else .error .ub

/-- an iteration of the loop over the variables of the equation, l.431-462 -/
def dropEdge (fuel i : Nat) (M : Mem) (j : Nat) : Except Err Mem :=
  if j ∈ M.vl ∧ i ∈ (M.g.v j).eqs then
    dropEmpty fuel j { M with g := M.g.setV j fun n => { n with eqs := n.eqs.erase i } }
  else .error .ub

/-- `remove`, l.427-480 -/
def remove (fuel : Nat) (M : Mem) (i : Nat) : Except Err Mem :=
  if i ∈ M.el then
    match (M.g.e i).vars.foldlM (dropEdge fuel i) M with
    | .error x => .error x
    | .ok M =>
      .ok { M with
        ei := shift M.el (M.ei i + 1) M.ei
        el := M.el.erase i
        g := match (M.g.e i).diffOf with
          | some p => M.g.setE p fun n => { n with diff := none }
          | none => M.g }
  else .error .ub

/-! ### information -/

/-- `getDerivative` of a given variable, l.100-106 -/
def givenDer (info : List VarInfo) (t : Nat) : Option Nat :=
  (List.range info.length).reverse.find? fun d => (info[d]?).bind VarInfo.anti == some t

/-- `determineVariableOrder`, l.1024-1034: order and original antiderivative -/
def orderRoot (info : List VarInfo) : Nat → Nat → Except Err (Int × Option Nat)
  | 0, _ => .error .running
  | fuel + 1, t =>
    match info[t]? with
    | none => .error .ub
    | some x =>
      match x.anti with
      | none => .ok (if x.timeDep then 0 else -1, none)
      | some a =>
        match orderRoot info fuel a with
        | .error e => .error e
        | .ok (k, r) => .ok (k + 1, if k + 1 = 1 then some a else r)

/-- `varInfo_` of a given variable, l.95-110 -/
def givenVar (info : List VarInfo) (t : Nat) : Except Err VarOut :=
  match info[t]? with
  | none => .error .ub
  | some x =>
    match orderRoot info (info.length + 1) t with
    | .error e => .error e
    | .ok (k, r) => .ok ⟨t, x.anti, givenDer info t, x.timeDep, x.integrated, some t, k, r⟩

/-- an iteration of the loop over the new variables, l.562-578 -/
def addVar (M : Mem) (vs : List VarOut) (j : Nat) : Except Err (List VarOut) :=
  match (M.g.v j).anti with
  | none => .error .ub
  | some o =>
    let a := M.vt o
    let vs1 := vs ++ [⟨vs.length, some a, none, true, false, none, 0, none⟩]
    match vs1[a]? with
    | none => .error .ub
    | some x =>
      let vs2 := vs1.set a { x with der := some (M.vt j) }
      .ok (vs2.modify vs.length fun y => { y with
        order := x.order + 1
        root := if x.order + 1 = 1 then x.orig else x.root
        der := match (M.g.v j).deriv with
          | some k => some (M.vt k)
          | none => y.der })

/-- the information about an equation, l.580-596 -/
def eqOut (M : Mem) (p i : Nat) : EqOut where
  id := p
  orig := if (M.g.e i).diffOf = none then some p else none
  anti := (M.g.e i).diffOf.map M.ei
  assigned := (M.vl.reverse.find? fun j => (M.g.v j).assign == some i).map M.vt

/-- `generateNewModel`, l.523-596; `none`: there is nothing to do -/
def generate (info : List VarInfo) (m : Nat) (M : Mem) : Except Err (Option (List VarOut × List EqOut)) :=
  if M.el.length < m then .error .ub
  else if (M.el.take m).all fun i => (M.g.e i).diff.isNone then .ok none
  else
    match (List.range info.length).mapM (givenVar info) with
    | .error e => .error e
    | .ok vs =>
      match (M.vl.drop (tapeOf info).length).foldlM (addVar M) vs with
      | .error e => .error e
      | .ok vs => .ok (some (vs, M.el.mapIdx (eqOut M)))

/-- what follows the differentiation, soares_secchi.hpp l.134-145: `last` are the equations marked last, `order` the one in
which their derivatives are removed -/
def finish (order : List Nat → List Nat) (fuel : Nat) (info : List VarInfo) (m : Nat) (r : BG × List Nat) :
    Except Err (Option (List VarOut × List EqOut)) :=
  match (order (r.2.filterMap fun i => (r.1.e i).diff)).foldlM (remove fuel) (start info r.1) with
  | .error e => .error e
  | .ok M => generate info m M

/-- `reduceIndex`, soares_secchi.hpp l.115-147 -/
def reduceIndex (order order' : List Nat → List Nat) (fuel : Nat) (info : List VarInfo) (m : Nat) (inc : Nat → Nat → Bool) :
    Except Err (Option (List VarOut × List EqOut)) := do
  let g ← construct info m inc
  let r ← Soares.detect false order fuel [] g
  finish order' fuel info m r

end Verif.Dae.Remove
