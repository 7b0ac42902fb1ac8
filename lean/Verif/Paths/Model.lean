import Verif.Paths.Spec
/-
Model of the search of paths in the operation graph:
/repo/include/cppad/cg/operation_path.hpp and /repo/include/cppad/cg/bidir_graph.hpp.

Recursion depth is bounded by `fuel`; running out is the outcome `none` (proved not to happen for
`fuel` above the depth of the graph). The visit marks of the handler
(code_handler_impl.hpp l.157-175) are the list of the marked nodes. All nodes belong to the handler.
-/
namespace Verif.Paths
open Verif.Codegen

variable {α : Type}

/-! ### `findPaths` -/

/-- `SourceCodePath` of `OperationPathNode` as built by `findPaths`: node and argument number by which
it was reached -/
abbrev DPath := List (Nat × Nat)

/-- inner loop of `findPathsFromNode`, operation_path.hpp l.194-202; the state is `argsFound` and
`foundPaths` -/
def fromPath (node : Nat) : DPath → List Nat × List DPath → List Nat × List DPath
  | [], s => s
  | [_], s => s
  | a :: b :: rest, s =>
    let s' := if a.1 = node ∧ b.2 ∉ s.1 then (b.2 :: s.1, s.2 ++ [b :: rest]) else s
    fromPath node (b :: rest) s'

/-- `findPathsFromNode`, operation_path.hpp l.185-206 -/
def findPathsFromNode (paths : List DPath) (node : Nat) : List DPath :=
  (paths.foldl (fun s p => fromPath node p s) ([], [])).2

/-- state of the search: `found` and the visit marks -/
structure FSt where
  found : List DPath
  visited : List Nat

/-- the loop over the arguments, operation_path.hpp l.171-181 -/
def overArgs (search : Nat → Nat → FSt → Option FSt) (max : Nat) : List (Arg α) → Nat → FSt → Option FSt
  | [], _, st => some st
  | .param _ :: as, i, st => overArgs search max as (i + 1) st
  | .node m :: as, i, st =>
    match search m i st with
    | none => none
    | some st' => if st'.found.length = max then some st' else overArgs search max as (i + 1) st'

/-- private `findPaths`, operation_path.hpp l.139-183; `cur` is `currPath` without its last node, which
is `(n, a)` -/
def search (G : Graph α) (code max : Nat) : Nat → DPath → Nat → Nat → FSt → Option FSt
  | 0, _, _, _, _ => none
  | fuel + 1, cur, n, a, st =>
    if n = code then some { st with found := st.found ++ [cur ++ [(n, a)]] }         -- l.146-149
    else if (G n).args.isEmpty then some st                                          -- l.152
    else if n ∈ st.visited then                                                      -- l.155-164
      some { st with
        found := st.found ++ (findPathsFromNode st.found n).map fun p => (cur ++ [(n, a)]) ++ p }
    else
      overArgs (fun m i s => search G code max fuel (cur ++ [(n, a)]) m i s) max (G n).args 0
        { st with visited := n :: st.visited }

/-- `findPaths`, operation_path.hpp l.116-137 -/
def findPaths (G : Graph α) (fuel root code max : Nat) : Option (List DPath) :=
  if max > 0 then
    if root = code then some [[(root, 0)]]
    else (search G code max fuel [] root 0 ⟨[], []⟩).map (·.found)
  else some []

/-! ### `findPathGraph` -/

/-- `PathNodeEdges`, bidir_graph.hpp l.21-29 -/
structure Edges where
  arguments : List Nat
  usage : List (Nat × Nat)
deriving DecidableEq, Repr

/-- `BidirGraph`, bidir_graph.hpp l.34-40 -/
abbrev PGraph := Nat → Option Edges

/-- `std::map::operator[]` followed by a change -/
def PGraph.modify (g : PGraph) (n : Nat) (f : Edges → Edges) : PGraph := fun m =>
  if m = n then some (f ((g n).getD ⟨[], []⟩)) else g m

/-- `erase`, bidir_graph.hpp l.87-89 -/
def PGraph.erase (g : PGraph) (n : Nat) : PGraph := fun m => if m = n then none else g m

/-- `connect`, bidir_graph.hpp l.53-64; `m` is the node at argument `i` of `n` -/
def PGraph.connect (g : PGraph) (n i m : Nat) : PGraph :=
  (g.modify n fun e => { e with arguments := e.arguments ++ [i] }).modify m
    fun e => { e with usage := e.usage ++ [(n, i)] }

/-- state: `foundGraph`, `bifurcations` and the visit marks -/
structure GSt where
  graph : PGraph
  bifs : Nat
  visited : List Nat

/-- the loop over the arguments, operation_path.hpp l.65-79; the Boolean is `found` -/
def graphArgs (search : Nat → GSt → Option (Bool × GSt)) (n : Nat) :
    List (Arg α) → Nat → Bool → GSt → Option (Bool × GSt)
  | [], _, found, st => some (found, st)
  | .param _ :: as, i, found, st => graphArgs search n as (i + 1) found st
  | .node m :: as, i, found, st =>
    match search m st with
    | none => none
    | some (true, st') =>
      let st'' := { st' with graph := st'.graph.connect n i m }
      if found then graphArgs search n as (i + 1) true { st'' with bifs := st''.bifs + 1 }
      else graphArgs search n as (i + 1) true st''
    | some (false, st') => graphArgs search n as (i + 1) found st'

/-- the function `findPathGraph`, operation_path.hpp l.34-86 -/
def graphSearch (G : Graph α) (target maxBif : Nat) : Nat → Nat → GSt → Option (Bool × GSt)
  | 0, _, _ => none
  | fuel + 1, n, st =>
    if st.bifs ≥ maxBif then some (false, st)
    else if n = target then some (true, st)
    else if (st.graph n).isSome then some (true, st)
    else if n ∈ st.visited then some (false, st)
    else
      match graphArgs (graphSearch G target maxBif fuel) n (G n).args 0 false
          { st with visited := n :: st.visited, graph := st.graph.modify n id } with
      | none => none
      | some (true, st') => some (true, st')
      | some (false, st') => some (false, { st' with graph := st'.graph.erase n })

/-- the method `findPathGraph`, operation_path.hpp l.95-113; result: the graph and `bifurcations` -/
def findPathGraph (G : Graph α) (fuel root target bifs maxBif : Nat) : Option (PGraph × Nat) :=
  if bifs ≤ maxBif then
    if root = target then some (PGraph.modify (fun _ => none) root id, bifs)
    else (graphSearch G target maxBif fuel root ⟨fun _ => none, bifs, []⟩).map
      fun r => (r.2.graph, r.2.bifs)
  else some (fun _ => none, bifs)

/-! ### `findSingleBifurcation` -/

/-- paths of `OperationPathNode` as built by `BidirGraph`: node and argument number taken from it,
`none` is the `-1` of the last node -/
abbrev UPath := List (Nat × Option Nat)

/-- operation node at an argument; `none` is a null or out of range access -/
def argNode (G : Graph α) (n i : Nat) : Option Nat :=
  match (G n).args[i]? with
  | some (.node m) => some m
  | _ => none

/-- `findPathUpTo`, bidir_graph.hpp l.166-214; `acc` is `paths[0]` built so far by the loop. `none`: a
null dereference, or the recursion bound. -/
def pathUpTo (G : Graph α) (g : PGraph) : Nat → UPath → Nat → Option (List UPath)
  | 0, _, _ => none
  | fuel + 1, acc, n =>
    match g n with
    | none => none
    | some e =>
      match e.arguments with
      | [] => some [acc ++ [(n, none)]]                                              -- l.211
      | [i] =>                                                                       -- l.203-208
        match argNode G n i with
        | none => none
        | some m => pathUpTo G g fuel (acc ++ [(n, some i)]) m
      | i :: j :: _ =>                                                               -- l.178-201
        match argNode G n i, argNode G n j with
        | some a, some b =>
          match pathUpTo G g fuel [] a with
          | none => none
          | some ps =>
            if ps.length = 2 then some ps
            else
              match pathUpTo G g fuel [] b with
              | none => none
              | some qs =>
                if qs.length = 2 then some qs
                else
                  match ps, qs with
                  | p :: _, q :: _ => some [(n, some i) :: p, (n, some j) :: q]
                  | _, _ => none
        | _, _ => none

/-- the loop adding the way from the bifurcation up to the expression, bidir_graph.hpp l.139-149; the
result is `pathCommon` reversed -/
def climb (g : PGraph) (expression : Nat) : Nat → Nat → UPath → Option UPath
  | 0, _, _ => none
  | fuel + 1, n, acc =>
    match g n with
    | none => none
    | some e =>
      match e.usage with
      | [] => none
      | (p, i) :: _ =>
        let acc' := (p, some i) :: acc
        if p = expression then some acc' else climb g expression fuel p acc'

/-- `findSingleBifurcation`, bidir_graph.hpp l.99-159: the paths and `bifIndex` (`none` is `-1`) -/
def findSingleBifurcation (G : Graph α) (g : PGraph) (fuel expression target : Nat) :
    Option (List UPath × Option Nat) :=
  match g target with
  | none => some ([], none)                                                          -- l.106-112
  | some tail =>
    if tail.usage = [] then some ([[(target, none)]], none)                          -- l.118-122
    else
      match pathUpTo G g fuel [] expression with
      | none => none
      | some paths =>
        let bifIndex := if paths.length > 1 then some 0 else none
        match paths with
        | ((n, i) :: p) :: ps =>
          if n ≠ expression then                                                     -- l.128-156
            match climb g expression fuel n [] with
            | none => none
            | some common => some ((((n, i) :: p) :: ps).map (common ++ ·), some common.length)
          else some (paths, bifIndex)
        | _ => none

end Verif.Paths
