/-
Model of the method of Soares and Secchi: dae_index_reduction/soares_secchi.hpp.

A set of pointers to equations is a list of positions; the order in which it is traversed (that of the addresses) is a
parameter. The removal of the last equations (l.134-137) is in ModelRemove.
-/
import Verif.Dae.Model
namespace Verif.Dae.Soares

/-- the equations inserted in `marked`, l.192-196: colored, without derivative -/
def toMark (g : BG) : List Nat :=
  (List.range g.ne).filter fun i => (g.e i).colored && (g.e i).diff.isNone

/-- `marked.insert` -/
def insertAll (marked : List Nat) (l : List Nat) : List Nat := marked ++ l.filter fun i => !marked.contains i

/-- the equations just marked are no longer colored, l.197-198; with `all` every equation (the code has `all = false`) -/
def uncolorMarked (all : Bool) (g : BG) : BG :=
  { g with e := fun i => if all || (g.e i).diff.isNone then { g.e i with colored := false } else g.e i }

/-- l.207-208 -/
def uncolorV (g : BG) : BG := { g with v := fun j => { g.v j with colored := false } }

/-- l.211-212 -/
def uncolorE (g : BG) : BG := { g with e := fun i => { g.e i with colored := false } }

/-- an iteration of the loop over the equations, l.180-213 -/
def assignOne (all : Bool) (s : BG × List Nat) (k : Nat) : Except Err (BG × List Nat) :=
  match (s.1.e k).assign with
  | some _ => .ok s
  | none =>
    match augmentPathA s.1.ne k s.1 with
    | .error x => .error x
    | .ok (true, g) => .ok (uncolorE g, s.2)
    | .ok (false, g) =>
      let g1 := uncolorMarked all g
      match augmentPath g1.ne k g1 with
      | .error x => .error x
      | .ok (false, _) => .error .exception
      | .ok (true, g2) => .ok (uncolorV g2, insertAll s.2 (toMark g))

/-- the loop over the equations, l.179-214 -/
def assignAll (all : Bool) (g : BG) : Except Err (BG × List Nat) := (List.range g.ne).foldlM (assignOne all) (g, [])

/-- `detectSubset2Dif`, l.167-236: at most `fuel` rounds; the equations marked last, l.231-234, are those of which the
derivatives are removed afterwards -/
def detect (all : Bool) (order : List Nat → List Nat) : Nat → List Nat → BG → Except Err (BG × List Nat)
  | 0, _, _ => .error .running
  | fuel + 1, last, g =>
    match assignAll all g with
    | .error x => .error x
    | .ok (g', []) => .ok (g', last)
    | .ok (g', i :: l) => detect all order fuel (i :: l) ((order (i :: l)).foldl (BG.derivE false) g')

end Verif.Dae.Soares
