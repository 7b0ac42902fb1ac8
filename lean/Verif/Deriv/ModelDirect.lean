import Verif.Deriv.Model
/-
Model of `generateSparseHessianSourceDirectly`, model_c_source_gen_hes.hpp l.93-224 (without loops), and of the use of
symmetry in `generateHessianSource`, l.53-60. `oracle` is what CppAD's `SparseHessian` gives for an element.
-/
namespace Verif.Deriv

/-- `locations`, hes.hpp l.107-123: the map from elements to their places; a repeated element is an exception -/
def locationsOf : Nat → List (Nat × Nat) → List ((Nat × Nat) × Nat) → Except Err (List ((Nat × Nat) × Nat))
  | _, [], locs => .ok locs
  | e, p :: ps, locs =>
    match locs.find? (·.1 == p) with
    | none => locationsOf (e + 1) ps (locs ++ [(p, e)])
    | some _ => .error .exception

/-- the loop hes.hpp l.135-157 from place `e` on: the places and elements to evaluate, and the places of the others with
the place of the symmetric element -/
def lowerOf (locs : List ((Nat × Nat) × Nat)) : Nat → List (Nat × Nat) → List (Nat × (Nat × Nat)) × List (Nat × Nat)
  | _, [] => ([], [])
  | e, (i, j) :: ps =>
    let r := lowerOf locs (e + 1) ps
    if i < j then
      match locs.find? (·.1 == (j, i)) with
      | some l => (r.1, (e, l.2) :: r.2)
      | none => ((e, (i, j)) :: r.1, r.2)
    else ((e, (i, j)) :: r.1, r.2)

/-- `hess[lowerHessOrder[i]] = lowerHess[i]`, hes.hpp l.193-195 -/
def putAll {V : Type} : List (Nat × V) → List V → Except Err (List V)
  | [], a => .ok a
  | (e, v) :: ws, a => if e < a.length then putAll ws (a.set e v) else .error .ub

/-- `hess[it2.first] = hess[it2.second]`, hes.hpp l.198-200; the keys of the map are increasing -/
def putDuplicates {V : Type} : List (Nat × Nat) → List V → Except Err (List V)
  | [], a => .ok a
  | (e, s) :: ws, a =>
    match a[s]? with
    | none => .error .ub
    | some v => if e < a.length then putDuplicates ws (a.set e v) else .error .ub

/-- the vector `hess` given to `generateCode` -/
def directHessian {V : Type} [Zero V] (oracle : Nat → Nat → V) (sp : Nat → Nat → Bool) (els : List (Nat × Nat)) :
    Except Err (List V) :=
  let ev := evalElements sp els
  match locationsOf 0 ev [] with
  | .error e => .error e
  | .ok locs =>
    let r := lowerOf locs 0 ev
    match putAll (r.1.map fun w => (w.1, oracle w.2.1 w.2.2)) (List.replicate els.length 0) with
    | .error e => .error e
    | .ok a => putDuplicates r.2 a

/-- `hess[i * n + j] = hess[j * n + i]` for `j < i`, hes.hpp l.56-60 -/
def denseSymmetric {V : Type} (n : Nat) (a : List V) : Except Err (List V) :=
  putDuplicates ((List.range n).flatMap fun i => (List.range i).map fun j => (i * n + j, j * n + i)) a

end Verif.Deriv
