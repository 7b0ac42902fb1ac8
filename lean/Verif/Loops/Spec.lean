import Mathlib.Algebra.BigOperators.Group.Finset.Basic
import Mathlib.Algebra.Ring.Defs

/-
Specification for derivatives of models with loops. A loop is a small function (the loop's tape) which is evaluated
once per iteration. Its arguments are variables of the whole model chosen by the iteration (indexed), variables of the
whole model which are the same in all iterations (non-indexed) and values computed before the loop (temporaries).
Nothing here knows how code is generated.
-/
namespace Verif.Loops

/-- what the arguments and results of the loop's tape stand for. `none`: absent in that iteration. -/
structure Loop where
  /-- number of iterations -/
  iters : Nat
  /-- `dep[tapeI][it]`: equation of the whole model which tape equation `tapeI` computes at iteration `it` -/
  dep : List (List (Option Nat))
  /-- `ind[tapeJ][it]`: variable of the whole model which the indexed tape variable `tapeJ` is at iteration `it` -/
  ind : List (List (Option Nat))
  /-- variables of the whole model which are the non-indexed tape variables -/
  non : List Nat
  /-- temporaries which are the last tape variables -/
  tmp : List Nat
deriving DecidableEq

/-- equation of the whole model computed by `tapeI` at iteration `it` -/
def Loop.eq (l : Loop) (tapeI it : Nat) : Option Nat := ((l.dep[tapeI]?).bind (·[it]?)).join

/-- variable of the whole model which the indexed variable `tapeJ` is at iteration `it` -/
def Loop.var (l : Loop) (tapeJ it : Nat) : Option Nat := ((l.ind[tapeJ]?).bind (·[it]?)).join

/-- one contribution of a loop to a vector of results: at iteration `it` the value `val it` belongs to the element
`loc it`, or nothing happens if that is `none` -/
structure Contr (α : Type) where
  val : Nat → α
  loc : Nat → Option Nat

/-- element and value of the contributions at one iteration -/
def atIter {α : Type} (it : Nat) (cs : List (Contr α)) : List (Nat × α) :=
  cs.filterMap fun c => (c.loc it).map fun e => (e, c.val it)

/-- chain rule for the first derivative of one tape equation at one iteration with respect to the variable `j` of the
whole model: `D t` is the derivative with respect to the tape variable `t`, `dz k j` the derivative of temporary `k` -/
def Loop.chain {α : Type} [CommRing α] (l : Loop) (D : Nat → α) (dz : Nat → Nat → α) (it j : Nat) : α :=
  (∑ t ∈ Finset.range l.ind.length, if l.var t it = some j then D t else 0) +
  (∑ p ∈ Finset.range l.non.length, if l.non[p]? = some j then D (l.ind.length + p) else 0) +
  (∑ p ∈ Finset.range l.tmp.length, match l.tmp[p]? with
    | some k => D (l.ind.length + l.non.length + p) * dz k j
    | none => 0)

/-- the part of a model outside of the loops: its equations and the sparsity pattern of its tape. The rows of the tape after
those of the equations are the temporaries. -/
structure Free where
  eqs : List Nat
  jac : List (List Nat)

/-- a model: loops with the Jacobian sparsity patterns of their tapes, and the part outside of the loops -/
structure Model where
  loops : List (Loop × List (List Nat))
  free : Option Free

/-- number of equations outside of the loops -/
def Model.nFree (M : Model) : Nat := match M.free with | some fr => fr.eqs.length | none => 0

/-- the first derivative of equation `i` with respect to variable `j` is `v`. `D q tapeI tapeJ it` are the derivatives
of the tape of loop `q` at iteration `it`, `G r j` those of row `r` of the tape of the part outside of the loops. -/
inductive Model.Deriv {α : Type} [CommRing α] (M : Model) (D : Nat → Nat → Nat → Nat → α) (G : Nat → Nat → α) (i j : Nat) : α → Prop
  | loop {q tapeI it : Nat} {l : Loop} {jac : List (List Nat)} (hl : M.loops[q]? = some (l, jac)) (hi : l.eq tapeI it = some i) :
      Deriv M D G i j (l.chain (fun t => D q tapeI t it) (fun k j => G (M.nFree + k) j) it j)
  | free {r : Nat} {fr : Free} (hf : M.free = some fr) (hi : fr.eqs[r]? = some i) : Deriv M D G i j (G r j)

/-- equation `i` has this value: `Y q tapeI it` are the results of the tape of loop `q`, `F r` those of the part outside of
the loops -/
inductive Model.Value {α : Type} (M : Model) (Y : Nat → Nat → Nat → α) (F : Nat → α) (i : Nat) : α → Prop
  | loop {q tapeI it : Nat} {l : Loop} {jac : List (List Nat)} (hl : M.loops[q]? = some (l, jac)) (hi : l.eq tapeI it = some i) :
      Value M Y F i (Y q tapeI it)
  | free {r : Nat} {fr : Free} (hf : M.free = some fr) (hi : fr.eqs[r]? = some i) : Value M Y F i (F r)

/-- the tables of the model fit together: sizes, no equation is computed twice, no non-indexed variable or temporary is
two tape variables, temporaries exist -/
structure Model.Ok (M : Model) : Prop where
  rows : ∀ (q : Nat) (l : Loop) (jac : List (List Nat)), M.loops[q]? = some (l, jac) → jac.length = l.dep.length
  deps : ∀ (q : Nat) (l : Loop) (jac : List (List Nat)), M.loops[q]? = some (l, jac) → ∀ d ∈ l.dep, d.length = l.iters
  cols : ∀ (q : Nat) (l : Loop) (jac : List (List Nat)), M.loops[q]? = some (l, jac) → ∀ row ∈ jac, ∀ t ∈ row, t < l.ind.length + l.non.length + l.tmp.length
  non : ∀ (q : Nat) (l : Loop) (jac : List (List Nat)), M.loops[q]? = some (l, jac) → l.non.Nodup
  tmp : ∀ (q : Nat) (l : Loop) (jac : List (List Nat)), M.loops[q]? = some (l, jac) → l.tmp.Nodup
  iters : ∀ (q : Nat) (l : Loop) (jac : List (List Nat)), M.loops[q]? = some (l, jac) → l.iters < 2 ^ 64
  temps : ∀ (q : Nat) (l : Loop) (jac : List (List Nat)), M.loops[q]? = some (l, jac) → ∀ k ∈ l.tmp, ∃ fr, M.free = some fr ∧ fr.eqs.length + k < fr.jac.length
  once : ∀ (q q' : Nat) (l l' : Loop) (jac jac' : List (List Nat)) (t t' it it' i : Nat), M.loops[q]? = some (l, jac) → M.loops[q']? = some (l', jac') →
    l.eq t it = some i → l'.eq t' it' = some i → q = q' ∧ t = t' ∧ it = it'
  apart : ∀ (q : Nat) (l : Loop) (jac : List (List Nat)) (t it i : Nat) (fr : Free), M.loops[q]? = some (l, jac) → l.eq t it = some i → M.free = some fr → i ∉ fr.eqs
  eqs : ∀ fr, M.free = some fr → fr.eqs.Nodup

/-- the sparsity patterns say that equation `i`, which a loop computes, depends on variable `j` -/
def Model.LoopDep (M : Model) (i j : Nat) : Prop :=
  ∃ (q tapeI it t : Nat) (l : Loop) (jac : List (List Nat)) (row : List Nat), M.loops[q]? = some (l, jac) ∧
    l.eq tapeI it = some i ∧ jac[tapeI]? = some row ∧ t ∈ row ∧
    (l.var t it = some j ∨
     (∃ p, l.non[p]? = some j ∧ t = l.ind.length + p) ∨
     ∃ p k fr sp, l.tmp[p]? = some k ∧ t = l.ind.length + l.non.length + p ∧ M.free = some fr ∧
       fr.jac[fr.eqs.length + k]? = some sp ∧ j ∈ sp)

/-- equation `i` is computed by a loop or outside of the loops -/
def Model.Computes (M : Model) (i : Nat) : Prop :=
  (∃ (q t it : Nat) (l : Loop) (jac : List (List Nat)), M.loops[q]? = some (l, jac) ∧ l.eq t it = some i) ∨ ∃ fr, M.free = some fr ∧ i ∈ fr.eqs

/-- the sparsity patterns cover the derivatives -/
structure Model.Covers {α : Type} [CommRing α] (M : Model) (D : Nat → Nat → Nat → Nat → α) (G : Nat → Nat → α) : Prop where
  loops : ∀ (q : Nat) (l : Loop) (jac : List (List Nat)), M.loops[q]? = some (l, jac) → ∀ (t : Nat) (row : List Nat), jac[t]? = some row → ∀ t', t' ∉ row → ∀ it, D q t t' it = 0
  free : ∀ fr, M.free = some fr → ∀ (r : Nat) (sp : List Nat), fr.jac[r]? = some sp → ∀ j, j ∉ sp → G r j = 0

end Verif.Loops
