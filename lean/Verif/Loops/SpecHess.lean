import Verif.Loops.Spec

/-
Specification of second derivatives of models with loops: the chain rule for the weighted sum of all equations.
-/
namespace Verif.Loops

variable {α : Type} [CommRing α]

/-- number of variables of the loop's tape -/
def Loop.vars (l : Loop) : Nat := l.ind.length + l.non.length + l.tmp.length

/-- derivative of the tape variable `t` at iteration `it` with respect to the variable `j` of the whole model; `dz k j` are the
derivatives of temporary `k` -/
def Loop.dvar (l : Loop) (dz : Nat → Nat → α) (it t j : Nat) : α :=
  if t < l.ind.length then (if l.var t it = some j then 1 else 0)
  else if t < l.ind.length + l.non.length then (if l.non[t - l.ind.length]? = some j then 1 else 0)
  else match l.tmp[t - (l.ind.length + l.non.length)]? with
    | some k => dz k j
    | none => 0

/-- second derivative of one tape equation at one iteration with respect to the variables `j1` and `j2` of the whole model:
`H` and `D` are the second and first derivatives with respect to the tape variables, `dz` and `ddz` those of the temporaries -/
def Loop.chain2 (l : Loop) (H : Nat → Nat → α) (D : Nat → α) (dz : Nat → Nat → α) (ddz : Nat → Nat → Nat → α) (it j1 j2 : Nat) : α :=
  (∑ t1 ∈ Finset.range l.vars, ∑ t2 ∈ Finset.range l.vars, l.dvar dz it t1 j1 * H t1 t2 * l.dvar dz it t2 j2) +
  ∑ p ∈ Finset.range l.tmp.length, match l.tmp[p]? with
    | some k => D (l.ind.length + l.non.length + p) * ddz k j1 j2
    | none => 0

/-- second derivatives of the equations of one loop: equation `i` of the whole model has the weight `W i` -/
def Loop.hess (l : Loop) (W : Nat → α) (H : Nat → Nat → Nat → Nat → α) (D : Nat → Nat → Nat → α) (dz : Nat → Nat → α)
    (ddz : Nat → Nat → Nat → α) (j1 j2 : Nat) : α :=
  ∑ it ∈ Finset.range l.iters, ∑ i ∈ Finset.range l.dep.length, match l.eq i it with
    | some o => W o * l.chain2 (fun t1 t2 => H i t1 t2 it) (fun t => D i t it) dz ddz it j1 j2
    | none => 0

/-- second derivative of the weighted sum of all equations with respect to `j1` and `j2`. `H q i t1 t2 it` and `D q i t it` are
derivatives of the tape of loop `q`, `G r j` and `G2 r j1 j2` those of row `r` of the tape outside of the loops. -/
def Model.hess (M : Model) (W : Nat → α) (H : Nat → Nat → Nat → Nat → Nat → α) (D : Nat → Nat → Nat → Nat → α) (G : Nat → Nat → α)
    (G2 : Nat → Nat → Nat → α) (j1 j2 : Nat) : α :=
  (match M.free with
    | some fr => ∑ r ∈ Finset.range fr.eqs.length, match fr.eqs[r]? with
        | some o => W o * G2 r j1 j2
        | none => 0
    | none => 0) +
  ∑ q ∈ Finset.range M.loops.length, match M.loops[q]? with
    | some lj => lj.1.hess W (H q) (D q) (fun k j => G (M.nFree + k) j) (fun k j1 j2 => G2 (M.nFree + k) j1 j2) j1 j2
    | none => 0

/-- sparsity patterns and sizes: `m` is the number of equations of the whole model, `row q I t` the row of tape variable `t` of the
Hessian pattern of the tape equations `I` of loop `q`, `eqs` and `tmp` the rows of the Hessian patterns of the equations and of the
temporaries outside of the loops -/
structure Hes where
  m : Nat
  row : Nat → List Nat → Nat → List Nat
  eqs : Nat → List Nat
  tmp : Nat → List Nat

/-- the Hessian patterns are symmetric and cover the second derivatives, which are symmetric -/
structure Model.Covers2 (M : Model) (P : Hes) (H : Nat → Nat → Nat → Nat → Nat → α) (G2 : Nat → Nat → Nat → α) : Prop where
  rowSym : ∀ q I t1 t2, t2 ∈ P.row q I t1 → t1 ∈ P.row q I t2
  symH : ∀ q i t1 t2 it, H q i t1 t2 it = H q i t2 t1 it
  symG : ∀ r j1 j2, G2 r j1 j2 = G2 r j2 j1
  loops : ∀ q I, ∀ i ∈ I, ∀ t1 t2, t2 ∉ P.row q I t1 → ∀ it, H q i t1 t2 it = 0
  eqs : ∀ r < M.nFree, ∀ j1 j2, j2 ∉ P.eqs j1 → G2 r j1 j2 = 0
  tmp : ∀ k j1 j2, j2 ∉ P.tmp j1 → G2 (M.nFree + k) j1 j2 = 0
  jac : ∀ fr, M.free = some fr → ∀ (r : Nat) (sp : List Nat), fr.jac[r]? = some sp → ∀ j1, j1 ∉ sp → ∀ j2, G2 r j1 j2 = 0

/-- the row of a temporary which depends on `j1` in a Hessian pattern of a loop contains the number `j2` itself if it contains the tape
variable which stands for the non-indexed variable `j2` -/
def Model.Findable (M : Model) (P : Hes) (j1 j2 : Nat) : Prop :=
  ∀ (q : Nat) (l : Loop) (jac : List (List Nat)) (I : List Nat) (p s k : Nat) (fr : Free) (sp : List Nat), M.loops[q]? = some (l, jac) →
    l.non[p]? = some j2 → l.tmp[s]? = some k → M.free = some fr → fr.jac[fr.eqs.length + k]? = some sp → j1 ∈ sp →
    l.ind.length + p ∈ P.row q I (l.ind.length + l.non.length + s) → j2 ∈ P.row q I (l.ind.length + l.non.length + s)

/-- every tape equation of a loop is computed in some iteration -/
def Model.AllUsed (M : Model) : Prop :=
  ∀ (q : Nat) (l : Loop) (jac : List (List Nat)), M.loops[q]? = some (l, jac) → ∀ i < l.dep.length, ∃ it o, l.eq i it = some o

end Verif.Loops
