import Verif.Atomic.SpecSparsity
import Verif.Sparsity.Model
/-
Model of the sparsity functions of atomic functions: `CGAtomicGenericModel` (model/atomic_generic_model.hpp), an atomic
function which is a compiled model, `CGAtomicFunBridge` (atomic_fun_bridge.hpp), an atomic function which is a recorded
function, and `CustomPosition` (custom_position.hpp), the restriction of a pattern to elements chosen by the user.

The patterns of the compiled model and of the recorded function are parameters (C27, C49). Reading or writing outside a
vector gives `none`. The functions always return `true`.
-/
namespace Verif.Atomic
open Verif.Sparsity

/-- `s[i].clear()` for `i < k` -/
def clearRows (k : Nat) (s : Pattern) : Option Pattern :=
  if k ≤ s.length then some (List.replicate k [] ++ s.drop k) else none

/-! ### compiled models, model/atomic_generic_model.hpp -/

/-- `for_sparse_jac`, l.92-107 -/
def forSparseJac (jac : Pattern) (m n q : Nat) (r s : Pattern) : Option Pattern := do
  let s ← clearRows m s
  mult jac r s m n q

/-- `rev_sparse_jac`, l.116-131 -/
def revSparseJac (jac : Pattern) (m n q : Nat) (rT sT : Pattern) : Option Pattern := do
  let sT ← clearRows n sT
  multTrans jac rT sT m n q

/-- the loop l.167-173: whether all results are selected; it stops at the first which is not -/
def allSelectedFrom (s : List Bool) (i : Nat) : Nat → Option Bool
  | 0 => some true
  | k + 1 => do
    let b ← s[i]?
    if b then allSelectedFrom s (i + 1) k else some false

/-- the loop l.181-186: the sum of the patterns of the selected Hessians -/
def sumHess (hes : Nat → Pattern) (s : List Bool) (m n : Nat) : Option Pattern :=
  (List.range m).foldlM (fun acc i => do
    let b ← s[i]?
    if b then addMatrix (hes i) (hes i).length acc else pure acc) (List.replicate n [])

/-- `t[j] = true` -/
def setTrue (t : List Bool) (j : Nat) : Option (List Bool) := if j < t.length then some (t.set j true) else none

/-- the loop l.193-199 -/
def selectFlags (jac : Pattern) (s : List Bool) (m : Nat) (t : List Bool) : Option (List Bool) :=
  (List.range m).foldlM (fun t i => do
    let b ← s[i]?
    if b then do
      let row ← jac[i]?
      row.foldlM setTrue t
    else pure t) t

/-- `resize(n)` -/
def resizeRows (n : Nat) (p : Pattern) : Pattern := p.take n ++ List.replicate (n - p.length) []

/-- `rev_sparse_hes`, l.144-202; `hesAll` is the Hessian pattern of the model and `hes i` the one of result `i`. Gives `t`
and `v`. -/
def revSparseHes (jac hesAll : Pattern) (hes : Nat → Pattern) (m n q : Nat) (s t : List Bool) (r u v : Pattern) :
    Option (List Bool × Pattern) := do
  let v ← clearRows n v
  let v ← multTrans jac u v m n q
  let all ← allSelectedFrom s 0 m
  let v ← if all then mult (resizeRows n hesAll) r v n n q
    else do
      let h ← sumHess hes s m n
      mult h r v n n q
  let t ← selectFlags jac s m t
  pure (t, v)

/-! ### custom_position.hpp -/

/-- `CustomPosition`: the table of allowed elements, if defined, and the elements, if computed -/
structure Custom where
  filter : Option (List (List Bool))
  full : Option Pattern
deriving DecidableEq, Repr

/-- the default constructor, l.34-37 -/
def Custom.none : Custom := ⟨.none, .none⟩

/-- `elFilter_[i][j] = true` -/
def allow (f : List (List Bool)) (e : Nat × Nat) : Option (List (List Bool)) :=
  match f[e.1]? with
  | .none => .none
  | some row => if e.2 < row.length then some (f.set e.1 (row.set e.2 true)) else .none

/-- the constructor with lists of rows and columns, l.40-50; the lists have the same length (asserted) -/
def Custom.mk' (m n : Nat) (rows cols : List Nat) : Option Custom :=
  match (rows.zip cols).foldlM allow (List.replicate m (List.replicate n false)) with
  | some f => some ⟨some f, .none⟩
  | .none => .none

/-- the elements of a row which are kept, l.102-110 -/
def filterRow (f : List Bool) : List Nat → Option (List Nat)
  | [] => some []
  | j :: js =>
    match f[j]?, filterRow f js with
    | some b, some r => some (if b then j :: r else r)
    | _, _ => .none

/-- `filter`, l.95-112, from row `i` on. The table is only read for rows with elements. -/
def filterFrom (f : List (List Bool)) (i : Nat) : Pattern → Option Pattern
  | [] => some []
  | row :: rows =>
    match filterRow (f.getD i []) row, filterFrom f (i + 1) rows with
    | some r, some rs => some (r :: rs)
    | _, _ => .none

def Custom.apply (c : Custom) (p : Pattern) : Option Pattern :=
  match c.filter with
  | .none => some p
  | some f => filterFrom f 0 p

/-- `if (!isFullDefined()) setFullElements(p)` and `getFullElements()` -/
def Custom.load (c : Custom) (p : Pattern) : Option (Custom × Pattern) :=
  match c.full with
  | some e => some (c, e)
  | .none =>
    match c.apply p with
    | some e => some (⟨c.filter, some e⟩, e)
    | .none => .none

/-! ### recorded functions, atomic_fun_bridge.hpp -/

/-- the members `custom_jac_`, `custom_hess_` and `hess_` -/
structure Bridge where
  jac : Custom
  hes : Custom
  hess : List (Nat × Pattern)
deriving DecidableEq, Repr

/-- after construction -/
def Bridge.new : Bridge := ⟨.none, .none, []⟩

/-- `setCustomSparseJacobianElements`, l.76-79 -/
def Bridge.setJac (b : Bridge) (m n : Nat) (rows cols : List Nat) : Option Bridge :=
  (Custom.mk' m n rows cols).map fun c => { b with jac := c }

/-- `setCustomSparseHessianElements`, l.87-91 -/
def Bridge.setHes (b : Bridge) (n : Nat) (rows cols : List Nat) : Option Bridge :=
  (Custom.mk' n n rows cols).map fun c => { b with hes := c }

/-- `for_sparse_jac`, l.106-129, the branch with patterns of the class (taken by default); `J` is the pattern CppAD gives
for the Jacobian -/
def Bridge.forJac (J : Pattern) (b : Bridge) (m n q : Nat) (r s : Pattern) : Option (Bridge × Pattern) := do
  let (c, e) ← b.jac.load J
  let s ← mult e r (List.replicate s.length []) m n q
  pure ({ b with jac := c }, s)

/-- `rev_sparse_jac`, l.138-159 -/
def Bridge.revJac (J : Pattern) (b : Bridge) (m n q : Nat) (rt st : Pattern) : Option (Bridge × Pattern) := do
  let (c, e) ← b.jac.load J
  let st ← multT rt e (List.replicate st.length []) m n q
  pure ({ b with jac := c }, st)

/-- the pattern of the Hessian of one result, l.219-227, and the map afterwards; `H i` is what CppAD gives -/
def Bridge.oneHess (H : Nat → Pattern) (b : Bridge) (i : Nat) : Option (Bridge × Pattern) :=
  match b.hess.find? (·.1 == i) with
  | some g => some (b, g.2)
  | .none =>
    match b.hes.apply (H i) with
    | some h => some ({ b with hess := (i, h) :: b.hess }, h)
    | .none => .none

/-- the loop l.216-230 -/
def Bridge.sumHess (H : Nat → Pattern) (s : List Bool) (m n : Nat) (b : Bridge) : Option (Bridge × Pattern) :=
  (List.range m).foldlM (fun (acc : Bridge × Pattern) i => do
    let f ← s[i]?
    if f then do
      let (b, h) ← acc.1.oneHess H i
      let a ← addMatrix h h.length acc.2
      pure (b, a)
    else pure acc) (b, List.replicate n [])

/-- `rev_sparse_hes`, l.172-243; `Hall` is the pattern CppAD gives for the Hessian of all results -/
def Bridge.revHes (J Hall : Pattern) (H : Nat → Pattern) (b : Bridge) (m n q : Nat) (s t : List Bool) (r u v : Pattern) :
    Option (Bridge × List Bool × Pattern) := do
  let v ← clearRows n v
  let (c, jac) ← b.jac.load J
  let b := { b with jac := c }
  let v ← multTrans jac u v m n q
  let all ← allSelectedFrom s 0 m
  let (b, v) ← if all then do
      let (c, h) ← b.hes.load Hall
      let v ← multTrans h r v n n q
      pure ({ b with hes := c }, v)
    else do
      let (b, h) ← b.sumHess H s m n
      let v ← multTrans h r v n n q
      pure (b, v)
  let t ← selectFlags jac s m t
  pure (b, t, v)

/-- one use of the object -/
inductive Use where
  | forJac (q : Nat) (r s : Pattern)
  | revJac (q : Nat) (rt st : Pattern)
  | revHes (q : Nat) (s t : List Bool) (r u v : Pattern)

/-- the object after a use -/
def Bridge.use (J Hall : Pattern) (H : Nat → Pattern) (m n : Nat) (b : Bridge) : Use → Option Bridge
  | .forJac q r s => (b.forJac J m n q r s).map (·.1)
  | .revJac q rt st => (b.revJac J m n q rt st).map (·.1)
  | .revHes q s t r u v => (b.revHes J Hall H m n q s t r u v).map (·.1)

end Verif.Atomic
