import Verif.Funcs.Spec

/-
Model of the emission of functions by `LanguageC` (include/cppad/cg/lang/c/language_c.hpp and
language_c_arrays.hpp):

* `printArrayStructInit`, `pushAtomicForwardOp`, `pushAtomicReverseOp`: assignments to the `Array` structs given to
  atomic functions, printed only for the members which changed since they were last printed,
* the main loop of `generateSourceCode` and `saveLocalFunction`: splitting of the code into several functions, and
  the function which calls them,
* the arguments of these functions, and `generateArrayContainersDeclaration`.

The text of one operation is an opaque number (its contents are modelled in `Verif.Print`, `Verif.Arrays`).
-/

namespace Verif.Funcs

/-! ### `Array` structs -/

/-- one printed assignment to a member of a struct -/
inductive Put
  | data (p : Ptr)
  | size (n : Nat)
  | sparse (b : Bool)
  | nnz (n : Nat)
  | idx (id : Nat)
  deriving DecidableEq, Repr

/-- `AtomicFuncArray`, language_c.hpp l.2190-2198. A new entry of the map is value initialized: empty text
(`data = none`), zeros, `false`. `idx_id = numeric_limits<size_t>::max()` is `none`. -/
structure Last where
  data : Option Ptr := none
  size : Nat := 0
  sparse : Bool := false
  idxId : Option Nat := some 0
  nnz : Nat := 0
  scope : Nat := 0
  deriving DecidableEq, Repr

/-- `_atomicFuncArrays`: the entries of the map -/
abbrev Cache := Slot → Option Last

def Cache.set (c : Cache) (s : Slot) (e : Last) : Cache := fun t => if t = s then some e else c t

/-- `aName` when it is used, `NULL` otherwise: language_c_arrays.hpp l.350-364, 384-398 -/
def dataOf (a : Arr) : Ptr :=
  if a.stored > 0 then (if a.sparse then .sparse a.id else .dense a.id) else .null

/-- `printArrayStructInit` for an array, language_c_arrays.hpp l.347-377 -/
def initDense (first : Bool) (e : Last) (a : Arr) : List Put × Last :=
  let r : List Put × Last := ([], e)
  let r := if first || some (dataOf a) ≠ r.2.data then (r.1 ++ [.data (dataOf a)], { r.2 with data := some (dataOf a) }) else r
  let r := if first || a.stored ≠ r.2.size then (r.1 ++ [.size a.stored], { r.2 with size := a.stored }) else r
  if first || r.2.sparse then (r.1 ++ [.sparse false], { r.2 with sparse := false }) else r

/-- `printArrayStructInit` for a sparse array, l.379-430 -/
def initSparse (first : Bool) (e : Last) (a : Arr) : List Put × Last :=
  let r : List Put × Last := ([], e)
  let r := if first || some (dataOf a) ≠ r.2.data then (r.1 ++ [.data (dataOf a)], { r.2 with data := some (dataOf a) }) else r
  let r := if first || a.full ≠ r.2.size then (r.1 ++ [.size a.full], { r.2 with size := a.full }) else r
  let r := if first || !r.2.sparse then (r.1 ++ [.sparse true], { r.2 with sparse := true }) else r
  let r := if first || a.stored ≠ r.2.nnz then (r.1 ++ [.nnz a.stored], { r.2 with nnz := a.stored }) else r
  if a.stored > 0 then
    (if first || some a.id ≠ r.2.idxId then (r.1 ++ [.idx a.id], { r.2 with idxId := some a.id }) else r)
  else (r.1, { r.2 with idxId := none })

/-- `printArrayStructInit`, l.335-436 -/
def structInit (c : Cache) (s : Slot) (a : Arr) : List Put × Cache :=
  let first := match c s with | none => true | some e => e.scope != a.scope
  let e := (c s).getD {}
  let r := if a.sparse then initSparse first e a else initDense first e a
  (r.1, c.set s { r.2 with scope := a.scope })

/-- statements of the generated code -/
inductive Tok
  /-- the text of an operation -/
  | text (n : Nat)
  | put (s : Slot) (p : Put)
  /-- a call with these structs -/
  | call (n : Nat) (args : List Slot)
  deriving DecidableEq, Repr

/-- `printArrayStructInit` for several structs, in order -/
def structInits : Cache → List (Slot × Arr) → List Tok × Cache
  | c, [] => ([], c)
  | c, (s, a) :: rest =>
    let r := structInit c s a
    let r' := structInits r.2 rest
    (r.1.map (.put s) ++ r'.1, r'.2)

/-- `tx[k]` for `k = 0, 1, ...` -/
def slots (mk : Nat → Slot) (as : List Arr) : List (Slot × Arr) := as.mapIdx fun k a => (mk k, a)

/-- `pushAtomicForwardOp`, language_c.hpp l.1791-1831 -/
def forwardToks (c : Cache) (n : Nat) (tx : List Arr) (ty : Arr) : List Tok × Cache :=
  let r := structInits c (slots .tx tx ++ [(.ty, ty)])
  (r.1 ++ [.call n ((slots .tx tx).map (·.1) ++ [.ty])], r.2)

/-- `pushAtomicReverseOp`, l.1833-1879: the structs are filled in the order tx, py, px -/
def reverseToks (c : Cache) (n : Nat) (tx : List Arr) (px : Arr) (py : List Arr) : List Tok × Cache :=
  let r := structInits c (slots .tx tx ++ slots .py py ++ [(.px, px)])
  (r.1 ++ [.call n ((slots .tx tx).map (·.1) ++ [.px] ++ (slots .py py).map (·.1))], r.2)

/-! ### splitting into functions, language_c.hpp l.663-960 -/

structure GenSt where
  /-- `_code` -/
  code : List (Br Tok) := []
  cache : Cache := fun _ => none
  /-- `_currentLoops.size()` -/
  loops : Nat := 0
  /-- `assignCount` -/
  count : Nat := 0
  /-- bodies of the functions saved by `saveLocalFunction`, l.1048-1089 -/
  funcs : List (List (Br Tok)) := []

def GenSt.print (g : GenSt) (ts : List (Br Tok)) : GenSt := { g with code := g.code ++ ts }

/-- `saveLocalFunction`, l.1048-1089: the code becomes the body of a new function; `_atomicFuncArrays` is not
changed -/
def GenSt.save (g : GenSt) : GenSt := { g with code := [], count := 0, funcs := g.funcs ++ [g.code] }

/-- one operation, l.836-849, with the number of lines added to `assignCount`. Runs of `LoopIndexedDep` are printed
by `printLoopIndexDeps` (language_c_loops.hpp l.31-55), without a check for a new function in between; as nothing
is added to `assignCount` no function starts there. -/
def GenSt.op (g : GenSt) : Br Op → GenSt
  | .tok .silent => g
  | .tok (.indexedDep n) => g.print [.tok (.text n)]
  | .tok (.plain n lines) => { g.print [.tok (.text n)] with count := g.count + lines }
  | .tok (.forward n tx ty) =>
    let r := forwardToks g.cache n tx ty
    { g.print (r.1.map .tok) with cache := r.2, count := g.count + 1 }
  | .tok (.reverse n tx px py) =>
    let r := reverseToks g.cache n tx px py
    { g.print (r.1.map .tok) with cache := r.2, count := g.count + 1 }
  | .forOpen h s => { g.print [.forOpen h s] with loops := g.loops + 1, count := g.count + 1 }
  | .forClose => { g.print [.forClose] with loops := g.loops - 1, count := g.count + 1 }
  | .ifOpen c s => { g.print [.ifOpen c s] with count := g.count + 1 }
  | .elif c s => { g.print [.elif c s] with count := g.count + 1 }
  | .els s => { g.print [.els s] with count := g.count + 1 }
  | .ifClose => { g.print [.ifClose] with count := g.count + 1 }

/-- body of the loop over `variableOrder`, l.827-852; `limit` is `_maxAssignmentsPerFunction` if several functions
are allowed (`multiFunction`, l.667) -/
def GenSt.step (limit : Option Nat) (g : GenSt) (o : Br Op) : GenSt :=
  let g := match limit with
    | some k => if g.count ≥ k ∧ g.loops = 0 then g.save else g
    | none => g
  g.op o

/-- l.811-858: `zero` is the code which sets the dependent variables to zero -/
def generate (limit : Option Nat) (zero : List Nat) (ops : List (Br Op)) : GenSt :=
  if ops = [] then {} else
    let g := ops.foldl (GenSt.step limit) { code := zero.map fun n => .tok (.text n) }
    if g.funcs ≠ [] ∧ g.count > 0 then g.save else g

/-- l.667: a limit of zero is no limit -/
def limitOf (maxAssignments : Nat) : Option Nat := if maxAssignments > 0 then some maxAssignments else none

/-- The generated program, l.860-960. If there are local functions then what is left in `_code` (`stray`) is written
before the definition of the structs and the function which calls them, that is outside of any function. -/
structure Program where
  stray : List (Br Tok)
  funcs : List (List (Br Tok))
  /-- body of the function with the requested name, after the calls of the local functions -/
  main : List (Br Tok)

/-- `tail`: duplicated and constant dependent variables, l.888-923 -/
def program (maxAssignments : Nat) (zero : List Nat) (ops : List (Br Op)) (tail : List Nat) : Program :=
  let g := generate (limitOf maxAssignments) zero ops
  let t := tail.map fun n => Br.tok (Tok.text n)
  if g.funcs = [] then ⟨[], [], g.code ++ t⟩ else ⟨g.code, g.funcs, t⟩

/-! ### running the generated program -/

/-- the structs of a function -/
abbrev Structs := Slot → Fields

def Put.apply (f : Fields) : Put → Fields
  | .data p => { f with data := some p }
  | .size n => { f with size := some n }
  | .sparse b => { f with sparse := some b }
  | .nnz n => { f with nnz := some n }
  | .idx i => { f with idx := some i }

/-- C semantics of the generated statements -/
def Sem.gen {M L : Type} (σ : Sem M L) : Machine Tok (M × L × Structs) where
  step
    | .text n, (m, l, a) => let r := σ.act n m l; some (r.1, r.2, a)
    | .put s p, (m, l, a) => some (m, l, fun t => if t = s then p.apply (a t) else a t)
    | .call n args, (m, l, a) => (args.mapM fun s => (a s).view).map fun vs => (σ.call n vs m, l, a)
  count h s := σ.count h s.1 s.2.1
  index h k s := (s.1, σ.index h k s.2.1, s.2.2)
  cond c s := σ.cond c s.1 s.2.1

/-- calls of functions one after another: every function starts with its own variables, `fresh k` are the values
that the variables of function number `k` happen to have, its structs are not initialized -/
inductive Sem.Calls {M L : Type} (σ : Sem M L) (fresh : Nat → L) : Nat → List (List (Br Tok)) → M → Option M → Prop
  | done (k : Nat) (m : M) : Sem.Calls σ fresh k [] m (some m)
  | bad (k : Nat) (f : List (Br Tok)) (fs : List (List (Br Tok))) (m : M) :
      σ.gen.Runs f (m, fresh k, fun _ => {}) none → Sem.Calls σ fresh k (f :: fs) m none
  | next (k : Nat) (f : List (Br Tok)) (fs : List (List (Br Tok))) (m : M) (s : M × L × Structs) (r : Option M) :
      σ.gen.Runs f (m, fresh k, fun _ => {}) (some s) → Sem.Calls σ fresh (k + 1) fs s.1 r →
      Sem.Calls σ fresh k (f :: fs) m r

/-- call of the generated function: the local functions, then its own code -/
def Program.Runs {M L : Type} (σ : Sem M L) (fresh : Nat → L) (p : Program) (m : M) (r : Option M) : Prop :=
  p.stray = [] ∧ σ.Calls fresh 0 (p.funcs ++ [p.main]) m r

/-! ### arguments, language_c.hpp l.447-500, 739-754 -/

/-- names of the parameters of the local functions, l.740-747: `indexes` are the names of `_funcArgIndexes` -/
def localParams (indexes : List String) (x y atomic v arr sarr : String) : List String :=
  indexes ++ [x, y, atomic] ++ [v, arr, sarr, "idx"]

/-- arguments in the calls of the local functions, l.749-753 -/
def localArgs (x y atomic v arr sarr : String) : List String := [x, y, atomic] ++ [v, arr, sarr, "idx"]

/-! ### declaration of the structs, language_c.hpp l.389-415, code_handler_impl.hpp l.1473-1505 -/

/-- highest orders found by the code handler for each atomic function (by position), l.1481-1504 -/
structure MaxOrders where
  forward : List Int
  reverse : List Int

/-- one call: position of its atomic function, forward mode, order -/
structure CallInfo where
  pos : Nat
  fwd : Bool
  order : Nat

def MaxOrders.visit (m : MaxOrders) (c : CallInfo) : MaxOrders :=
  if c.fwd then { m with forward := m.forward.modify c.pos (max · (c.order : Int)) }
  else { m with reverse := m.reverse.modify c.pos (max · (c.order : Int)) }

/-- `std::max_element`, or -1 -/
def maxOrder (l : List Int) : Int := match l with | [] => -1 | a :: r => r.foldl max a

/-- declared structs, l.403-415: lengths of `atx` and `apy`, and whether `aty` and `apx` are declared -/
structure Declared where
  tx : Int := 0
  ty : Bool := false
  px : Bool := false
  py : Int := 0

def declare (m : MaxOrders) : Declared :=
  let f := maxOrder m.forward
  let r := maxOrder m.reverse
  if f ≥ 0 ∨ r ≥ 0 then
    { tx := max f r + 1, ty := f ≥ 0, px := r ≥ 0, py := if r ≥ 0 then r + 1 else 0 }
  else {}

end Verif.Funcs
