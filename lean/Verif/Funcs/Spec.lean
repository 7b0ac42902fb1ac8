/-
Reference notions for the functions written by `LanguageC::generateSourceCode`: structured C code, what running it
does, and what the called atomic functions see of the `Array` structs they are given.

Nothing here refers to the generator.
-/

namespace Verif.Funcs

/-! ### structured code -/

mutual
/-- code with loops and conditional blocks; every block carries a number (its scope) -/
inductive Code (τ : Type)
  | nil
  | one (t : τ) (rest : Code τ)
  | loop (h scope : Nat) (body rest : Code τ)
  | ifs (c scope : Nat) (body : Code τ) (alts : Alts τ) (rest : Code τ)
/-- what follows the first branch of a conditional block -/
inductive Alts (τ : Type)
  | done
  | els (scope : Nat) (body : Code τ)
  | elif (c scope : Nat) (body : Code τ) (alts : Alts τ)
end

/-- pieces of flat code: statements, and the lines with braces -/
inductive Br (τ : Type)
  | tok (t : τ)
  | forOpen (h scope : Nat)
  | forClose
  | ifOpen (c scope : Nat)
  | elif (c scope : Nat)
  | els (scope : Nat)
  | ifClose
  deriving DecidableEq, Repr

mutual
/-- the text of structured code -/
def Code.text {τ : Type} : Code τ → List (Br τ)
  | .nil => []
  | .one t r => .tok t :: r.text
  | .loop h s b r => .forOpen h s :: (b.text ++ .forClose :: r.text)
  | .ifs c s b a r => .ifOpen c s :: (b.text ++ (a.text ++ .ifClose :: r.text))
def Alts.text {τ : Type} : Alts τ → List (Br τ)
  | .done => []
  | .els s b => .els s :: b.text
  | .elif c s b a => .elif c s :: (b.text ++ a.text)
end

/-- what is needed to run code over statements `τ` on states `S`: `none` is undefined behaviour -/
structure Machine (τ S : Type) where
  step : τ → S → Option S
  /-- number of iterations of a loop, known when it starts -/
  count : Nat → S → Nat
  /-- assign the loop index -/
  index : Nat → Nat → S → S
  cond : Nat → S → Bool

/-- `n` iterations, the first one with index `k`; the index is `k + n` at the end -/
def iter {S : Type} (idx : Nat → S → S) (body : S → Option S) : Nat → Nat → S → Option S
  | 0, k, s => some (idx k s)
  | n + 1, k, s => (body (idx k s)).bind (iter idx body n (k + 1))

mutual
def Machine.run {τ S : Type} (M : Machine τ S) : Code τ → S → Option S
  | .nil, s => some s
  | .one t r, s => (M.step t s).bind (M.run r)
  | .loop h _ b r, s => (iter (M.index h) (M.run b) (M.count h s) 0 s).bind (M.run r)
  | .ifs c _ b a r, s => (if M.cond c s then M.run b s else M.runAlts a s).bind (M.run r)
def Machine.runAlts {τ S : Type} (M : Machine τ S) : Alts τ → S → Option S
  | .done, s => some s
  | .els _ b, s => M.run b s
  | .elif c _ b a, s => if M.cond c s then M.run b s else M.runAlts a s
end

/-- text which is structured code does what this code does; other text has no meaning -/
def Machine.Runs {τ S : Type} (M : Machine τ S) (txt : List (Br τ)) (s : S) (r : Option S) : Prop :=
  ∃ c : Code τ, c.text = txt ∧ M.run c s = r

/-! ### arrays given to atomic functions -/

/-- an array (or sparse array) variable of the operation graph -/
structure Arr where
  /-- variable ID: one plus the position in the array of temporary (sparse) arrays -/
  id : Nat
  sparse : Bool
  /-- number of elements which are stored -/
  stored : Nat
  /-- number of elements of a sparse array, zeros included -/
  full : Nat
  scope : Nat
  deriving DecidableEq, Repr

/-- values of the `data` member -/
inductive Ptr
  | null
  | dense (id : Nat)
  | sparse (id : Nat)
  deriving DecidableEq, Repr

/-- what an atomic function sees: the elements, how many they are, and for sparse arrays the number of stored
elements and where their indexes are (if there are any) -/
structure View where
  data : Ptr
  size : Nat
  nz : Option (Nat × Option Nat)
  deriving DecidableEq, Repr

/-- what it should see when it is given the array `a` -/
def Arr.view (a : Arr) : View where
  data := if a.stored = 0 then .null else if a.sparse then .sparse a.id else .dense a.id
  size := if a.sparse then a.full else a.stored
  nz := if a.sparse then some (a.stored, if a.stored = 0 then none else some a.id) else none

/-- an `Array` variable of the generated code (`struct Array`, lang_c_atomic_fun.hpp l.22-47): members which
were never assigned are `none` -/
structure Fields where
  data : Option Ptr := none
  size : Option Nat := none
  sparse : Option Bool := none
  nnz : Option Nat := none
  idx : Option Nat := none
  deriving DecidableEq, Repr

/-- what an atomic function reads of it: `none` if it reads a member which was never assigned -/
def Fields.view (f : Fields) : Option View :=
  match f.data, f.size, f.sparse with
  | some d, some n, some false => some ⟨d, n, none⟩
  | some d, some n, some true =>
    match f.nnz, f.idx with
    | some 0, _ => some ⟨d, n, some (0, none)⟩
    | some (k + 1), some i => some ⟨d, n, some (k + 1, some i)⟩
    | _, _ => none
  | _, _, _ => none

/-- the `Array` variables of a generated function -/
inductive Slot
  | tx (k : Nat)
  | ty
  | px
  | py (k : Nat)
  deriving DecidableEq, Repr

/-! ### meaning of the operations -/

/-- `M`: memory shared by the functions (the arguments and the arrays of temporaries), `L`: variables which are
declared in each function (loop indexes) -/
structure Sem (M L : Type) where
  act : Nat → M → L → M × L
  count : Nat → M → L → Nat
  index : Nat → Nat → L → L
  cond : Nat → M → L → Bool
  /-- call of an atomic function with the arrays that it sees -/
  call : Nat → List View → M → M

/-- operations for which code is generated, in the order of the code -/
inductive Op
  /-- operations without code: `DependentRefRhs` and `TmpDcl` -/
  | silent
  /-- an assignment to an indexed dependent variable -/
  | indexedDep (n : Nat)
  /-- any other operation; `lines` is the number of assignments reported by its printing -/
  | plain (n lines : Nat)
  /-- call of an atomic function in forward mode: arrays `tx[0..p]` and `ty[p]` -/
  | forward (n : Nat) (tx : List Arr) (ty : Arr)
  /-- call of an atomic function in reverse mode: arrays `tx[0..p]`, `px[0]` and `py[0..p]` -/
  | reverse (n : Nat) (tx : List Arr) (px : Arr) (py : List Arr)
  deriving DecidableEq, Repr

/-- what the operations mean -/
def Sem.spec {M L : Type} (σ : Sem M L) : Machine Op (M × L) where
  step
    | .silent, s => some s
    | .indexedDep n, s => some (σ.act n s.1 s.2)
    | .plain n _, s => some (σ.act n s.1 s.2)
    | .forward n tx ty, s => some (σ.call n (tx.map Arr.view ++ [ty.view]) s.1, s.2)
    | .reverse n tx px py, s => some (σ.call n (tx.map Arr.view ++ [px.view] ++ py.map Arr.view) s.1, s.2)
  count h s := σ.count h s.1 s.2
  index h k s := (s.1, σ.index h k s.2)
  cond c s := σ.cond c s.1 s.2

/-! ### conditions on the operations -/

/-- the arrays of a call are dense or sparse as the checks in `pushAtomicForwardOp` and `pushAtomicReverseOp`
require it: the values (order zero) of the inputs dense, the higher orders sparse, results dense, the adjoints
`py` sparse for order zero and dense for higher orders -/
def Op.Kinds : Op → Prop
  | .forward _ tx ty => (∀ a ∈ tx.head?, a.sparse = false) ∧ (∀ a ∈ tx.tail, a.sparse = true) ∧ ty.sparse = false
  | .reverse _ tx px py => (∀ a ∈ tx.head?, a.sparse = false) ∧ (∀ a ∈ tx.tail, a.sparse = true) ∧ px.sparse = false ∧
      (∀ a ∈ py.head?, a.sparse = true) ∧ (∀ a ∈ py.tail, a.sparse = false)
  | _ => True

/-- the arrays of a call are variables of scope `s` -/
def Op.InScope (s : Nat) : Op → Prop
  | .forward _ tx ty => (∀ a ∈ tx, a.scope = s) ∧ ty.scope = s
  | .reverse _ tx px py => (∀ a ∈ tx, a.scope = s) ∧ px.scope = s ∧ ∀ a ∈ py, a.scope = s
  | _ => True

/-- a call whose arrays are of the right kinds and are variables of the block in which it is -/
def Op.Placed (s : Nat) (t : Op) : Prop := t.InScope s ∧ t.Kinds

/-- not a call of an atomic function -/
def Op.NoCall : Op → Prop
  | .forward .. => False
  | .reverse .. => False
  | _ => True

mutual
/-- `P` holds for all operations, given the number of the block in which they are -/
def Code.All {τ : Type} (P : Nat → τ → Prop) (s : Nat) : Code τ → Prop
  | .nil => True
  | .one t r => P s t ∧ r.All P s
  | .loop _ s' b r => b.All P s' ∧ r.All P s
  | .ifs _ s' b a r => b.All P s' ∧ a.All P ∧ r.All P s
def Alts.All {τ : Type} (P : Nat → τ → Prop) : Alts τ → Prop
  | .done => True
  | .els s' b => b.All P s'
  | .elif _ s' b a => b.All P s' ∧ a.All P
end

mutual
/-- the numbers of the blocks inside of code -/
def Code.scopes {τ : Type} : Code τ → List Nat
  | .nil => []
  | .one _ r => r.scopes
  | .loop _ s b r => s :: (b.scopes ++ r.scopes)
  | .ifs _ s b a r => s :: (b.scopes ++ (a.scopes ++ r.scopes))
def Alts.scopes {τ : Type} : Alts τ → List Nat
  | .done => []
  | .els s b => s :: b.scopes
  | .elif _ s b a => s :: (b.scopes ++ a.scopes)
end

/-- the statements and blocks which code consists of, one after another -/
def Code.units {τ : Type} : Code τ → List (Code τ)
  | .nil => []
  | .one t r => .one t .nil :: r.units
  | .loop h s b r => .loop h s b .nil :: r.units
  | .ifs c s b a r => .ifs c s b a .nil :: r.units

/-- code followed by other code -/
def Code.append {τ : Type} : Code τ → Code τ → Code τ
  | .nil, d => d
  | .one t r, d => .one t (r.append d)
  | .loop h s b r, d => .loop h s b (r.append d)
  | .ifs c s b a r, d => .ifs c s b a (r.append d)

/-- a statement whose printing reports an assignment, or which prints nothing; not a call -/
def Op.Counted : Op → Prop
  | .silent => True
  | .plain _ lines => lines ≥ 1
  | _ => False

/-- Outside of loops there are only counted statements: no calls of atomic functions, no conditional blocks, no
assignments to indexed dependent variables. Loops can have any contents. -/
def Code.Splits : Code Op → Prop
  | .nil => True
  | .one t r => t.Counted ∧ r.Splits
  | .loop _ _ _ r => r.Splits
  | .ifs .. => False

/-- statements with the given texts, as code -/
def Code.texts : List Nat → Code Op
  | [] => .nil
  | n :: ns => .one (.plain n 0) (Code.texts ns)

/-- the effect of code on the shared memory -/
def Sem.effect {M L : Type} (σ : Sem M L) (c : Code Op) (m : M) (l : L) : Option M :=
  (σ.spec.run c (m, l)).map (·.1)

/-- no statement and no block uses what earlier ones left in the variables of the function -/
def Sem.Local {M L : Type} (σ : Sem M L) (c : Code Op) : Prop :=
  ∀ u ∈ c.units, ∀ m l l', σ.effect u m l = σ.effect u m l'

end Verif.Funcs
