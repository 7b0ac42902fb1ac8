import Verif.Codegen.Spec
/-
Specification for the overloaded arithmetic on `CG` objects: straight line programs over registers,
run directly on plain values. Nothing here knows about graphs, handlers or shortcuts.
-/
namespace Verif.Cg
open Verif.Codegen

/-- binary operations: `+ - * /` and `pow` -/
inductive Bin | add | sub | mul | div | pow
deriving DecidableEq, Repr

/-- One statement of a program using CG objects. A result is put in a new register, compound
assignments and copies overwrite register `i`. Register numbers count from 0. -/
inductive Instr (α : Type)
  | const (v : α)                       -- `CG c(v)`
  | indep (h : Nat) (v : Option α)      -- `handler_h.makeVariable(c)`, optionally `c.setValue(v)`
  | bin (o : Bin) (i j : Nat)           -- `c = a o b`
  | upd (o : Bin) (i j : Nat)           -- `a o= b` (not for pow)
  | copy (i j : Nat)                    -- `a = b`
  | un (f : Fn) (i : Nat)               -- `c = f(a)`
  | neg (i : Nat)                       -- `c = -a`
  | sign (i : Nat)                      -- `c = sign(a)`
  | cond (c : Cmp) (l r t f : Nat)      -- `c = CondExp..(l, r, t, f)`
deriving DecidableEq, Repr

/-- direct binary operation; division by zero has no value -/
def Bin.direct {α : Type} [DecidableEq α] (I : Interp α) : Bin → α → α → Option α
  | .add, a, b => some (I.add a b)
  | .sub, a, b => some (I.sub a b)
  | .mul, a, b => some (I.mul a b)
  | .div, a, b => if b = I.zero then none else some (I.div a b)
  | .pow, a, b => some (I.pow a b)

/-- state of the direct run: registers and number of independents declared -/
structure DState (α : Type) where
  regs : List α
  nIndep : Nat

/-- direct execution of one statement with input `x` (the `k`-th independent declared has the value
`x k`) -/
def Instr.direct {α : Type} [DecidableEq α] (I : Interp α) (x : Nat → α) (s : DState α) :
    Instr α → Option (DState α)
  | .const v => some { s with regs := s.regs ++ [v] }
  | .indep _ _ => some { regs := s.regs ++ [x s.nIndep], nIndep := s.nIndep + 1 }
  | .bin o i j => do
    let a ← s.regs[i]?; let b ← s.regs[j]?; let c ← o.direct I a b
    pure { s with regs := s.regs ++ [c] }
  | .upd o i j => do
    let a ← s.regs[i]?; let b ← s.regs[j]?; let c ← o.direct I a b
    pure { s with regs := s.regs.set i c }
  | .copy i j => do
    let _ ← s.regs[i]?; let b ← s.regs[j]?
    pure { s with regs := s.regs.set i b }
  | .un f i => do let a ← s.regs[i]?; pure { s with regs := s.regs ++ [I.un f a] }
  | .neg i => do let a ← s.regs[i]?; pure { s with regs := s.regs ++ [I.neg a] }
  | .sign i => do let a ← s.regs[i]?; pure { s with regs := s.regs ++ [I.sign a] }
  | .cond c l r t f => do
    let a ← s.regs[l]?; let b ← s.regs[r]?; let u ← s.regs[t]?; let w ← s.regs[f]?
    pure { s with regs := s.regs ++ [if I.cmp c a b then u else w] }

/-- direct execution of a program -/
def runDirect {α : Type} [DecidableEq α] (I : Interp α) (x : Nat → α) :
    DState α → List (Instr α) → Option (DState α)
  | s, [] => some s
  | s, i :: is => (i.direct I x s).bind fun s' => runDirect I x s' is

/-- the input `x` has the values given to the independents with `setValue`; `k` independents were
declared before -/
def Agrees {α : Type} (x : Nat → α) : Nat → List (Instr α) → Prop
  | _, [] => True
  | k, .indep _ v :: is => (∀ u, v = some u → x k = u) ∧ Agrees x (k + 1) is
  | k, _ :: is => Agrees x k is

/-- the program declares its variables in one handler -/
def OneHandler {α : Type} (h0 : Nat) (is : List (Instr α)) : Prop :=
  ∀ i ∈ is, ∀ h v, i = .indep h v → h = h0

/-- The algebraic laws the shortcuts rely on. They hold in every field; for IEEE numbers they hold
for finite values up to the sign of zero. -/
structure Laws {α : Type} (I : Interp α) : Prop where
  zero_add : ∀ a, I.add I.zero a = a
  add_zero : ∀ a, I.add a I.zero = a
  sub_zero : ∀ a, I.sub a I.zero = a
  zero_mul : ∀ a, I.mul I.zero a = I.zero
  mul_zero : ∀ a, I.mul a I.zero = I.zero
  one_mul : ∀ a, I.mul I.one a = a
  mul_one : ∀ a, I.mul a I.one = a
  zero_div : ∀ a, a ≠ I.zero → I.div I.zero a = I.zero
  div_one : ∀ a, I.div a I.one = a
  div_self : ∀ a, a ≠ I.zero → I.div a a = I.one
  pow_zero : ∀ a, I.pow a I.zero = I.one
  pow_one : ∀ a, I.pow a I.one = a
  eq_iff : ∀ a b, I.cmp .eq a b = true ↔ a = b
  trichotomy : ∀ a, I.cmp .gt a I.zero = false → a ≠ I.zero → I.cmp .lt a I.zero = true
  zero_not_lt : I.cmp .lt I.zero I.zero = false
  zero_not_gt : I.cmp .gt I.zero I.zero = false

/-- the recorded operations of all handlers: operation and owner of every node, and the nodes of the
independent variables in the order of their declaration -/
structure World (α : Type) where
  nodes : List (Node α × Nat)
  indeps : List Nat

/-- `val` evaluates the recorded operations when the independents have the values `x` -/
def World.Val {α : Type} (I : Interp α) (w : World α) (x : Nat → α) (val : Nat → α) : Prop :=
  (∀ (j n : Nat), w.indeps[j]? = some n → val n = x j) ∧
  (∀ (n : Nat) (nd : Node α) (h : Nat), w.nodes[n]? = some (nd, h) → nd.op ≠ .inv →
    opSem I nd.op (nd.args.map (argVal val)) = some (val n))

/-- no operation has arguments of another handler -/
def World.Unmixed {α : Type} (w : World α) : Prop :=
  ∀ (n : Nat) (nd : Node α) (h : Nat), w.nodes[n]? = some (nd, h) →
    ∀ m ∈ argNodes nd.args, ∃ nd', w.nodes[m]? = some (nd', h)

/-- the recorded operations as a graph -/
def World.graph {α : Type} (w : World α) : Graph α := fun n =>
  match w.nodes[n]? with
  | some nd => nd.1
  | none => ⟨.inv, []⟩

end Verif.Cg
