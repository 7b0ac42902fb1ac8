import Verif.CExpr.Syntax
import Mathlib.Data.BitVec

/-
Specification: the value of an index expression in C. `int` has 32 bits, `long` and `unsigned long` 64.
Signed overflow, division by zero and reading outside an array have no value. The loop indexes and the
elements of the index tables are `unsigned long` (`U_INDEX_TYPE`, language_c.hpp).
-/
namespace Verif.Index

open Verif.CExpr

inductive Ty
  | int | long | ulong
deriving DecidableEq, Repr

def Ty.max : Ty → Ty → Ty
  | .ulong, _ | _, .ulong => .ulong
  | .long, _ | _, .long => .long
  | .int, .int => .int

/-- a number as the result of an operation of the type: signed overflow has no value, unsigned wraps -/
def norm : Ty → Int → Option Int
  | .int, z => if -2 ^ 31 ≤ z ∧ z < 2 ^ 31 then some z else none
  | .long, z => if -2 ^ 63 ≤ z ∧ z < 2 ^ 63 then some z else none
  | .ulong, z => some (z % 2 ^ 64)

/-- conversion to a type of at least the same rank -/
def conv : Ty → Int → Int
  | .ulong, z => z % 2 ^ 64
  | _, z => z

/-- meaning of the names: index variables and tables -/
structure Env where
  var : String → Option (BitVec 64)
  tab1 : String → Nat → Option (BitVec 64)
  tab2 : String → Nat → Nat → Option (BitVec 64)

def litTy (c : Nat) : Ty := if c < 2 ^ 31 then .int else .long

/-- type of an expression -/
def ty : Tree Nat → Ty
  | .num c => litTy c
  | .id _ => .ulong
  | .paren t => ty t
  | .neg t => ty t
  | .bin .mul a b | .bin .div a b | .bin .add a b | .bin .sub a b => (ty a).max (ty b)
  | .bin _ _ _ => .int
  | .cond _ b c => (ty b).max (ty c)
  | .idx _ _ => .ulong
  | .call1 _ _ | .call2 _ _ _ => .int

/-- an operation on converted operands -/
def applyOp (t : Ty) : Op → Int → Int → Option Int
  | .mul, a, b => norm t (a * b)
  | .add, a, b => norm t (a + b)
  | .sub, a, b => norm t (a - b)
  | .div, a, b => if b = 0 then none else norm t (a.tdiv b)
  | .lt, a, b => some (if a < b then 1 else 0)
  | .le, a, b => some (if a ≤ b then 1 else 0)
  | .gt, a, b => some (if a > b then 1 else 0)
  | .ge, a, b => some (if a ≥ b then 1 else 0)
  | .eq, a, b => some (if a = b then 1 else 0)
  | .ne, a, b => some (if a ≠ b then 1 else 0)
  | .and, _, _ | .or, _, _ => none

/-- value of an expression, in the range of its type -/
def ceval (env : Env) : Tree Nat → Option Int
  | .num c => if c < 2 ^ 63 then some c else none
  | .id s => (env.var s).map fun v => v.toNat
  | .paren t => ceval env t
  | .neg t => match ceval env t with
    | some v => norm (ty t) (-v)
    | none => none
  | .bin o a b => match ceval env a, ceval env b with
    | some u, some v => let t := (ty a).max (ty b)
      applyOp t o (conv t u) (conv t v)
    | _, _ => none
  | .cond a b c => match ceval env a with
    | some u =>
      match (if u ≠ 0 then ceval env b else ceval env c) with
      | some v => some (conv ((ty b).max (ty c)) v)
      | none => none
    | none => none
  | .idx (.id n) i => match ceval env i with
    | some k => if 0 ≤ k then (env.tab1 n k.toNat).map fun v => v.toNat else none
    | none => none
  | .idx (.idx (.id n) i) j => match ceval env i, ceval env j with
    | some k, some l => if 0 ≤ k ∧ 0 ≤ l then (env.tab2 n k.toNat l.toNat).map fun v => v.toNat else none
    | _, _ => none
  | .idx _ _ | .call1 _ _ | .call2 _ _ _ => none

/-- the text, read as C, has the value `v` when used as an index (converted to `unsigned long`) -/
def Computes (env : Env) (toks : List (Tok Nat)) (v : BitVec 64) : Prop :=
  ∃ t z, Reads toks t ∧ ceval env t = some z ∧ BitVec.ofInt 64 z = v

/-! ### initializers of arrays -/

/-- tokens of an initializer -/
inductive DTok
  | open_ | close | comma | num (v : Nat)
deriving DecidableEq, Repr

/-- elements up to the closing brace -/
def readElems : List DTok → Option (List Nat × List DTok)
  | .close :: r => some ([], r)
  | .num v :: .close :: r => some ([v], r)
  | .num v :: .comma :: r => match readElems r with
    | some (vs, r') => some (v :: vs, r')
    | none => none
  | _ => none

/-- element `k` of an array of the given size with the given initializer: elements which are not
mentioned are zero, too many are an error -/
def arrayAt (size : Nat) (init : List DTok) (k : Nat) : Option Nat :=
  match init with
  | .open_ :: r => match readElems r with
    | some (vs, []) => if vs.length ≤ size ∧ k < size then some (vs[k]?.getD 0) else none
    | _ => none
  | _ => none

/-- where the reader of the initializer of a matrix is: before a row, before an element, after an
element, after a row -/
inductive MState
  | row | val (acc : List Nat) | sep (acc : List Nat) | after

/-- rows up to the closing brace -/
def readRows : List DTok → MState → Option (List (List Nat))
  | .open_ :: r, .row => readRows r (.val [])
  | [.close], .row => some []
  | .num v :: r, .val acc => readRows r (.sep (acc ++ [v]))
  | .close :: r, .val acc => (readRows r .after).map (acc :: ·)
  | .comma :: r, .sep acc => readRows r (.val acc)
  | .close :: r, .sep acc => (readRows r .after).map (acc :: ·)
  | .comma :: r, .after => readRows r .row
  | [.close], .after => some []
  | _, _ => none

/-- element of a matrix -/
def matrixAt (m n : Nat) (init : List DTok) (k l : Nat) : Option Nat :=
  match init with
  | .open_ :: r => match readRows r .row with
    | some rows =>
      if rows.length ≤ m ∧ (∀ row ∈ rows, row.length ≤ n) ∧ k < m ∧ l < n then some ((rows[k]?.getD [])[l]?.getD 0) else none
    | none => none
  | _ => none

end Verif.Index
