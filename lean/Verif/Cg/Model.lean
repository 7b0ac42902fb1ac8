import Verif.Cg.Spec
/-
Model of the overloaded operators of `CG<Base>`:
/repo/include/cppad/cg/{cg,variable,default,arithmetic,arithmetic_assign,unary,math,math_other,
compare,cond_exp_op}.hpp.

`Base` arithmetic is an arbitrary `Interp`. Handlers are numbers. Assertions (`CPPADCG_ASSERT_UNKNOWN`)
are compiled out: the code after them runs. Overloads taking a `Base` or other type on one side wrap
it in a constant CG and call the modelled ones (arithmetic.hpp l.142-245).
-/
namespace Verif.Cg
open Verif.Codegen

/-- a raised `CGException`, or an access which is undefined behaviour -/
inductive Err | exception | ub
deriving DecidableEq, Repr

/-- `CG<Base>`, cg.hpp l.29-40: `node_` (null for constants) and `value_` -/
structure Cg (α : Type) where
  node : Option Nat
  value : Option α
deriving DecidableEq, Repr

variable {α : Type}

/-- `CG(const Base&)`, default.hpp l.49-53 -/
def Cg.const (v : α) : Cg α := ⟨none, some v⟩

/-- variable.hpp l.34-36 -/
def Cg.isPar (c : Cg α) : Bool := c.node.isNone

/-- `getCodeHandler`, variable.hpp l.20-26 -/
def Cg.handler (w : World α) (c : Cg α) : Option Nat :=
  match c.node with
  | none => none
  | some n => (w.nodes[n]?).map (·.2)

/-- `argument()`, variable.hpp l.96-102; a constant without value would be a null dereference -/
def Cg.argument (c : Cg α) : Except Err (Arg α) :=
  match c.node, c.value with
  | some n, _ => .ok (.node n)
  | none, some v => .ok (.param v)
  | none, none => .error .ub

/-- `getValue`, variable.hpp l.43-50 -/
def Cg.getValue (c : Cg α) : Except Err α :=
  match c.value with
  | some v => .ok v
  | none => .error .exception

/-- `isIdenticalZero`, variable.hpp l.61-64 -/
def Cg.isZero (I : Interp α) (c : Cg α) : Bool :=
  c.isPar && (match c.value with | some v => I.cmp .eq v I.zero | none => false)

/-- `isIdenticalOne`, variable.hpp l.66-69 -/
def Cg.isOne (I : Interp α) (c : Cg α) : Bool :=
  c.isPar && (match c.value with | some v => I.cmp .eq v I.one | none => false)

/-- `makeNode`, code_handler_impl.hpp l.528-543 -/
def World.add (w : World α) (h : Nat) (op : Op) (args : List (Arg α)) : World α × Nat :=
  ({ w with nodes := w.nodes ++ [(⟨op, args⟩, h)] }, w.nodes.length)

/-- `makeVariable`, code_handler_impl.hpp l.83-93 (`indep`) and `setValue`, variable.hpp l.52-59 -/
def makeIndep (w : World α) (h : Nat) (v : Option α) : Cg α × World α :=
  (⟨some w.nodes.length, v⟩,
    { nodes := w.nodes ++ [(⟨.inv, []⟩, h)], indeps := w.indeps ++ [w.nodes.length] })

/-- `getHandler`, arithmetic.hpp l.20-39 -/
def getHandler (lh rh : Option Nat) : Except Err Nat :=
  match lh, rh with
  | none, none => .error .ub
  | none, some r => .ok r
  | some l, none => .ok l
  | some l, some r => if l ≠ r then .error .exception else .ok l

/-- operation code of a binary operation -/
def Bin.op : Bin → Op
  | .add => .add | .sub => .sub | .mul => .mul | .div => .div | .pow => .pow

/-- the operation of `Base` -/
def Bin.base (I : Interp α) : Bin → α → α → α
  | .add => I.add | .sub => I.sub | .mul => I.mul | .div => I.div | .pow => I.pow

/-- value of the result when both values are known -/
def bothKnown (f : α → α → α) (a b : Cg α) : Option α :=
  match a.value, b.value with
  | some u, some v => some (f u v)
  | _, _ => none

/-- new node with two arguments and the known value of the result -/
def binNode (I : Interp α) (o : Bin) (w : World α) (h : Nat) (a b : Cg α) :
    Except Err (Cg α × World α) := do
  let u ← a.argument
  let v ← b.argument
  let r := w.add h o.op [u, v]
  pure (⟨some r.2, bothKnown (o.base I) a b⟩, r.1)

/-- constant folding, arithmetic.hpp l.43-44 and alike -/
def fold (I : Interp α) (o : Bin) (w : World α) (a b : Cg α) : Except Err (Cg α × World α) := do
  let u ← a.getValue
  let v ← b.getValue
  pure (.const (o.base I u v), w)

/-- the operators `+ - * /` (arithmetic.hpp l.41-140) and `pow` (math_other.hpp l.21-46) -/
def binary (I : Interp α) (o : Bin) (w : World α) (a b : Cg α) : Except Err (Cg α × World α) :=
  if a.isPar && b.isPar then fold I o w a b
  else match o with
    | .add =>                                                           -- l.41-65
      if a.isPar && a.isZero I then .ok (b, w)
      else if !a.isPar && b.isPar && b.isZero I then .ok (a, w)
      else do let h ← getHandler (a.handler w) (b.handler w); binNode I o w h a b
    | .sub =>                                                           -- l.67-88
      if b.isPar && b.isZero I then .ok (a, w)
      else do let h ← getHandler (a.handler w) (b.handler w); binNode I o w h a b
    | .mul =>                                                           -- l.90-117
      if a.isPar && a.isZero I then .ok (.const I.zero, w)
      else if a.isPar && a.isOne I then .ok (b, w)
      else if !a.isPar && b.isPar && b.isZero I then .ok (.const I.zero, w)
      else if !a.isPar && b.isPar && b.isOne I then .ok (a, w)
      else do let h ← getHandler (a.handler w) (b.handler w); binNode I o w h a b
    | .div =>                                                           -- l.119-144
      if a.isPar && a.isZero I then .ok (.const I.zero, w)
      else if !a.isPar && b.isPar && b.isOne I then .ok (a, w)
      else if !a.isPar && !b.isPar && a.node == b.node then .ok (.const I.one, w)
      else do let h ← getHandler (a.handler w) (b.handler w); binNode I o w h a b
    | .pow =>                                                           -- math_other.hpp l.25-46
      if b.isPar && b.isZero I then .ok (.const I.one, w)
      else if b.isPar && b.isOne I then .ok (a, w)
      else
        match (if b.isPar then a.handler w else b.handler w) with
        | none => .error .ub
        | some h => binNode I o w h a b

/-- handler used by the compound assignments, arithmetic_assign.hpp l.27-46: that of the left operand
if it is a variable; different handlers are only asserted against (l.43, l.79, l.117, l.153). -/
def assignHandler (w : World α) (a b : Cg α) : Except Err Nat :=
  match (if a.isPar then b.handler w else a.handler w) with
  | none => .error .ub
  | some h => .ok h

/-- `a o= b`, arithmetic_assign.hpp l.20-165; the new contents of `a`. There is no `pow=`. -/
def compound (I : Interp α) (o : Bin) (w : World α) (a b : Cg α) : Except Err (Cg α × World α) :=
  if o = .pow then .error .ub
  else if a.isPar && b.isPar then fold I o w a b
  else match o with
    | .add =>                                                           -- l.20-55
      if a.isPar && a.isZero I then .ok (b, w)
      else if !a.isPar && b.isPar && b.isZero I then .ok (a, w)
      else do let h ← assignHandler w a b; binNode I o w h a b
    | .sub =>                                                           -- l.57-88
      if !a.isPar && b.isPar && b.isZero I then .ok (a, w)
      else do let h ← assignHandler w a b; binNode I o w h a b
    | .mul =>                                                           -- l.90-130
      if a.isPar && a.isZero I then .ok (a, w)
      else if a.isPar && a.isOne I then .ok (b, w)
      else if !a.isPar && b.isPar && b.isZero I then .ok (.const I.zero, w)
      else if !a.isPar && b.isPar && b.isOne I then .ok (a, w)
      else do let h ← assignHandler w a b; binNode I o w h a b
    | .div =>                                                           -- l.132-165
      if a.isPar && a.isZero I then .ok (a, w)
      else if !a.isPar && b.isPar && b.isOne I then .ok (a, w)
      else do let h ← assignHandler w a b; binNode I o w h a b
    | .pow => .error .ub

/-- one argument operations: math.hpp l.20-33 and unary.hpp l.29-42; `g` is the `Base` function -/
def unary (op : Op) (g : α → α) (w : World α) (a : Cg α) : Except Err (Cg α × World α) :=
  if a.isPar then do let v ← a.getValue; pure (.const (g v), w)
  else
    match a.handler w with
    | none => .error .ub
    | some h => do
      let u ← a.argument
      let r := w.add h op [u]
      pure (⟨some r.2, a.value.map g⟩, r.1)

/-- the value computed by `sign`, math_other.hpp l.78-84 and l.90-96 -/
def signValue (I : Interp α) (v : α) : α :=
  if I.cmp .gt v I.zero then I.one else if I.cmp .eq v I.zero then I.zero else I.negOne

/-- `isSameExpression`, cond_exp_op.hpp l.25-32 -/
def sameExpression (I : Interp α) (a b : Cg α) : Bool :=
  (a.isPar && b.isPar && (match a.value, b.value with | some u, some v => I.cmp .eq u v | _, _ => false))
    || (!a.isPar && !b.isPar && a.node == b.node)

/-- `findCodeHandler`, cond_exp_op.hpp l.39-73 -/
def findHandler (w : World α) (l r t f : Cg α) : Except Err Nat :=
  let h? := if !l.isPar then l.handler w else if !r.isPar then r.handler w
    else if !t.isPar then t.handler w else if !f.isPar then f.handler w else none
  match h? with
  | none => .error .exception
  | some h =>
    if (!r.isPar && r.handler w != some h) || (!t.isPar && t.handler w != some h)
      || (!f.isPar && f.handler w != some h) then .error .exception
    else .ok h

/-- `CondExp`, cond_exp_op.hpp l.82-122 -/
def condExp (I : Interp α) (c : Cmp) (w : World α) (l r t f : Cg α) : Except Err (Cg α × World α) :=
  if l.isPar && r.isPar then do
    let u ← l.getValue
    let v ← r.getValue
    if I.cmp c u v then pure (t, w) else pure (f, w)
  else if sameExpression I t f then .ok (t, w)
  else do
    let h ← findHandler w l r t f
    let a ← l.argument; let b ← r.argument; let u ← t.argument; let v ← f.argument
    let n := w.add h (.cond c) [a, b, u, v]
    let value := match l.value, r.value with
      | some p, some q => if I.cmp c p q then t.value else f.value
      | _, _ => none
    pure (⟨some n.2, value⟩, n.1)

/-- comparison operators on CG objects, compare.hpp l.21-56 -/
def compare (I : Interp α) (c : Cmp) (a b : Cg α) : Except Err Bool :=
  if a.isPar && b.isPar then do
    let u ← a.getValue
    let v ← b.getValue
    pure (I.cmp c u v)
  else match c with
    | .eq => .ok (if a.isPar || b.isPar then false else a.node == b.node)
    | .ne => .ok (if a.isPar || b.isPar then true else a.node != b.node)
    | _ => .error .exception

/-! ### programs -/

/-- state of the recording -/
structure RState (α : Type) where
  regs : List (Cg α)
  world : World α

/-- a register which does not exist is undefined behaviour -/
def reg (s : RState α) (i : Nat) : Except Err (Cg α) :=
  match s.regs[i]? with
  | some c => .ok c
  | none => .error .ub

/-- one statement, recorded -/
def step (I : Interp α) (s : RState α) : Instr α → Except Err (RState α)
  | .const v => .ok { s with regs := s.regs ++ [.const v] }
  | .indep h v => let r := makeIndep s.world h v; .ok ⟨s.regs ++ [r.1], r.2⟩
  | .bin o i j => do
    let a ← reg s i; let b ← reg s j
    let r ← binary I o s.world a b
    pure ⟨s.regs ++ [r.1], r.2⟩
  | .upd o i j => do
    let a ← reg s i; let b ← reg s j
    let r ← compound I o s.world a b
    pure ⟨s.regs.set i r.1, r.2⟩
  | .copy i j => do
    let _ ← reg s i; let b ← reg s j
    pure ⟨s.regs.set i b, s.world⟩
  | .un f i => do
    let a ← reg s i
    let r ← unary (.un f) (I.un f) s.world a
    pure ⟨s.regs ++ [r.1], r.2⟩
  | .neg i => do
    let a ← reg s i
    let r ← unary .neg I.neg s.world a
    pure ⟨s.regs ++ [r.1], r.2⟩
  | .sign i => do
    let a ← reg s i
    let r ← unary .sign (signValue I) s.world a
    pure ⟨s.regs ++ [r.1], r.2⟩
  | .cond c l r t f => do
    let a ← reg s l; let b ← reg s r; let u ← reg s t; let v ← reg s f
    let q ← condExp I c s.world a b u v
    pure ⟨s.regs ++ [q.1], q.2⟩

/-- a recorded program -/
def record (I : Interp α) : RState α → List (Instr α) → Except Err (RState α)
  | s, [] => .ok s
  | s, i :: is =>
    match step I s i with
    | .ok s' => record I s' is
    | .error e => .error e

/-- nothing recorded yet -/
def RState.init : RState α := ⟨[], ⟨[], []⟩⟩

end Verif.Cg
