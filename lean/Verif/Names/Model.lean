/-
Model of the generators of names: variable_name_generator.hpp, lang/c/lang_c_default_var_name_gen.hpp,
lang_c_custom_var_name_gen.hpp, lang_c_default_hessian_var_name_gen.hpp, lang_c_default_reverse2_var_name_gen.hpp,
lang/latex/lang_latex_default_var_name_gen.hpp and lang_latex_custom_var_name_gen.hpp.

A generator is described by the arguments of its constructor. `none` stands for undefined behaviour (an element outside
of a vector is read). Identifiers are natural numbers; `id - 1` of the identifier 0 wraps around in the code.
Expressions for indexes in loops are not modelled here, only the arrays they belong to.
-/
import Verif.Names.Spec
namespace Verif.Names

/-- names of arrays and the state of the default generators, lang_c_default_var_name_gen.hpp l.30-75;
`tmpArray` is `_temporary[0].array` -/
structure Names where
  style : Style
  dep : Txt
  indep : Txt
  tmp : Txt
  arr : Txt
  sarr : Txt
  tmpArray : Bool
  minTmp : Nat

/-- the generators -/
inductive Gen
  | plain (b : Names)
  | custom (b : Names) (depNames indepNames : List Txt)
  | hess (g : Gen) (n : Nat) (mult : Txt)
  | rev2 (g : Gen) (n n1 : Nat) (name1 name2 : Txt)

/-- the names of arrays below all wrappers -/
def Gen.base : Gen → Names
  | .plain b => b
  | .custom b _ _ => b
  | .hess g _ _ => g.base
  | .rev2 g _ _ _ _ => g.base

/-- the generator below all wrappers -/
def Gen.inner : Gen → Gen
  | .plain b => .plain b
  | .custom b ds xs => .custom b ds xs
  | .hess g _ _ => g.inner
  | .rev2 g _ _ _ _ => g.inner

/-- `<< "[" << index << "]"` and `latexIndex`, lang_latex_default_var_name_gen.hpp l.258-267 -/
def withIndex : Style → Txt → Nat → Txt
  | .c, a, k => a ++ ['['] ++ digits k ++ [']']
  | .latex, a, k => a ++ ['_'] ++ (if k < 10 then digits k else ['{'] ++ digits k ++ ['}'])

/-- `index < names.size() && !names[index].empty()`, lang_c_custom_var_name_gen.hpp l.50, 60 -/
def ownName (names : List Txt) (i : Nat) : Option Txt :=
  match names[i]? with
  | some (c :: t) => some (c :: t)
  | _ => none

/-- `generateDependent`: default l.92-99; custom l.49-55; the wrappers delegate -/
def Gen.depName : Gen → Nat → Txt
  | .plain b, i => withIndex b.style b.dep i
  | .custom b ds _, i =>
    match ownName ds i with
    | some t => t
    | none => withIndex b.style b.dep i
  | .hess g _ _, i => g.depName i
  | .rev2 g _ _ _ _, i => g.depName i

/-- `generateIndependent`: default l.101-109; custom l.57-65; hessian l.96-106; reverse2 l.108-122 -/
def Gen.indepName : Gen → Nat → Txt
  | .plain b, id => withIndex b.style b.indep (id - 1)
  | .custom b _ xs, id =>
    match ownName xs (id - 1) with
    | some t => t
    | none => withIndex b.style b.indep (id - 1)
  | .hess g n mult, id =>
    if id < n + 1 then g.indepName id else withIndex .c mult (id - (n + 1))
  | .rev2 g n n1 name1 name2, id =>
    if id < n + 1 then g.indepName id
    else if id < n + 1 + n1 then withIndex .c name1 (id - (n + 1))
    else withIndex .c name2 (id - (n + 1 + n1))

/-- `generateTemporary`, default l.111-123, LaTeX l.113-127 -/
def Gen.tmpName (g : Gen) (id : Nat) : Txt :=
  let b := g.base
  if b.tmpArray then withIndex b.style b.tmp (id - b.minTmp)
  else
    match b.style with
    | .c => b.tmp ++ digits id
    | .latex => withIndex .latex (b.tmp ++ digits id) id

/-- `generateTemporaryArray`, l.125-135, LaTeX l.129-140: the address of the first element -/
def Gen.arrName (g : Gen) (id : Nat) : Txt :=
  let b := g.base
  match b.style with
  | .c => '&' :: withIndex .c b.arr (id - 1)
  | .latex => '\\' :: '&' :: withIndex .latex b.arr (id - 1)

/-- `generateTemporarySparseArray`, l.137-147, LaTeX l.142-153 -/
def Gen.sarrName (g : Gen) (id : Nat) : Txt :=
  let b := g.base
  match b.style with
  | .c => '&' :: withIndex .c b.sarr (id - 1)
  | .latex => '\\' :: '&' :: withIndex .latex b.sarr (id - 1)

/-- `getIndependent`: default l.67; hessian l.239-243; reverse2 l.267-272 -/
def Gen.arguments : Gen → List Txt
  | .plain b => [b.indep]
  | .custom b _ _ => [b.indep]
  | .hess g _ mult => g.arguments ++ [mult]
  | .rev2 g _ _ name1 name2 => g.arguments ++ [name1] ++ [name2]

/-- `getIndependentArrayName`: default l.192-195; hessian l.156-162; reverse2 l.177-185 -/
def Gen.arrayName : Gen → Nat → Txt
  | .plain b, _ => b.indep
  | .custom b _ _, _ => b.indep
  | .hess g n mult, id => if id < n + 1 then g.arrayName id else mult
  | .rev2 g n n1 name1 name2, id =>
    if id < n + 1 then g.arrayName id else if id < n + 1 + n1 then name1 else name2

/-- `getIndependentArrayIndex`: default l.197-200; hessian l.164-170; reverse2 l.187-195 -/
def Gen.arrayIndex : Gen → Nat → Nat
  | .plain _, id => id - 1
  | .custom _ _ _, id => id - 1
  | .hess g n _, id => if id < n + 1 then g.arrayIndex id else id - (n + 1)
  | .rev2 g n n1 _ _, id =>
    if id < n + 1 then g.arrayIndex id else if id < n + 1 + n1 then id - (n + 1) else id - (n + 1 + n1)

/-- `index > indepNames_.size() || indepNames_[index].empty()` with `index = id - 1`,
lang_c_custom_var_name_gen.hpp l.74-75, 89-90. The identifier 0 gives the largest index. -/
def unnamed (names : List Txt) (id : Nat) : Option Bool :=
  if id = 0 ∨ names.length < id - 1 then some true
  else
    match names[id - 1]? with
    | some t => some t.isEmpty
    | none => none

/-- `a && b` of two conditions which may be undefined -/
def both (a b : Option Bool) : Option Bool :=
  match a with
  | none => none
  | some false => some false
  | some true => b

/-- `isConsecutiveInIndepArray`: default l.202-207; custom l.67-80; hessian l.172-183; reverse2 l.197-211 -/
def Gen.consecutive : Gen → Nat → Nat → Option Bool
  | .plain _, a, b => some (a + 1 == b)
  | .custom _ _ xs, a, b =>
    match both (unnamed xs a) (unnamed xs b) with
    | none => none
    | some true => some (a - 1 + 1 == b - 1)
    | some false => some false
  | .hess g n _, a, b =>
    if decide (a < n + 1) ≠ decide (b < n + 1) then some false
    else if a < n + 1 ∧ b < n + 1 then g.consecutive a b
    else some (a + 1 == b)
  | .rev2 g n n1 _ _, a, b =>
    if decide (a < n + 1) ≠ decide (b < n + 1) then some false
    else if a < n + 1 ∧ b < n + 1 then g.consecutive a b
    else if decide (a < n + 1 + n1) ≠ decide (b < n + 1 + n1) then some false
    else some (a + 1 == b)

/-- an independent variable, or one whose index depends on the iteration of a loop: `getInfo()[0]` and the identifier -/
inductive Ref
  | inv (id : Nat)
  | loop (level id : Nat)

def Ref.id : Ref → Nat
  | .inv i => i
  | .loop _ i => i

/-- l.189-201 of the hessian generator, l.217-229 of reverse2 -/
def Ref.level (starts : List Nat) : Ref → Nat
  | .inv id => (starts.takeWhile fun s => decide (s ≤ id)).length
  | .loop l _ => l

/-- `isInSameIndependentArray`: default l.209-214; custom l.82-91; hessian l.185-203; reverse2 l.213-231 -/
def Gen.sameArray : Gen → Ref → Ref → Option Bool
  | .plain _, _, _ => some true
  | .custom _ _ xs, r, s => both (unnamed xs r.id) (unnamed xs s.id)
  | .hess _ n _, r, s => some (r.level [n + 1] == s.level [n + 1])
  | .rev2 _ n n1 _ _, r, s => some (r.level [n + 1, n + 1 + n1] == s.level [n + 1, n + 1 + n1])

/-- the array in the text of `generateIndexedIndependent`: default l.163-175; hessian l.129-154; reverse2 l.145-175 -/
def Gen.loopArray : Gen → Nat → Txt
  | .plain b, _ => b.indep
  | .custom b _ _, _ => b.indep
  | .hess g _ mult, l => if l = 0 then g.loopArray l else mult
  | .rev2 g _ _ name1 name2, l => if l = 0 then g.loopArray l else if l = 1 then name1 else name2

/-- `getTemporaryVarArrayIndex`, l.221-224 -/
def Gen.tmpIndex (g : Gen) (id : Nat) : Nat := id - g.base.minTmp

/-- `isConsecutiveInTemporaryVarArray`, l.226-231 -/
def Gen.consecutiveTmp (_ : Gen) (a b : Nat) : Bool := a + 1 == b

/-- declaration of the array of temporaries: its size, language_c.hpp l.324-328 -/
def declaredTmps (minTmp maxTmp : Nat) : Nat := maxTmp + 1 - minTmp

/-! ### what the user of a generator has given -/

/-- arrays of independent variables and the identifiers of their first elements, in the order of registration: the
arguments `n` and `n1` of the constructors are the numbers of variables registered before -/
def Gen.layout : Gen → List (Txt × Nat)
  | .plain b => [(b.indep, 1)]
  | .custom b _ _ => [(b.indep, 1)]
  | .hess g n mult => g.layout ++ [(mult, n + 1)]
  | .rev2 g n n1 name1 name2 => g.layout ++ [(name1, n + 1), (name2, n + 1 + n1)]

/-- names given by the user for dependent variables -/
def Gen.depNames : Gen → List Txt
  | .plain _ => []
  | .custom _ ds _ => ds
  | .hess g _ _ => g.depNames
  | .rev2 g _ _ _ _ => g.depNames

/-- names given by the user for independent variables; those behind the first `n` variables are not used by a wrapper -/
def Gen.indepNames : Gen → List Txt
  | .plain _ => []
  | .custom _ _ xs => xs
  | .hess g n _ => g.indepNames.take n
  | .rev2 g n _ _ _ => g.indepNames.take n

/-- wrappers are made for C -/
def Gen.Uniform : Gen → Prop
  | .plain _ => True
  | .custom _ _ _ => True
  | .hess g _ _ => g.base.style = .c ∧ g.Uniform
  | .rev2 g _ _ _ _ => g.base.style = .c ∧ g.Uniform

end Verif.Names
