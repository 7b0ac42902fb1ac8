/-
Model of the allocation of arrays by the handler, code_handler_impl.hpp l.1630-1713, and of the printed
statements which fill arrays, lang/c/language_c_arrays.hpp.

Only dense arrays are modelled; sparse arrays use a second object of the same class. Scopes and loops over
index variables are not modelled.
-/
import Verif.Arrays.Model
namespace Verif.Arrays

variable {V : Type}

/-! ### allocation -/

/-- the arrays in the order of their creation -/
def arraysOf (prog : List (Step V)) : List Nat := (prog.filterMap Step.creates).map (·.1)

/-- `tempVarRelease`, l.1654-1661, for arrays: those with last usage `p + 1` -/
def released (prog : List (Step V)) (last : Nat → Nat) (p : Nat) : List Nat :=
  (arraysOf prog).filter fun a => decide (last a - 1 = p)

/-- the cells of elements among the arguments, array_id_compresser.hpp l.105-116 -/
def blackList (node : Nat → Ex V) (id : Nat → Nat) (args : List (Arg V)) : List Nat :=
  args.filterMap fun x =>
    match x.ex node with
    | .elem a i => some (id a - 1 + i)
    | _ => none

/-- l.1676-1684 for arrays -/
def releaseAll (prog : List (Step V)) (id : Nat → Nat) (s : Comp V) (l : List Nat) : Comp V :=
  l.foldl (fun s a => s.addFree (id a - 1) (sizeOf' prog a)) s

/-- the loop, l.1671-1707: the state of the storage and `_varId` of arrays -/
def allocate [DecidableEq V] (node : Nat → Ex V) (prog : List (Step V)) (last : Nat → Nat) :
    Nat → List (Step V) → Comp V → (Nat → Nat) → Except Err (Comp V × (Nat → Nat))
  | _, [], s, id => .ok (s, id)
  | p, st :: rest, s, id =>
    let s := releaseAll prog id s (released prog last p)
    match st.creates with
    | none => allocate node prog last (p + 1) rest s id
    | some (a, args) =>
      match s.reserve args (blackList node id args) with
      | .error e => .error e
      | .ok (start, s) => allocate node prog last (p + 1) rest s (fun b => if b = a then start + 1 else id b)

/-- `reduceTemporaryVariables` for arrays. An array which is never used has last usage 0 and is released at
position `0 - 1`, outside of the vector. `total` is `_idArrayCount` before. -/
def reduceArrays [DecidableEq V] (node : Nat → Ex V) (prog : List (Step V)) (last : Nat → Nat) (total : Nat) (id : Nat → Nat) :
    Except Err (Comp V × (Nat → Nat)) :=
  if (arraysOf prog).any (fun a => decide (last a = 0) || decide (prog.length < last a)) then .error .ub
  else allocate node prog last 0 prog (Comp.init V total) id

/-! ### printing -/

/-- the memory of the printed program, and `_tmpArrayValues` of the printer -/
structure Pr (V : Type) where
  env : Var → V
  mem : Nat → V
  cache : Nat → Option (Arg V)

def setCell (m : Nat → α) (c : Nat) (v : α) : Nat → α := fun c' => if c' = c then v else m c'

/-- `isSameArgument`, language_c.hpp l.1754-1766; `eq` is `==` of the base type -/
def isSame (eq : V → V → Bool) : Arg V → Option (Arg V) → Bool
  | .par b, some (.par a) => eq b a
  | .op n, some (.op m) => n == m
  | _, _ => false

/-- the first position from `j` on where `c` fails, or the number of arguments -/
def runEnd (c : Nat → Bool) (n : Nat) : Nat → Nat → Nat
  | 0, j => j
  | fuel + 1, j => if j < n ∧ c j = true then runEnd c n fuel (j + 1) else j

/-- the expression of argument `j` -/
def exAt (node : Nat → Ex V) (args : List (Arg V)) (j : Nat) : Option (Ex V) := (args[j]?).map (Arg.ex node)

/-- the value of a constant is in the cell already, l.284-287 -/
def oldSame (eq : V → V → Bool) (value : V) : Option (Arg V) → Bool
  | some (.par u) => eq u value
  | _ => false

/-- l.257-268, 142-152 and 219-240 of language_c_arrays.hpp: does argument `j` belong to the loop which starts
with the constant `v` or variable `w`? -/
def inConst (eq : V → V → Bool) (cache : Nat → Option (Arg V)) (start : Nat) (args : List (Arg V)) (value : V) (j : Nat) : Bool :=
  match args[j]? with
  | some (.par u) => eq u value && !oldSame eq value (cache (start + j))
  | _ => false

/-- `isConsecutiveInIndepArray`, `isConsecutiveInTemporaryVarArray` of lang_c_default_var_name_gen.hpp -/
def nextVar : Var → Option Var
  | .x k => some (.x (k + 1))
  | .v k => some (.v (k + 1))
  | .y _ => none

/-- is argument `j` a variable right after the one of argument `j - 1`, and not in the cell already? -/
def inVars (node : Nat → Ex V) (eq : V → V → Bool) (cache : Nat → Option (Arg V)) (start : Nat) (args : List (Arg V)) (j : Nat) : Bool :=
  match args[j]? with
  | some (.op n) =>
    if isSame eq (.op n) (cache (start + j)) then false
    else
      match exAt node args (j - 1), node n with
      | some (.var w'), .var w => nextVar w' == some w
      | _, _ => false
  | _ => false

/-- the variable `k` after another one in its array -/
def Var.plus : Var → Nat → Var
  | .x a, k => .x (a + k)
  | .v a, k => .v (a + k)
  | .y a, k => .y (a + k)

/-- what the loop stores -/
inductive Fill (V : Type)
  | const (v : V)
  | vars (w : Var)

/-- `printArrayCreationUsingLoop`, l.124-299: the end of the loop, and what it stores. Loops with less than
three elements are not used. Indexed independents (l.163-215) are not modelled. -/
def useLoop (node : Nat → Ex V) (eq : V → V → Bool) (cache : Nat → Option (Arg V)) (start : Nat) (args : List (Arg V)) (i : Nat) :
    Option (Nat × Fill V) :=
  match args[i]? with
  | some (.par value) =>
    let e := runEnd (inConst eq cache start args value) args.length args.length (i + 1)
    if e - i < 3 then none else some (e, .const value)
  | some (.op n) =>
    match node n with
    | .var (.y _) => none
    | .var w =>
      let e := runEnd (inVars node eq cache start args) args.length args.length (i + 1)
      if e - i < 3 then none else some (e, .vars w)
    | _ => none
  | none => none

/-- the printed loop `for(i = a; i < b; i++) array[i] = …`, executed; `lp` is the constant as it is printed -/
def doFill (lp : V → V) (start i : Nat) (f : Fill V) : Nat → Pr V → Pr V
  | 0, s => s
  | k + 1, s =>
    let s := doFill lp start i f k s
    let v := match f with
      | .const v => lp v
      | .vars w => s.env (w.plus k)
    { s with mem := setCell s.mem (start + i + k) v }

/-- the printer remembers the arguments `i … e - 1`, l.293-297 -/
def remember (args : List (Arg V)) (start : Nat) (cache : Nat → Option (Arg V)) (i e : Nat) : Nat → Option (Arg V) :=
  fun c => if start + i ≤ c ∧ c < start + e then args[c - start]? else cache c

/-- `pushArrayCreationOp`, l.23-56, and the execution of what it prints; `id` gives the variable ids -/
def fillArray (node : Nat → Ex V) (eq : V → V → Bool) (lp : V → V) (id : Nat → Nat) (start : Nat) (args : List (Arg V)) :
    Nat → Nat → Pr V → Pr V
  | 0, _, s => s
  | fuel + 1, i, s =>
    match args[i]? with
    | none => s
    | some x =>
      if isSame eq x (s.cache (start + i)) then fillArray node eq lp id start args fuel (i + 1) s
      else
        match useLoop node eq s.cache start args i with
        | some (e, f) =>
          let s1 := doFill lp start i f (e - i) s
          fillArray node eq lp id start args fuel e { s1 with cache := remember args start s.cache i e }
        | none =>
          let v := (x.ex node).eval s.env (fun a k => s.mem (id a - 1 + k))
          fillArray node eq lp id start args fuel (i + 1)
            { s with mem := setCell s.mem (start + i) v, cache := setCell s.cache (start + i) (some x) }

/-- the cell of an element which is assigned to a variable is forgotten, language_c.hpp l.998-1006 -/
def forget (id : Nat → Nat) (cache : Nat → Option (Arg V)) : Ex V → Nat → Option (Arg V)
  | .elem a i => setCell cache (id a - 1 + i) none
  | _ => cache

/-- the cells of an array; `markArrayChanged`, l.440-452, and the results of a call -/
def setRange (m : Nat → α) (start n : Nat) (g : Nat → α) : Nat → α :=
  fun c => if start ≤ c ∧ c < start + n then g (c - start) else m c

/-- the execution of what is printed for one operation -/
def Step.runP (node : Nat → Ex V) (eq : V → V → Bool) (lp : V → V) (size id : Nat → Nat) (s : Pr V) : Step V → Pr V
  | .assign w e =>
    { s with env := setVar s.env w (e.eval s.env fun a k => s.mem (id a - 1 + k)), cache := forget id s.cache e }
  | .create a args => fillArray node eq lp id (id a - 1) args args.length 0 s
  | .call tx ty f =>
    let r := f (tx.map fun a => (List.range (size a)).map fun k => s.mem (id a - 1 + k))
    { s with mem := setRange s.mem (id ty - 1) (size ty) r,
             cache := setRange s.cache (id ty - 1) (size ty) fun _ => none }

def runPrinted (node : Nat → Ex V) (eq : V → V → Bool) (lp : V → V) (size id : Nat → Nat) : List (Step V) → Pr V → Pr V
  | [], s => s
  | st :: l, s => runPrinted node eq lp size id l (st.runP node eq lp size id s)

end Verif.Arrays
