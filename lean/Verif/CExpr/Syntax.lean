/-
A small reader for C expressions: tokens, a recursive descent parser for the expression grammar of C
(ISO C 6.5: primary, postfix, unary minus, multiplicative, additive, relational, equality, logical and,
logical or and conditional expressions), and the syntax trees it returns. It is a specification: it is
used to say what a printed text means, independently of how the generator decides about parentheses.
-/
namespace Verif.CExpr

/-- binary operators -/
inductive Op
  | mul | div | add | sub | lt | le | gt | ge | eq | ne | and | or
deriving DecidableEq, Repr

/-- level in the grammar: the higher the tighter -/
def Op.prec : Op → Nat
  | .mul | .div => 6
  | .add | .sub => 5
  | .lt | .le | .gt | .ge => 4
  | .eq | .ne => 3
  | .and => 2
  | .or => 1

/-- tokens: names, literals (of any kind `κ`), parentheses, brackets, `?`, `:`, `,` and operators. The
operator `-` is also the sign. -/
inductive Tok (κ : Type)
  | id (s : String)
  | num (c : κ)
  | lp | rp | lb | rb | comma | quest | colon
  | op (o : Op)
deriving DecidableEq, Repr

/-- syntax trees, with the parentheses of the text -/
inductive Tree (κ : Type)
  | id (s : String)
  | num (c : κ)
  | paren (t : Tree κ)
  | neg (t : Tree κ)
  | bin (o : Op) (a b : Tree κ)
  | cond (a b c : Tree κ)
  | call1 (f : String) (a : Tree κ)
  | call2 (f : String) (a b : Tree κ)
  | idx (a i : Tree κ)
deriving DecidableEq, Repr

variable {κ : Type}

/-- what the parser is doing: reading an expression of a level, continuing a left associative chain,
continuing with subscripts -/
inductive Mode (κ : Type)
  | lvl (n : Nat)
  | loop (n : Nat) (acc : Tree κ)
  | post (acc : Tree κ)

/-- the parser: level 0 is a conditional expression, 1 to 6 binary operators, 7 the unary minus and 8
primary and postfix expressions -/
def parse : Nat → Mode κ → List (Tok κ) → Option (Tree κ × List (Tok κ))
  | 0, _, _ => none
  | fuel + 1, .lvl n, toks =>
    if n = 0 then
      match parse fuel (.lvl 1) toks with
      | some (a, .quest :: r) =>
        match parse fuel (.lvl 0) r with
        | some (b, .colon :: r) =>
          match parse fuel (.lvl 0) r with
          | some (c, r) => some (.cond a b c, r)
          | none => none
        | _ => none
      | res => res
    else if n = 7 then
      match toks with
      | .op .sub :: r =>
        match parse fuel (.lvl 7) r with
        | some (t, r) => some (.neg t, r)
        | none => none
      | _ => parse fuel (.lvl 8) toks
    else if n = 8 then
      match toks with
      | .num c :: r => parse fuel (.post (.num c)) r
      | .id f :: .lp :: r =>
        match parse fuel (.lvl 0) r with
        | some (a, .rp :: r) => parse fuel (.post (.call1 f a)) r
        | some (a, .comma :: r) =>
          match parse fuel (.lvl 0) r with
          | some (b, .rp :: r) => parse fuel (.post (.call2 f a b)) r
          | _ => none
        | _ => none
      | .id s :: r => parse fuel (.post (.id s)) r
      | .lp :: r =>
        match parse fuel (.lvl 0) r with
        | some (a, .rp :: r) => parse fuel (.post (.paren a)) r
        | _ => none
      | _ => none
    else
      match parse fuel (.lvl (n + 1)) toks with
      | some (a, r) => parse fuel (.loop n a) r
      | none => none
  | fuel + 1, .loop n acc, toks =>
    match toks with
    | .op o :: r =>
      if o.prec = n then
        match parse fuel (.lvl (n + 1)) r with
        | some (b, r) => parse fuel (.loop n (.bin o acc b)) r
        | none => none
      else some (acc, toks)
    | _ => some (acc, toks)
  | fuel + 1, .post acc, toks =>
    match toks with
    | .lb :: r =>
      match parse fuel (.lvl 0) r with
      | some (i, .rb :: r) => parse fuel (.post (.idx acc i)) r
      | _ => none
    | _ => some (acc, toks)

/-- the text is the expression `t`: given enough fuel the parser reads all of it and returns `t` -/
def Reads (toks : List (Tok κ)) (t : Tree κ) : Prop :=
  ∃ n, ∀ m, n ≤ m → parse m (.lvl 0) toks = some (t, [])

/-- a text has one reading -/
theorem Reads.unique {toks : List (Tok κ)} {t t' : Tree κ} (h : Reads toks t) (h' : Reads toks t') : t = t' := by
  obtain ⟨n, hn⟩ := h
  obtain ⟨n', hn'⟩ := h'
  have h1 := hn (max n n') (Nat.le_max_left ..)
  rw [hn' (max n n') (Nat.le_max_right ..)] at h1
  simpa using h1.symm

/-- the text of a tree -/
def Tree.toks : Tree κ → List (Tok κ)
  | .id s => [.id s]
  | .num c => [.num c]
  | .paren t => .lp :: t.toks ++ [.rp]
  | .neg t => .op .sub :: t.toks
  | .bin o a b => a.toks ++ .op o :: b.toks
  | .cond a b c => a.toks ++ .quest :: b.toks ++ .colon :: c.toks
  | .call1 f a => .id f :: .lp :: a.toks ++ [.rp]
  | .call2 f a b => .id f :: .lp :: a.toks ++ .comma :: b.toks ++ [.rp]
  | .idx a i => a.toks ++ .lb :: i.toks ++ [.rb]

/-- `a - b - c` is `(a - b) - c`, `-a * b` is `(-a) * b`, `a ? b : c ? d : e` is `a ? b : (c ? d : e)` -/
example : parse 40 (.lvl 0) [.id "a", .op .sub, .id "b", .op .sub, .id "c"]
    = some (Tree.bin .sub (.bin .sub (.id "a") (.id "b")) (.id "c") (κ := Nat), []) := by decide
example : parse 40 (.lvl 0) [.op .sub, .id "a", .op .mul, .id "b", .op .add, .num 3]
    = some (Tree.bin .add (.bin .mul (.neg (.id "a")) (.id "b")) (.num 3) (κ := Nat), []) := by decide
example : parse 40 (.lvl 0) [.id "a", .quest, .id "b", .colon, .id "c", .quest, .id "d", .colon, .id "e"]
    = some (Tree.cond (.id "a") (.id "b") (.cond (.id "c") (.id "d") (.id "e")) (κ := Nat), []) := by decide

end Verif.CExpr
