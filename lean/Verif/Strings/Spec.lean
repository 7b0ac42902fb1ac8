/-
Specification for the string helpers; strings are lists of characters.
-/
namespace Verif.Strings

abbrev Str := List Char

/-- `pat` occurs in `text` at position `p` -/
def OccursAt (pat text : Str) (p : Nat) : Prop := p ≤ text.length ∧ pat <+: text.drop p

/-- the pieces between the occurrences of `pat`, taken from left to right without overlap -/
inductive Pieces (pat : Str) : Str → List Str → Prop
  | last {t : Str} : (∀ p, ¬ OccursAt pat t p) → Pieces pat t [t]
  | cons {a rest : Str} {ps : List Str} : (∀ p, p < a.length → ¬ OccursAt pat (a ++ pat ++ rest) p) →
      Pieces pat rest ps → Pieces pat (a ++ pat ++ rest) (a :: ps)

/-- pieces joined by a separator -/
def join (sep : Str) : List Str → Str
  | [] => []
  | [a] => a
  | a :: b :: l => a ++ sep ++ join sep (b :: l)

/-- A C string literal read after its opening quote: the characters denoted and what follows the
closing quote. Only the escapes `\n`, `\"` and `\\` are described; a line break or the end of the
text inside the literal is an error. -/
def readLiteral : Str → Option (Str × Str)
  | [] => none
  | '"' :: rest => some ([], rest)
  | '\n' :: _ => none
  | '\\' :: 'n' :: r => (readLiteral r).map fun x => ('\n' :: x.1, x.2)
  | '\\' :: '"' :: r => (readLiteral r).map fun x => ('"' :: x.1, x.2)
  | '\\' :: '\\' :: r => (readLiteral r).map fun x => ('\\' :: x.1, x.2)
  | '\\' :: _ => none
  | c :: r => (readLiteral r).map fun x => (c :: x.1, x.2)

/-- output of `printf` for a format with conversions `%<letter>`: each consumes one (already formatted)
argument; `%%` prints a percent sign; too few arguments are undefined behaviour -/
def printf : Str → List Str → Option Str
  | [], _ => some []
  | '%' :: '%' :: r, as => (printf r as).map fun o => '%' :: o
  | '%' :: _ :: r, a :: as => (printf r as).map fun o => a ++ o
  | '%' :: _, _ => none
  | c :: r, as => (printf r as).map fun o => c :: o

end Verif.Strings
