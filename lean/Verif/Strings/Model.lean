import Verif.Strings.Spec
/-
Model of the string helpers of /repo/include/cppad/cg/util.hpp l.741-806 and of the text of a print
operation (lang/c/language_c.hpp l.1696-1715).
-/
namespace Verif.Strings

/-- `std::string::find(pat, pos)` -/
def find (text pat : Str) (pos : Nat) : Option Nat :=
  (List.range' pos (text.length + 1 - pos)).find? fun p => pat.isPrefixOf (text.drop p)

/-- loop of `replaceString`, l.755-758; `none`: not finished within `fuel` iterations -/
def replaceLoop (pat r : Str) : Nat → Str → Nat → Option Str
  | 0, _, _ => none
  | fuel + 1, text, pos =>
    match find text pat pos with
    | none => some text
    | some p => replaceLoop pat r fuel (text.take p ++ r ++ text.drop (p + pat.length)) (p + r.length)

/-- `replaceString`, l.751-759, run for at most `fuel` iterations -/
def replaceString (fuel : Nat) (text pat r : Str) : Option Str := replaceLoop pat r fuel text 0

/-- loop of `explode`, l.769-780; result: the pieces and the last `start` -/
def explodeLoop (text d : Str) : Nat → Nat → List Str → Option (List Str × Nat)
  | 0, _, _ => none
  | fuel + 1, start, ms =>
    match find text d start with
    | none => some (ms, start)
    | some pos => explodeLoop text d fuel (pos + d.length) (ms ++ [(text.drop start).take (pos - start)])

/-- `explode`, l.761-786 -/
def explode (fuel : Nat) (text d : Str) : Option (List Str) :=
  if d.length = 0 then some []
  else
    match explodeLoop text d fuel 0 [] with
    | none => none
    | some (ms, start) =>
      some (if start < text.length then ms ++ [(text.drop start).take (text.length - start)] else ms)

/-- `implode`, l.788-806 -/
def implode (text : List Str) (d : Str) : Str :=
  match text with
  | [] => []
  | [a] => a
  | a :: l => l.foldl (fun out s => out ++ d ++ s) a

/-- escaping of the text of a print operation, language_c.hpp l.1701-1706 -/
def escape (fuel : Nat) (t : Str) : Option Str :=
  match replaceString fuel t ['\n'] ['\\', 'n'] with
  | none => none
  | some u => replaceString fuel u ['"'] ['\\', '"']

/-- the string literal of a print operation after its opening quote, l.1708 -/
def printLiteral (fuel : Nat) (before fmt after : Str) : Option Str :=
  match escape fuel before, escape fuel after with
  | some b, some a => some (b ++ fmt ++ a ++ ['"'])
  | _, _ => none

end Verif.Strings
