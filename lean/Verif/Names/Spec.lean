/-
Specification for the names of variables in generated code: which arrays the variables of a function are read from,
and how an element of an array is written. Nothing here knows how names are built.
-/
namespace Verif.Names

/-- text -/
abbrev Txt := List Char

/-- how indexes are written -/
inductive Style
  | c
  | latex
  deriving DecidableEq, Repr

/-- decimal text of a number -/
def digits (k : Nat) : Txt := k.repr.toList

/-- the sign between the name of an array and the index -/
def Style.sep : Style → Char
  | .c => '['
  | .latex => '_'

/-- element `k` of the array `a`: `a[k]` in C; `a_k` in LaTeX, with braces around several digits -/
def element : Style → Txt → Nat → Txt
  | .c, a, k => a ++ '[' :: (digits k ++ [']'])
  | .latex, a, k => a ++ '_' :: (if (digits k).length = 1 then digits k else '{' :: (digits k ++ ['}']))

/-- the independent variables have the identifiers 1, 2, 3, … and are given to the function in several arrays; an array
is described by its name and the identifier of its first element. Variable `id` is element `k` of array `a`. -/
def At (L : List (Txt × Nat)) (id : Nat) (a : Txt) (k : Nat) : Prop :=
  ∃ (pre suf : List (Txt × Nat)) (start : Nat), L = pre ++ (a, start) :: suf ∧ start ≤ id ∧ k = id - start ∧
    ∀ q ∈ suf, id < q.2

/-- the name chosen by the user for position `i`: the empty text stands for no choice -/
def Chosen (names : List Txt) (i : Nat) (t : Txt) : Prop := names[i]? = some t ∧ t ≠ []

/-- the names chosen by the user are different from each other, and have no character which is used for indexes -/
def ProperNames (s : Style) (names : List Txt) : Prop :=
  (∀ i t, Chosen names i t → s.sep ∉ t) ∧ ∀ i j t, Chosen names i t → Chosen names j t → i = j

end Verif.Names
