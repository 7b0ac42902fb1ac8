/-
The log of nested jobs and what listeners are told about them.
-/
namespace Verif.Timer

/-- a job: name, what its start and its end are called, a prefix, and when it starts and ends -/
structure Info where
  name : List Char
  action : List Char
  actionEnd : List Char
  pre : List Char
  t0 : Int
  t1 : Int
deriving DecidableEq

/-- jobs one after the other: the first one with the jobs inside it, and the rest -/
inductive Jobs
  | nil
  | cons (i : Info) (inside rest : Jobs)

/-- a listener is told of the start or the end of the last one of some running jobs; at the end it gets the elapsed time -/
inductive Event
  | started (running : List Info)
  | ended (running : List Info) (elapsed : Int)

/-- text with dots up to a width -/
def dotted (width : Nat) (s : List Char) : List Char := s ++ List.replicate (width - s.length) '.'

/-- the time at the end of a line -/
def doneText (fmt : Int → List Char) (i : Info) : List Char := " done [".toList ++ fmt (i.t1 - i.t0) ++ "]\n".toList

/-- one line for a job with no jobs inside; otherwise a line for its start, the lines of those inside, two spaces to the right, and a line for its end -/
def log (fmt : Int → List Char) (width : Nat) : Nat → Jobs → List Char
  | _, .nil => []
  | depth, .cons i .nil rest =>
    dotted width (List.replicate (2 * depth) ' ' ++ (if i.pre = [] then [] else i.pre ++ [' ']) ++ i.action ++ [' '] ++ i.name ++ " ...".toList) ++ doneText fmt i
      ++ log fmt width depth rest
  | depth, .cons i (.cons j a b) rest =>
    dotted width (List.replicate (2 * depth) ' ' ++ (if i.pre = [] then [] else i.pre ++ [' ']) ++ i.action ++ [' '] ++ i.name ++ " ...".toList) ++ ['\n']
      ++ log fmt width (depth + 1) (.cons j a b)
      ++ dotted width (List.replicate (2 * depth) ' ' ++ i.actionEnd ++ [' '] ++ i.name ++ " ...".toList) ++ doneText fmt i
      ++ log fmt width depth rest

/-- start and end of each job, with the jobs around it, and what happens inside in between -/
def events : List Info → Jobs → List Event
  | _, .nil => []
  | around, .cons i inside rest =>
    .started (around ++ [i]) :: events (around ++ [i]) inside ++ .ended (around ++ [i]) (i.t1 - i.t0) :: events around rest

end Verif.Timer
