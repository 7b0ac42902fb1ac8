import Verif.Timer.Model

/-
Lemmas for C86.
-/
namespace Verif.Timer

/-- the last running job has jobs inside; the new line which it gets for that -/
def mark (J : List Job) : List Job × List Char :=
  match J.getLast? with
  | none => ([], [])
  | some p => (J.dropLast ++ [{ p with nested := true }], if p.nested then [] else ['\n'])

theorem mark_nil : mark [] = ([], []) := rfl

theorem mark_append (J : List Job) (p : Job) : mark (J ++ [p]) = (J ++ [{ p with nested := true }], if p.nested then [] else ['\n']) := by
  simp [mark]

theorem eq_nil_or_append (J : List Job) : J = [] ∨ ∃ P p, J = P ++ [p] := by
  cases h : J.getLast? with
  | none => exact Or.inl (List.getLast?_eq_none_iff.1 h)
  | some p =>
    obtain ⟨P, hP⟩ := List.getLast?_eq_some_iff.1 h
    exact Or.inr ⟨P, p, hP⟩

theorem markParent_append (J : List Job) (p j : Job) :
    markParent (J ++ [p, j]) = if p.nested then (J ++ [p, j], []) else (J ++ [{ p with nested := true }, j], ['\n']) := by
  induction J with
  | nil => rfl
  | cons q J ih =>
    have : markParent (q :: (J ++ [p, j])) = (q :: (markParent (J ++ [p, j])).1, (markParent (J ++ [p, j])).2) := by
      cases J with
      | nil => rfl
      | cons r J =>
        cases J with
        | nil => rfl
        | cons s J => rfl
    rw [List.cons_append, this, ih]
    split <;> rfl

theorem markParent_mark (J : List Job) (j : Job) : markParent (J ++ [j]) = ((mark J).1 ++ [j], (mark J).2) := by
  rcases eq_nil_or_append J with rfl | ⟨P, p, rfl⟩
  · rfl
  · rw [List.append_assoc, List.singleton_append, markParent_append, mark_append]
    obtain ⟨i, n⟩ := p
    cases n <;> simp

theorem mark_mark (J : List Job) : mark (mark J).1 = ((mark J).1, []) := by
  rcases eq_nil_or_append J with rfl | ⟨P, p, rfl⟩
  · rfl
  · rw [mark_append, mark_append]
    rfl

theorem mark_length (J : List Job) : (mark J).1.length = J.length := by
  rcases eq_nil_or_append J with rfl | ⟨P, p, rfl⟩
  · rfl
  · rw [mark_append]
    simp

theorem mark_info (J : List Job) : (mark J).1.map Job.info = J.map Job.info := by
  rcases eq_nil_or_append J with rfl | ⟨P, p, rfl⟩
  · rfl
  · rw [mark_append]
    simp

theorem setw_dotted (w : Nat) (s : List Char) : setw w s = dotted w s := by
  rw [setw, dotted]
  split
  · rfl
  · rename_i h
    rw [Nat.sub_eq_zero_of_le (Nat.le_of_not_lt h)]
    simp

/-- the line of the start of a job -/
def startLine (w depth : Nat) (i : Info) : List Char :=
  dotted w (List.replicate (2 * depth) ' ' ++ (if i.pre = [] then [] else i.pre ++ [' ']) ++ i.action ++ [' '] ++ i.name ++ " ...".toList)

theorem startingJob_verbose (i : Info) (w : Nat) (J : List Job) (out : List Char) (told : List Event) :
    startingJob i ⟨true, w, 2, J, out, told⟩ = ⟨true, w, 2, (mark J).1 ++ [⟨i, false⟩], out ++ (mark J).2 ++ startLine w J.length i,
      told ++ [.started (J.map Job.info ++ [i])]⟩ := by
  have h1 : (if J.length + 1 > 1 then 2 * (J.length + 1 - 1) else 0) = 2 * J.length := by
    split
    · simp
    · have : J.length = 0 := by omega
      simp [this]
  have h2 : (if 2 * J.length > 0 then List.replicate (2 * J.length) ' ' else []) = List.replicate (2 * J.length) ' ' := by
    split
    · rfl
    · have : J.length = 0 := by omega
      simp [this]
  have h3 : (if !i.pre.isEmpty then i.pre ++ [' '] else []) = if i.pre = [] then [] else i.pre ++ [' '] := by
    cases i.pre <;> simp
  simp only [startingJob, if_true, List.length_append, List.length_singleton]
  rw [h1, h2, h3, markParent_mark, setw_dotted, startLine]
  simp [mark_info, List.append_assoc]

theorem startingJob_quiet (i : Info) (w n : Nat) (J : List Job) (out : List Char) (told : List Event) :
    startingJob i ⟨false, w, n, J, out, told⟩ = ⟨false, w, n, J ++ [⟨i, false⟩], out, told ++ [.started (J.map Job.info ++ [i])]⟩ := by
  simp [startingJob]

theorem finishedJob_verbose (fmt : Int → List Char) (i : Info) (nested : Bool) (w : Nat) (J : List Job) (out : List Char) (told : List Event) :
    finishedJob fmt i.t1 ⟨true, w, 2, J ++ [⟨i, nested⟩], out, told⟩ = some ⟨true, w, 2, J,
      out ++ (if nested then dotted w (List.replicate (2 * J.length) ' ' ++ i.actionEnd ++ [' '] ++ i.name ++ " ...".toList) else []) ++ doneText fmt i,
      told ++ [.ended (J.map Job.info ++ [i]) (i.t1 - i.t0)]⟩ := by
  unfold finishedJob doneText
  generalize " done [".toList = a
  generalize "]\n".toList = b
  generalize " ...".toList = c
  rw [List.getLast?_concat]
  simp only [if_true, setw_dotted, List.length_append, List.length_singleton, Nat.add_sub_cancel, List.map_append,
    List.map_cons, List.map_nil, List.dropLast_concat, List.append_assoc]

theorem finishedJob_quiet (fmt : Int → List Char) (i : Info) (nested : Bool) (w n : Nat) (J : List Job) (out : List Char) (told : List Event) :
    finishedJob fmt i.t1 ⟨false, w, n, J ++ [⟨i, nested⟩], out, told⟩ = some ⟨false, w, n, J, out,
      told ++ [.ended (J.map Job.info ++ [i]) (i.t1 - i.t0)]⟩ := by
  simp [finishedJob]

theorem run_quiet (fmt : Int → List Char) (w n : Nat) : ∀ (F : Jobs) (J : List Job) (out : List Char) (told : List Event),
    run fmt F ⟨false, w, n, J, out, told⟩ = some ⟨false, w, n, J, out, told ++ events (J.map Job.info) F⟩
  | .nil, J, out, told => by simp [run, events]
  | .cons i inside rest, J, out, told => by
    rw [run, startingJob_quiet, run_quiet fmt w n inside, Option.bind_some, finishedJob_quiet, Option.bind_some, run_quiet fmt w n rest]
    simp [events]

/-- the running jobs after others inside, and the new line for the first one -/
def after (F : Jobs) (J : List Job) : List Job × List Char :=
  match F with
  | .nil => (J, [])
  | .cons _ _ _ => mark J

theorem after_mark (F : Jobs) (J : List Job) : after F (mark J).1 = ((mark J).1, []) := by
  cases F with
  | nil => rfl
  | cons i a b => exact mark_mark J

theorem run_verbose (fmt : Int → List Char) (w : Nat) : ∀ (F : Jobs) (J : List Job) (out : List Char) (told : List Event),
    run fmt F ⟨true, w, 2, J, out, told⟩ = some ⟨true, w, 2, (after F J).1, out ++ (after F J).2 ++ log fmt w J.length F, told ++ events (J.map Job.info) F⟩
  | .nil, J, out, told => by simp [run, events, after, log]
  | .cons i inside rest, J, out, told => by
    rw [run, startingJob_verbose, run_verbose fmt w inside]
    cases inside with
    | nil =>
      simp only [after, Option.bind_some]
      rw [finishedJob_verbose, Option.bind_some, run_verbose fmt w rest, after_mark]
      simp [events, log, mark_info, mark_length, startLine]
    | cons j a b =>
      simp only [after, mark_append, Option.bind_some]
      rw [finishedJob_verbose, Option.bind_some, run_verbose fmt w rest, after_mark]
      simp [events, log, mark_info, mark_length, startLine]

/-- jobs one after the other -/
def Jobs.append : Jobs → Jobs → Jobs
  | .nil, G => G
  | .cons i a b, G => .cons i a (b.append G)

theorem run_append (fmt : Int → List Char) : ∀ (F G : Jobs) (st : St), run fmt (F.append G) st = (run fmt F st).bind (run fmt G)
  | .nil, G, st => rfl
  | .cons i a b, G, st => by
    rw [Jobs.append, run, run]
    cases h : (run fmt a (startingJob i st)).bind (finishedJob fmt i.t1) with
    | none => rfl
    | some st1 =>
      rw [Option.bind_some, Option.bind_some]
      exact run_append fmt b G st1

/-- the jobs of files -/
def fileTree : List (Info × Bool) → Jobs
  | [] => .nil
  | f :: fs => .cons f.1 .nil (fileTree fs)

theorem compileJobs_ok (fmt : Int → List Char) : ∀ (fs : List (Info × Bool)) (st : St), (∀ f ∈ fs, f.2 = true) →
    compileJobs fmt fs st = (run fmt (fileTree fs) st).map fun st => (true, st)
  | [], st, _ => rfl
  | (i, ok) :: fs, st, h => by
    have hok : ok = true := h (i, ok) (by simp)
    subst hok
    rw [compileJobs, fileTree, run, run, Option.bind_some]
    simp only [if_true]
    cases hf : finishedJob fmt i.t1 (startingJob i st) with
    | none => rfl
    | some st1 => exact compileJobs_ok fmt fs st1 fun f hf => h f (by simp [hf])

/-- the jobs of models -/
def modelTree : List (Jobs × Info × List (Info × Bool)) → Jobs
  | [] => .nil
  | m :: ms => m.1.append (.cons m.2.1 (fileTree m.2.2) (modelTree ms))

theorem modelJobs_ok (fmt : Int → List Char) : ∀ (ms : List (Jobs × Info × List (Info × Bool))) (st : St), (∀ m ∈ ms, ∀ f ∈ m.2.2, f.2 = true) →
    modelJobs fmt ms st = (run fmt (modelTree ms) st).map fun st => (true, st)
  | [], st, _ => rfl
  | (gen, i, fs) :: ms, st, h => by
    rw [modelJobs, modelTree, run_append]
    cases hg : run fmt gen st with
    | none => rfl
    | some st1 =>
      simp only [Option.bind_some, run]
      rw [compileJobs_ok fmt fs _ (h (gen, i, fs) (by simp))]
      cases hr : run fmt (fileTree fs) (startingJob i st1) with
      | none => rfl
      | some st2 =>
        simp only [Option.map_some, Option.bind_some, if_true]
        cases hf : finishedJob fmt i.t1 st2 with
        | none => rfl
        | some st3 => exact modelJobs_ok fmt ms st3 fun m hm => h m (by simp [hm])

/-- the jobs of a library -/
def libraryTree (lib : Info) (ms : List (Jobs × Info × List (Info × Bool))) (fs : List (Info × Bool)) (link : Info) : Jobs :=
  .cons lib ((modelTree ms).append ((fileTree fs).append (.cons link .nil .nil))) .nil

theorem libraryJobs_ok (fmt : Int → List Char) (lib : Info) (ms : List (Jobs × Info × List (Info × Bool))) (fs : List (Info × Bool)) (link : Info) (st : St)
    (hms : ∀ m ∈ ms, ∀ f ∈ m.2.2, f.2 = true) (hfs : ∀ f ∈ fs, f.2 = true) :
    libraryJobs fmt lib ms fs link st = (run fmt (libraryTree lib ms fs link) st).map fun st => (true, st) := by
  rw [libraryJobs, libraryTree, run, run_append, modelJobs_ok fmt ms _ hms]
  cases h1 : run fmt (modelTree ms) (startingJob lib st) with
  | none => rfl
  | some st1 =>
    simp only [Option.map_some, Option.bind_some, if_true]
    rw [run_append, compileJobs_ok fmt fs _ hfs]
    cases h2 : run fmt (fileTree fs) st1 with
    | none => rfl
    | some st2 =>
      simp only [Option.map_some, Option.bind_some, if_true, run]
      cases h3 : finishedJob fmt link.t1 (startingJob link st2) with
      | none => rfl
      | some st3 =>
        simp only [Option.bind_some]
        cases h4 : finishedJob fmt lib.t1 st3 with
        | none => rfl
        | some st4 => rfl

end Verif.Timer
