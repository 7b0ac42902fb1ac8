import Verif.Timer.Lemmas

/-
C86: the log and the listeners of `JobTimer`.
-/
namespace Verif.Timer

/-- C86: for jobs started and finished one inside the other, nothing is running afterwards, listeners are told the start and the end of each with the jobs around it
and its time, and the log has the lines of the jobs if it is wanted -/
theorem timer_right (fmt : Int → List Char) (verbose : Bool) (width : Nat) (F : Jobs) (out : List Char) (told : List Event) :
    run fmt F { new with verbose := verbose, maxLineWidth := width, out := out, told := told } =
      some { new with verbose := verbose, maxLineWidth := width, out := out ++ (if verbose then log fmt width 0 F else []), told := told ++ events [] F } := by
  cases verbose with
  | false =>
    have := run_quiet fmt width 2 F [] out told
    simpa [new] using this
  | true =>
    have := run_verbose fmt width F [] out told
    have h : after F [] = ([], []) := by cases F <;> rfl
    rw [h] at this
    simpa [new] using this

/-- C86, with jobs already running, whatever was printed for them: the same jobs are running afterwards, and listeners are told of the jobs inside them -/
theorem running_right (fmt : Int → List Char) (verbose : Bool) (width : Nat) (F : Jobs) (J : List Job) (out : List Char) (told : List Event) :
    ∃ st, run fmt F { new with verbose := verbose, maxLineWidth := width, jobs := J, out := out, told := told } = some st ∧
      st.jobs.map Job.info = J.map Job.info ∧ st.told = told ++ events (J.map Job.info) F := by
  cases verbose with
  | false => exact ⟨_, run_quiet fmt width 2 F J out told, rfl, rfl⟩
  | true =>
    refine ⟨_, run_verbose fmt width F J out told, ?_, rfl⟩
    cases F with
    | nil => rfl
    | cons i a b => exact mark_info J

/-- C86, failure: the generation of sparse forward mode with atomic functions starts two jobs and finishes one, so for all variables and times the first one is still running afterwards -/
theorem unfinished_counterexample (fmt : Int → List Char) (verbose : Bool) (width : Nat) (i j : Info) (vs : List (Info × Info)) :
    ∃ st, forwardOneAtomics fmt i j vs { new with verbose := verbose, maxLineWidth := width } = some st ∧ st.jobs.map Job.info = [i] := by
  have h : ∀ (vs : List (Info × Info)) (st : St), oneByOne fmt vs st = run fmt (vs.foldr (fun v F => .cons v.1 .nil (.cons v.2 .nil F)) .nil) st := by
    intro vs
    induction vs with
    | nil => intro st; rfl
    | cons v vs ih =>
      intro st
      simp only [oneByOne, List.foldr_cons, run, Option.bind_some]
      cases hf : finishedJob fmt v.1.t1 (startingJob v.1 st) with
      | none => rfl
      | some st1 =>
        simp only [Option.bind_some]
        cases hg : finishedJob fmt v.2.t1 (startingJob v.2 st1) with
        | none => rfl
        | some st2 => exact ih st2
  rw [forwardOneAtomics, h]
  cases verbose with
  | false =>
    simp only [new]
    rw [startingJob_quiet, startingJob_quiet, run_quiet, Option.bind_some, finishedJob_quiet]
    exact ⟨_, rfl, rfl⟩
  | true =>
    simp only [new]
    rw [startingJob_verbose, startingJob_verbose, run_verbose, Option.bind_some]
    cases vs with
    | nil => exact ⟨_, finishedJob_verbose .., by simp [mark]⟩
    | cons v vs =>
      simp only [List.foldr_cons, after, mark_append]
      exact ⟨_, finishedJob_verbose .., by simp [mark]⟩

/-- C86: if all sources of a library compile, the same jobs are running after its creation as before -/
theorem library_right_partial (fmt : Int → List Char) (verbose : Bool) (width : Nat) (lib : Info) (ms : List (Jobs × Info × List (Info × Bool))) (fs : List (Info × Bool)) (link : Info)
    (J : List Job) (out : List Char) (told : List Event) (hms : ∀ m ∈ ms, ∀ f ∈ m.2.2, f.2 = true) (hfs : ∀ f ∈ fs, f.2 = true) :
    ∃ st, libraryJobs fmt lib ms fs link { new with verbose := verbose, maxLineWidth := width, jobs := J, out := out, told := told } = some (true, st) ∧
      st.jobs.map Job.info = J.map Job.info := by
  obtain ⟨st, h1, h2, -⟩ := running_right fmt verbose width (libraryTree lib ms fs link) J out told
  exact ⟨st, by rw [libraryJobs_ok fmt lib ms fs link _ hms hfs, h1]; rfl, h2⟩

/-! ### cases -/

private def job (name : String) (t0 t1 : Int) : Info := ⟨name.toList, "generating".toList, "generated".toList, [], t0, t1⟩

private def some1 : Jobs := .cons (job "model" 0 9) (.cons (job "a" 1 3) .nil (.cons { job "b" 3 8 with pre := "[2]".toList } (.cons (job "c" 4 5) .nil .nil) .nil)) (.cons (job "d" 9 10) .nil .nil)

private def digits (t : Int) : List Char := (toString t).toList

-- a job with two jobs inside, the second of them with one, and a job after it
example : (run digits some1 { new with verbose := true, maxLineWidth := 24 }).map (fun st => String.ofList st.out) = some (
    "generating model ......." ++ "\n" ++
    "  generating a ........." ++ " done [2]\n" ++
    "  [2] generating b ....." ++ "\n" ++
    "    generating c ......." ++ " done [1]\n" ++
    "  generated b .........." ++ " done [5]\n" ++
    "generated model ........" ++ " done [9]\n" ++
    "generating d ..........." ++ " done [1]\n") := by
  decide +kernel

/-- C86, failure: if a source does not compile, the jobs of the library, of the model and of the file are not finished, and those of the next library are taken to be inside them -/
theorem exception_counterexample : ∃ (fmt : Int → List Char) (lib i f : Info) (st st' : St),
    libraryJobs fmt lib [(.nil, i, [(f, false)])] [] f new = some (false, st) ∧ st.jobs.map Job.info = [lib, i, f] ∧
    libraryJobs fmt lib [] [] f st = some (true, st') ∧ st'.told = st.told ++ events [lib, i, f] (.cons lib (.cons f .nil .nil) .nil) :=
  ⟨digits, job "library" 0 9, job "model" 1 8, job "file" 2 7, _, _, rfl, rfl, rfl, rfl⟩

end Verif.Timer
