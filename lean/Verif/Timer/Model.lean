import Verif.Timer.Spec

/-
Model of `JobTimer`, /repo/include/cppad/cg/job_timer.hpp l.183-332. The clock and the text of a duration are given; all listeners are told the same, so one is modelled.
-/
namespace Verif.Timer

/-- `Job`, l.121-165; the times of its start and end are in `info`, only the start is used before the end -/
structure Job where
  info : Info
  nested : Bool

/-- `_verbose`, `_maxLineWidth`, `_indent`, `_jobs`, and what was printed and told to the listener -/
structure St where
  verbose : Bool
  maxLineWidth : Nat
  indent : Nat
  jobs : List Job
  out : List Char
  told : List Event

/-- a new timer, l.221-225 -/
def new : St := ⟨false, 80, 2, [], [], []⟩

/-- `std::setw(w) << std::setfill('.') << std::left << s`, l.287, l.317 -/
def setw (w : Nat) (s : List Char) : List Char := if s.length < w then s ++ List.replicate (w - s.length) '.' else s

/-- the parent of the job added last gets a new line once, l.272-277 -/
def markParent : List Job → List Job × List Char
  | [] => ([], [])
  | [p, j] => if p.nested then ([p, j], []) else ([{ p with nested := true }, j], ['\n'])
  | p :: ps => let r := markParent ps; (p :: r.1, r.2)

/-- `startingJob`, l.260-296 -/
def startingJob (i : Info) (st : St) : St :=
  let jobs := st.jobs ++ [⟨i, false⟩]
  let st :=
    if st.verbose then
      let r := markParent jobs
      let indent := if jobs.length > 1 then st.indent * (jobs.length - 1) else 0
      let os := (if indent > 0 then List.replicate indent ' ' else []) ++ (if !i.pre.isEmpty then i.pre ++ [' '] else [])
        ++ (i.action ++ [' '] ++ i.name ++ " ...".toList)
      { st with jobs := r.1, out := st.out ++ r.2 ++ setw st.maxLineWidth os }
    else { st with jobs := jobs }
  { st with told := st.told ++ [.started (st.jobs.map Job.info)] }

/-- `finishedJob` at the time `now`, l.298-330; `none` is undefined behaviour -/
def finishedJob (fmt : Int → List Char) (now : Int) (st : St) : Option St :=
  match st.jobs.getLast? with
  | none => none
  | some job =>
    let elapsed := now - job.info.t0
    let out :=
      if st.verbose then
        let line :=
          if job.nested then
            setw st.maxLineWidth (List.replicate (st.indent * (st.jobs.length - 1)) ' ' ++ job.info.actionEnd ++ [' '] ++ job.info.name ++ " ...".toList)
          else []
        st.out ++ line ++ " done [".toList ++ fmt elapsed ++ "]\n".toList
      else st.out
    some { st with out := out, told := st.told ++ [.ended (st.jobs.map Job.info) elapsed], jobs := st.jobs.dropLast }

/-- jobs which are started and finished one inside the other -/
def run (fmt : Int → List Char) : Jobs → St → Option St
  | .nil, st => some st
  | .cons i inside rest, st => ((run fmt inside (startingJob i st)).bind (finishedJob fmt i.t1)).bind (run fmt rest)

/-- the jobs of one variable in forward mode with atomic functions: the graph, model_c_source_gen_for1.hpp l.83-114, and its source, l.128, code_handler_impl.hpp l.276, l.466 -/
def oneByOne (fmt : Int → List Char) : List (Info × Info) → St → Option St
  | [], st => some st
  | (g, s) :: vs, st =>
    ((finishedJob fmt g.t1 (startingJob g st)).bind fun st => finishedJob fmt s.t1 (startingJob s st)).bind (oneByOne fmt vs)

/-- `generateSparseForwardOneSourcesWithAtomics` for the variables `vs`, which starts a job `j`, called between the start of a job `i` and an end: model_c_source_gen_for1.hpp l.43-51, l.73-129. Reverse mode is the same,
model_c_source_gen_rev1.hpp l.43-51, l.77-119. -/
def forwardOneAtomics (fmt : Int → List Char) (i j : Info) (vs : List (Info × Info)) (st : St) : Option St :=
  (oneByOne fmt vs (startingJob j (startingJob i st))).bind (finishedJob fmt j.t1)

/-- the jobs of `compileSources`, model/compiler/abstract_c_compiler.hpp l.192-242, for files and whether they compile; the first component is `false` if there is an exception, for which no job is finished -/
def compileJobs (fmt : Int → List Char) : List (Info × Bool) → St → Option (Bool × St)
  | [], st => some (true, st)
  | (i, ok) :: fs, st =>
    let st := startingJob i st
    if ok then (finishedJob fmt i.t1 st).bind (compileJobs fmt fs) else some (false, st)

/-- the jobs of each model in `createDynamicLibrary`, model/dynamic_lib/dynamic_library_processor.hpp l.134-140: generation of its sources (given), and compiling them -/
def modelJobs (fmt : Int → List Char) : List (Jobs × Info × List (Info × Bool)) → St → Option (Bool × St)
  | [], st => some (true, st)
  | (gen, i, fs) :: ms, st =>
    (run fmt gen st).bind fun st =>
      (compileJobs fmt fs (startingJob i st)).bind fun r =>
        if r.1 then (finishedJob fmt i.t1 r.2).bind (modelJobs fmt ms) else some r

/-- the jobs of `createDynamicLibrary`, l.130-162: `fs` are the sources of the library and of the user, `link` is the job of the linker, which is taken to succeed -/
def libraryJobs (fmt : Int → List Char) (lib : Info) (ms : List (Jobs × Info × List (Info × Bool))) (fs : List (Info × Bool)) (link : Info) (st : St) : Option (Bool × St) :=
  (modelJobs fmt ms (startingJob lib st)).bind fun r =>
    if r.1 then
      (compileJobs fmt fs r.2).bind fun r =>
        if r.1 then (finishedJob fmt link.t1 (startingJob link r.2)).bind fun st => (finishedJob fmt lib.t1 st).map fun st => (true, st)
        else some r
    else some r

end Verif.Timer
