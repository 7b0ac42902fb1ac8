import Verif.Library.LemmasSources

/-
C89: the sources of a library fit together, and have the pool which the models call.
-/
namespace Verif.Library.Sources

/-- C89, after all operations: the library lists exactly the models whose sources are compiled with it, the functions to
access the pool are for the pool which is compiled, and the pool is shut down if and only if it is the one of pthreads. -/
theorem library_fits (set : Nat → Settings) (i : Nat) (ops : List Op) :
    ∃ ms lib st, create (run (init set i) ops) = (ms, lib, st) ∧ lib.names = ms.map Prod.fst ∧ lib.access = lib.pool ∧
      (lib.shutdown = true ↔ lib.pool = .pthreads) := by
  refine ⟨_, _, _, rfl, ?_⟩
  have h : Fits (run (init set i) ops) := run_fits (fun l e => by cases e) ops
  generalize run (init set i) ops = st at h ⊢
  have h1 := sourcesOf_fits st.models h
  obtain ⟨a, b, c, -⟩ := getLib_fits h1
  have := a _ b
  rw [c, (sourcesOf_same st.models st).2.1] at this
  simpa [Function.comp_def] using this

/-- C89, if no setting is changed after it was used: models call no pool other than that of the library -/
theorem pool_there_partial (set : Nat → Settings) (i : Nat) (ops : List Op) (h : Settled i ops) :
    ∃ ms lib st, create (run (init set i) ops) = (ms, lib, st) ∧
      ∀ m ∈ ms, ∃ src, m.2 = some src ∧ (src.jac = .none ∨ src.jac = lib.pool) ∧ (src.hess = .none ∨ src.hess = lib.pool) := by
  refine ⟨_, _, _, rfl, fun m hm => ?_⟩
  have hc := run_settled set i h
  have hf : Fits (run (init set i) ops) := run_fits (fun l e => by cases e) ops
  generalize run (init set i) ops = st at hc hf hm ⊢
  obtain ⟨-, b, c, d, e⟩ := getLib_fits (sourcesOf_fits st.models hf)
  obtain ⟨j, hj, rfl⟩ := List.mem_map.1 hm
  refine ⟨calls (st.model j).set st.threads, ?_, ?_⟩
  · show ((getLib (sourcesOf st.models st)).2.model j).src = _
    rw [d]
    exact sourcesOf_src hc hj
  · have := (getLib_current (sourcesOf_current st.models hc)).2 _ b j (by rw [c, (sourcesOf_same st.models st).2.1]; exact hj)
    rw [d, e, sourcesOf_set, (sourcesOf_same st.models st).2.2] at this
    exact this

/-- C89, if no setting is changed after it was used: models call a pool only if it is the one asked for, if this
is permitted for the model, and if there are no loops; and they call it if it is permitted, there are no loops and the functions of
first order and of second order are there and reused -/
theorem pool_asked_partial (set : Nat → Settings) (i : Nat) (ops : List Op) (h : Settled i ops) :
    ∃ ms lib st, create (run (init set i) ops) = (ms, lib, st) ∧ ∀ m ∈ ms, ∃ src, m.2 = some src ∧
      (src.jac ≠ .none → src.jac = st.threads ∧ (st.model m.1).set.multi = true ∧ (st.model m.1).set.loops = false) ∧
      (src.hess ≠ .none → src.hess = st.threads ∧ (st.model m.1).set.multi = true ∧ (st.model m.1).set.loops = false) ∧
      ((st.model m.1).set.multi = true → (st.model m.1).set.loops = false → (st.model m.1).set.sparseJac = true →
        (st.model m.1).set.reuseOne = true → (st.model m.1).set.forwardOne = true → (st.model m.1).set.reverseOne = true →
        src.jac = st.threads) ∧
      ((st.model m.1).set.multi = true → (st.model m.1).set.loops = false → (st.model m.1).set.sparseHess = true →
        (st.model m.1).set.reuseRev2 = true → (st.model m.1).set.reverseTwo = true → src.hess = st.threads) := by
  refine ⟨_, _, _, rfl, fun m hm => ?_⟩
  have hc := run_settled set i h
  have hf : Fits (run (init set i) ops) := run_fits (fun l e => by cases e) ops
  generalize run (init set i) ops = st at hc hf hm ⊢
  obtain ⟨-, b, c, d, e⟩ := getLib_fits (sourcesOf_fits st.models hf)
  obtain ⟨j, hj, rfl⟩ := List.mem_map.1 hm
  have hsrc := sourcesOf_src hc hj
  have hset := sourcesOf_set st.models st j
  have hthr := (sourcesOf_same st.models st).2.2
  refine ⟨calls (st.model j).set st.threads, ?_, ?_⟩
  · show ((getLib (sourcesOf st.models st)).2.model j).src = _
    rw [d]
    exact hsrc
  · dsimp only
    rw [d, e, hthr, hset]
    generalize (st.model j).set = s
    generalize st.threads = t
    refine ⟨fun hn => ?_, fun hn => ?_, fun a b c d e f => ?_, fun a b c d e => ?_⟩
    · obtain ⟨a, b, c, -⟩ := (calls_jac s t).resolve_left hn
      exact ⟨a, b, c⟩
    · obtain ⟨a, b, c, -⟩ := (calls_hess s t).resolve_left hn
      exact ⟨a, b, c⟩
    · cases t <;> cases hm : s.forwardMode <;> simp [calls, jacSource, jacForRev, a, b, c, d, e, f, hm]
    · cases t <;> simp [calls, hessSource, a, b, c, d, e]

/-- All functions are asked for, and there are no loops. -/
def allOn : Settings := ⟨true, true, true, true, true, true, true, true, true, false⟩

/-- Not so if the kind of threads of the library is changed after it was created and another model is added: the sources
of the first model still call the pool of pthreads, which is not in the library. -/
theorem stale_model_counterexample :
    ∃ (ops : List Op) (ms : List (Nat × Option ModelSrc)) (lib : LibSrc) (st : State),
      create (run (init (fun _ => allOn) 0) ops) = (ms, lib, st) ∧
        (0, some ⟨.pthreads, .pthreads⟩) ∈ ms ∧ lib.pool = .none :=
  ⟨[.setThreads .pthreads, .create, .setThreads .none, .add 1], _, _, _, rfl, by decide, by decide⟩

/-- Not so if the sources of a model were generated for another library. -/
theorem other_library_counterexample :
    ∃ (ops : List Op) (ms : List (Nat × Option ModelSrc)) (lib : LibSrc) (st : State),
      create (run (init (fun _ => allOn) 0) ops) = (ms, lib, st) ∧
        (0, some ⟨.pthreads, .pthreads⟩) ∈ ms ∧ lib.pool = .none :=
  ⟨[.other 0 .pthreads], _, _, _, rfl, by decide, by decide⟩

/-- Threads asked for after a library was created are not used, though the setting of the library shows them. -/
theorem stale_library_counterexample :
    ∃ (ops : List Op) (ms : List (Nat × Option ModelSrc)) (lib : LibSrc) (st : State),
      create (run (init (fun _ => allOn) 0) ops) = (ms, lib, st) ∧ st.threads = .openmp ∧
        (0, some ⟨.none, .none⟩) ∈ ms ∧ lib.pool = .none :=
  ⟨[.create, .setThreads .openmp], _, _, _, rfl, by decide, by decide, by decide⟩

/-- two models, the second one with loops; its settings are changed and it is added after the library was created with pthreads -/
example : Settled 0 [.setThreads .pthreads, .create, .setModel 1 { allOn with loops := true }, .add 1] ∧
    (let r := create (run (init (fun _ => allOn) 0) [.setThreads .pthreads, .create, .setModel 1 { allOn with loops := true }, .add 1])
     r.1 = [(1, some ⟨.none, .none⟩), (0, some ⟨.pthreads, .pthreads⟩)] ∧ r.2.1 = ⟨[1, 0], true, .pthreads, .pthreads⟩) := by
  refine ⟨fun pre o post e => ?_, by decide⟩
  rcases pre with _ | ⟨a, _ | ⟨b, _ | ⟨c, _ | ⟨d, pre⟩⟩⟩⟩
  all_goals simp at e
  · obtain ⟨rfl, -⟩ := e; simp
  · obtain ⟨rfl, rfl, -⟩ := e; simp
  · obtain ⟨rfl, rfl, rfl, -⟩ := e; simp
  · obtain ⟨rfl, rfl, rfl, rfl, -⟩ := e; simp

/-- only the Hessian uses the pool of OpenMP -/
example : (let r := create (run (init (fun _ => { allOn with reuseOne := false }) 0) [.setThreads .openmp])
     r.1 = [(0, some ⟨.none, .openmp⟩)] ∧ r.2.1 = ⟨[0], false, .openmp, .openmp⟩) := by decide

end Verif.Library.Sources
