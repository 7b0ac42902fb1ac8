import Verif.Library.SpecSources

/-
Model of the generation of the sources of a library and of its models, as far as the pools are concerned.
Simplified: models have numbers for names, so no two models have the same name, and
they are listed in the order in which they were added, not by name; the texts of the sources are replaced by
the pools which they call or define; exceptions during the generation are not modelled.
-/
namespace Verif.Library.Sources

/-- A model: `tapes` is `!_loopTapes.empty()`, `src` is `_sources` (`none` if empty; it is never empty after the
generation, as `generateInfoSource` adds a file, model_c_source_gen_impl.hpp l.153, 213). -/
structure MState where
  set : Settings
  tapes : Bool
  src : Option ModelSrc

/-- The models, and the library: `_multiThreading`, `_models`, `_libSources`,
model_library_c_source_gen.hpp l.60-66. -/
structure State where
  model : Nat → MState
  threads : Threads
  models : List Nat
  lib : Option LibSrc

/-- `isJacobianMultiThreadingEnabled`, model_c_source_gen.hpp l.423-425 -/
def jacEnabled (m : MState) : Bool :=
  m.set.multi && !m.tapes && m.set.sparseJac && m.set.reuseOne && (m.set.forwardOne || m.set.reverseOne)

/-- `isHessianMultiThreadingEnabled`, model_c_source_gen.hpp l.427-429 -/
def hessEnabled (m : MState) : Bool :=
  m.set.multi && !m.tapes && m.set.sparseHess && m.set.reuseRev2 && m.set.reverseTwo

/-- `generateSparseJacobianForRevSource`, model_c_source_gen_jac.hpp l.221-247: the pool called -/
def jacForRev (s : Settings) (tapes : Bool) (t : Threads) : Threads :=
  if tapes then .none
  else if !s.multi || t = .none then .none
  else if t = .openmp then .openmp else .pthreads

/-- `generateSparseJacobianSource`, model_c_source_gen_jac.hpp l.91-97 -/
def jacSource (s : Settings) (tapes : Bool) (t : Threads) : Threads :=
  if s.reuseOne && s.forwardOne && s.forwardMode then jacForRev s tapes t
  else if s.reuseOne && s.reverseOne && !s.forwardMode then jacForRev s tapes t
  else .none

/-- `generateSparseHessianSource`, model_c_source_gen_hes.hpp l.85-89, and `generateSparseHessianSourceFromRev2`,
l.284-300 -/
def hessSource (s : Settings) (tapes : Bool) (t : Threads) : Threads :=
  if s.reuseRev2 && s.reverseTwo then
    if tapes then .none
    else if !s.multi || t = .none then .none
    else if t = .openmp then .openmp else .pthreads
  else .none

/-- `generateSources`, model_c_source_gen_impl.hpp l.100-158: the loops are found first (l.105), then the sources of the
sparse Jacobian (l.137-139) and of the sparse Hessian (l.141-143) -/
def generate (t : Threads) (m : MState) : MState :=
  let tapes := m.tapes || m.set.loops
  { m with
    tapes := tapes
    src := some ⟨if m.set.sparseJac then jacSource m.set tapes t else .none,
                 if m.set.sparseHess then hessSource m.set tapes t else .none⟩ }

/-- `getSources`, model_c_source_gen_impl.hpp l.92-98 -/
def getSources (t : Threads) (m : MState) : MState :=
  if m.src.isNone then generate t m else m

/-- The loops over the models in model_library_c_source_gen_impl.hpp l.115-120, 172-177, 198-203 -/
def anyEnabled (st : State) : Bool := st.models.any fun i => jacEnabled (st.model i) || hessEnabled (st.model i)

/-- The new sources of `getLibrarySources`, model_library_c_source_gen_impl.hpp l.108-130, with `generateModelsSource` (l.147-166),
`generateOnCloseSource` (l.169-191) and `generateThreadPoolSources` (l.194-361) -/
def genLib (st : State) : LibSrc where
  names := st.models
  shutdown := st.threads = .pthreads && anyEnabled st
  access :=
    let using' := st.threads ≠ .none && anyEnabled st
    if using' && st.threads = .pthreads then .pthreads
    else if using' && st.threads = .openmp then .openmp else .none
  pool :=
    if st.threads ≠ .none then
      if anyEnabled st then
        if st.threads = .pthreads then .pthreads
        else if st.threads = .openmp then .openmp else .none
      else .none
    else .none

/-- `getLibrarySources`, model_library_c_source_gen_impl.hpp l.105-134 -/
def getLib (st : State) : LibSrc × State :=
  match st.lib with
  | some l => (l, st)
  | none => (genLib st, { st with lib := some (genLib st) })

/-- The sources of one model, for the library: model_library_processor.hpp l.45-47 -/
def sourceOf (i : Nat) (st : State) : State :=
  { st with model := fun j => if j = i then getSources st.threads (st.model i) else st.model j }

/-- The sources of all models, dynamic_library_processor.hpp l.134-140 -/
def sourcesOf : List Nat → State → State
  | [], st => st
  | i :: is, st => sourcesOf is (sourceOf i st)

/-- The sources which a processor compiles: those of the models, then those of the library,
dynamic_library_processor.hpp l.134-143 -/
def create (st : State) : List (Nat × Option ModelSrc) × LibSrc × State :=
  let st1 := sourcesOf st.models st
  let r := getLib st1
  (st.models.map fun i => (i, (r.2.model i).src), r.1, r.2)

def step (st : State) : Op → State
  /- the setters change a field only, model_c_source_gen.hpp l.419-421 and others -/
  | .setModel i s => { st with model := fun j => if j = i then { st.model i with set := s } else st.model j }
  /- model_library_c_source_gen.hpp l.157-159 -/
  | .setThreads t => { st with threads := t }
  /- model_library_c_source_gen.hpp l.108-115 -/
  | .add i => { st with models := if i ∈ st.models then st.models else i :: st.models, lib := none }
  | .other i t => { st with model := fun j => if j = i then getSources t (st.model i) else st.model j }
  | .libSources => (getLib st).2
  | .create => (create st).2.2

def run (st : State) (ops : List Op) : State := ops.foldl step st

/-- A new library with one model, model_library_c_source_gen.hpp l.80-86, and new models -/
def init (set : Nat → Settings) (i : Nat) : State := ⟨fun j => ⟨set j, false, none⟩, .none, [i], none⟩

end Verif.Library.Sources
