/-
C89: sources of models and of libraries, and the thread pools used by them.
Code: /repo/include/cppad/cg/model/model_library_c_source_gen.hpp, model_library_c_source_gen_impl.hpp,
model_c_source_gen.hpp, model_c_source_gen_impl.hpp.
-/
namespace Verif.Library.Sources

/-- `MultiThreadingType` -/
inductive Threads | none | pthreads | openmp
  deriving DecidableEq, Repr

/-- The settings of a model on which the use of the pool depends, model_c_source_gen.hpp l.173-205;
`forwardMode` is the mode found in model_c_source_gen_jac.hpp l.76-86, `loops` whether `generateLoops` finds any loop. -/
structure Settings where
  multi : Bool
  sparseJac : Bool
  sparseHess : Bool
  reuseOne : Bool
  reuseRev2 : Bool
  forwardOne : Bool
  reverseOne : Bool
  reverseTwo : Bool
  forwardMode : Bool
  loops : Bool
  deriving DecidableEq, Repr

/-- The pools called by the sources of a model, in the sparse Jacobian and in the sparse Hessian. -/
structure ModelSrc where
  jac : Threads
  hess : Threads
  deriving DecidableEq, Repr

/-- The sources of a library: the models listed by `cppad_cg_models`, whether `cppad_cg_on_close` calls the shutdown of
the pthreads pool, the pool called by `thread_pool_access.c`, and the pool defined by `thread_pool.c`. -/
structure LibSrc where
  names : List Nat
  shutdown : Bool
  access : Threads
  pool : Threads
  deriving DecidableEq, Repr

/-- What a user can do with one library and with models. -/
inductive Op
  /-- settings of a model -/
  | setModel (i : Nat) (s : Settings)
  /-- `setMultiThreading` of the library -/
  | setThreads (t : Threads)
  /-- `addModel` -/
  | add (i : Nat)
  /-- the sources of a model are generated for another library -/
  | other (i : Nat) (t : Threads)
  /-- `getLibrarySources` -/
  | libSources
  /-- a processor creates the library -/
  | create
  deriving DecidableEq, Repr

/-- No setting is changed after it was used, for a library whose first model is `first`: sources of models are not
generated for other libraries; `setMultiThreading` of the library comes before any sources are generated; settings of a model
are changed before any sources are generated, or before the model is added. -/
def Settled (first : Nat) (ops : List Op) : Prop :=
  ∀ pre o post, ops = pre ++ o :: post →
    (∀ i t, o ≠ .other i t) ∧
    (∀ t, o = .setThreads t → Op.create ∉ pre ∧ Op.libSources ∉ pre) ∧
    (∀ i s, o = .setModel i s → (Op.create ∉ pre ∧ Op.libSources ∉ pre) ∨ (i ≠ first ∧ Op.add i ∉ pre))

end Verif.Library.Sources
