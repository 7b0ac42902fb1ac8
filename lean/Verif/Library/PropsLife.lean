import Verif.Library.LemmasLife

/-
Libraries and models can be used and deleted in any order (C68).
-/
namespace Verif.Library

/-- Whatever a user does, the results are those of the specification, as long as objects are only moved while nothing refers to them: an object
which is gone is never used, models of a library which is gone raise an exception, every file is released once, after the last model of it was
told. Without this restriction it is false, see below. -/
theorem life_partial (as : List Act) (h : SSt.Careful .init as) : St.run .init as = SSt.run .init as ∧ .ub ∉ St.run .init as := by
  have := rel_run as .init .init rel_init h
  exact ⟨this, by rw [this]; exact spec_run_ne_ub as .init⟩

/-- in particular if no object is moved, as with the libraries and models of LLVM, where there is no way to move one -/
theorem life_without_moves (as : List Act) (h : NoMoves as) : St.run .init as = SSt.run .init as ∧ .ub ∉ St.run .init as :=
  life_partial as (careful_of_noMoves as .init h)

/-- two libraries, three models and an atomic function; the first library is deleted before its models, the second after them -/
example : St.run .init [.openLib [7, 8], .openLib [7], .getModel 0 7, .getModel 0 9, .getModel 1 7, .getModel 0 8, .eval 2, .asAtomic 4, .evalAtomic 5,
      .delLib 0, .eval 2, .eval 3, .evalAtomic 5, .delModel 2, .eval 2, .delModel 3, .delModel 4, .delLib 1] =
    [.obj 0, .obj 1, .obj 2, .null, .obj 3, .obj 4, .values 0, .obj 5, .values 0, .released 0, .fails, .values 1, .fails, .done, .misuse, .done, .done,
      .released 1] := by decide

/-- objects moved while nothing refers to them -/
example : SSt.Careful .init [.openLib [7], .moveLib 0, .getModel 1 7, .delLib 0, .eval 2, .delLib 1, .moveModel 2, .eval 3, .delModel 2, .delModel 3] := by
  simp [SSt.Careful, SSt.MayMove, SSt.step, SSt.init, upd]
  intro d l hd hl
  subst hd
  cases hl
  simp

example : St.run .init [.openLib [7], .moveLib 0, .getModel 1 7, .delLib 0, .eval 2, .delLib 1, .moveModel 2, .eval 3, .delModel 2, .delModel 3] =
    [.obj 0, .obj 1, .obj 2, .done, .values 0, .released 0, .obj 3, .fails, .done, .done] := by decide

/-- a library is moved, the old object and then a model are deleted: the model tells the object which is gone (`destroyed`) -/
theorem moved_library_counterexample : ∃ as, .ub ∈ St.run .init as ∧ .ub ∉ SSt.run .init as ∧ .misuse ∉ SSt.run .init as :=
  ⟨[.openLib [7], .getModel 0 7, .moveLib 0, .delLib 0, .delModel 1], by decide, by decide, by decide⟩

/-- a library is moved, then a model and the new library are deleted: the library tells the model which is gone (`modelLibraryClosed`) -/
theorem moved_library_other_counterexample : ∃ as, .ub ∈ St.run .init as ∧ .ub ∉ SSt.run .init as ∧ .misuse ∉ SSt.run .init as :=
  ⟨[.openLib [7], .getModel 0 7, .moveLib 0, .delModel 1, .delLib 2], by decide, by decide, by decide⟩

/-- a model is moved and the old object and the library are deleted: the library tells the old object -/
theorem moved_model_counterexample : ∃ as, .ub ∈ St.run .init as ∧ .ub ∉ SSt.run .init as ∧ .misuse ∉ SSt.run .init as :=
  ⟨[.openLib [7], .getModel 0 7, .moveModel 1, .delModel 1, .delLib 0], by decide, by decide, by decide⟩

/-- a model is moved and the library is deleted: the new object is not told and calls a function which is no longer there -/
theorem moved_model_evaluated_counterexample : ∃ as, .ub ∈ St.run .init as ∧ .ub ∉ SSt.run .init as ∧ .misuse ∉ SSt.run .init as :=
  ⟨[.openLib [7], .getModel 0 7, .moveModel 1, .delLib 0, .eval 2], by decide, by decide, by decide⟩

/-- a model with an atomic function is moved and the old object is deleted: the atomic function, which now belongs to the new object, still
refers to the old one -/
theorem moved_model_atomic_counterexample : ∃ as, .ub ∈ St.run .init as ∧ .ub ∉ SSt.run .init as ∧ .misuse ∉ SSt.run .init as :=
  ⟨[.openLib [7], .getModel 0 7, .asAtomic 1, .moveModel 1, .delModel 1, .evalAtomic 2], by decide, by decide, by decide⟩

/-- what the test of the move constructors does (CppADCGDynamicTest.hpp l.191-204) has no undefined behaviour; the objects are deleted in the order in
which none of this matters -/
example : St.run .init [.openLib [7], .getModel 0 7, .moveLib 0, .getModel 2 7, .eval 3, .moveModel 1, .eval 4, .delModel 4, .delModel 3, .delLib 2, .delModel 1,
    .delLib 0] = [.obj 0, .obj 1, .obj 2, .obj 3, .values 0, .obj 4, .values 0, .done, .done, .released 0, .done, .done] := by decide

end Verif.Library
