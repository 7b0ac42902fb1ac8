import Verif.Library.LemmasNamesRun

/-
Calls of atomic functions in compiled code reach the functions with the recorded names (C69).
-/
namespace Verif.Library.Names

/-- Source code is generated if and only if the ids of the registered functions differ, every called function is registered and no function with a
higher id has the name of a called function; otherwise there is an exception. -/
theorem source_generated_iff (gs : List Gen) (hg : ∀ g ∈ gs, g.Ok) (hp : ∀ nm, Uses gs nm → Plain nm) :
    (compile gs).isSome = true ↔ ∀ g ∈ gs, g.Possible :=
  compile_isSome hg hp

/-- If source code is generated, then in all sequences of giving external functions to the compiled model and evaluating it: a function is accepted
if and only if its name is used, an evaluation raises an exception if and only if the function of a name in use was not given, otherwise every call
of the code reaches the function last given under the name of the function which was recorded, with the recorded orders. No wrapper is used after it
was deleted and all are deleted in the end. -/
theorem calls_reach_functions (gs : List Gen) (hg : ∀ g ∈ gs, g.Ok) (hp : ∀ nm, Uses gs nm → Plain nm) (lib : Lib) (hl : compile gs = some lib)
    (ds : List Do) (hd : Exist gs ds) :
    ∃ s rs, (Mdl.load lib).run lib.code ds = .ok (s, rs) ∧ AllRight gs [] ds rs ∧ s.destroy = .ok [] := by
  obtain ⟨h1, h2, h3⟩ := compile_some hg hp hl
  obtain ⟨s, rs, after, h4, h5, h6⟩ := run_ok (s := Mdl.load lib) ds (mdlOk_load h1) h2 h3 hd
  obtain ⟨l, h7, rfl⟩ := destroy_ok h5
  exact ⟨s, rs, h4, h6, h7⟩

/-- every array used by a call is declared in its function, with all elements which are used -/
theorem arrays_declared (gs : List Gen) (hg : ∀ g ∈ gs, g.Ok) (hp : ∀ nm, Uses gs nm → Plain nm) (lib : Lib) (hl : compile gs = some lib)
    (k : Nat) (g : Gen) (hk : gs[k]? = some g) : ∃ src, lib.code[k]? = some src ∧ ∀ c ∈ g.printed, src.decls.Enough c := by
  obtain ⟨-, -, h3⟩ := compile_some hg hp hl
  obtain ⟨a, src, h4, h5, h6⟩ := forall₂_get h3 (List.getElem?_eq_some_iff.1 hk).1
  rw [hk, Option.some_inj] at h4
  subst h4
  exact ⟨src, h5, h6.decls⟩

/-! ### two functions of a model which call three atomic functions -/

private def fa : Fun := ⟨1, 5, "a".toList⟩
private def fb : Fun := ⟨2, 3, "b".toList⟩
private def fc : Fun := ⟨3, 9, "c".toList⟩

/-- the zero order function: calls of `a` and `b` -/
private def g0 : Gen := ⟨[fa, fb, fa], [⟨5, false, 0, 0⟩, ⟨3, false, 0, 0⟩], [⟨3, false, 0, 0⟩, ⟨5, false, 0, 0⟩]⟩
/-- the Jacobian: calls of `c`, `b`, and `b` in reverse mode -/
private def g1 : Gen := ⟨[fb, fc], [⟨9, false, 1, 1⟩, ⟨3, false, 0, 0⟩, ⟨3, true, 0, 0⟩], [⟨9, false, 1, 1⟩, ⟨3, false, 0, 0⟩, ⟨3, true, 0, 0⟩]⟩

example : ∀ g ∈ [g0, g1], g.Ok := by
  intro g hg
  rcases List.mem_cons.1 hg with rfl | hg
  · exact ⟨by decide, by decide⟩
  · obtain rfl : g = g1 := by simpa using hg
    exact ⟨by decide, by decide⟩

example : ∀ nm, Uses [g0, g1] nm → Plain nm := by
  intro nm h
  have : nm = fa.name ∨ nm = fb.name ∨ nm = fc.name := by
    obtain ⟨g, hg, c, hc, f, hf, -, rfl⟩ := h
    simp only [List.mem_cons, List.not_mem_nil, or_false] at hg
    rcases hg with rfl | rfl <;> simp [g0, g1] at hf
    · rcases hf with rfl | rfl | rfl <;> simp
    · rcases hf with rfl | rfl <;> simp
  rcases this with rfl | rfl | rfl <;> simp [Plain, fa, fb, fc]

/-- the positions: `a` 0, `b` 1, `c` 2 in both functions -/
example : (compile [g0, g1]).map (fun l => (l.names.map String.ofList, l.code.map fun s => (s.calls.map (·.1), s.decls))) =
    some (["a", "b", "c"], [([1, 0], ⟨1, true, false, 0⟩), ([2, 1, 1], ⟨2, true, true, 1⟩)]) := by decide +kernel

/-- functions are given, one of them twice, one which is not used -/
example : (match compile [g0, g1] with
    | none => none
    | some lib =>
      match (Mdl.load lib).run lib.code [.eval 0, .add "b".toList 70, .add "z".toList 71, .add "a".toList 72, .eval 0, .add "c".toList 73, .eval 0,
        .add "b".toList 74, .eval 1] with
      | .ok (_, rs) => some rs
      | .ub => none) =
    some [.fails, .added true, .added false, .added true, .fails, .added true, .calls [(70, ⟨3, false, 0, 0⟩), (72, ⟨5, false, 0, 0⟩)], .added true,
      .calls [(73, ⟨9, false, 1, 1⟩), (74, ⟨3, false, 0, 0⟩), (74, ⟨3, true, 0, 0⟩)]] := by decide +kernel

/-- The hypothesis on names is needed: a name with a backslash followed by `n` gets into the library as a line break, and the function with
this name is not accepted. -/
theorem special_name_counterexample : ∃ gs lib nm, (∀ g ∈ gs, g.Ok) ∧ Uses gs nm ∧ compile gs = some lib ∧
    ∃ s, (Mdl.load lib).add nm 0 = .ok (s, false) := by
  have hok : (⟨[⟨0, 0, ['a', '\\', 'n']⟩], [⟨0, false, 0, 0⟩], [⟨0, false, 0, 0⟩]⟩ : Gen).Ok := ⟨by decide, by decide⟩
  refine ⟨[⟨[⟨0, 0, ['a', '\\', 'n']⟩], [⟨0, false, 0, 0⟩], [⟨0, false, 0, 0⟩]⟩], ⟨[['a', '\n']], [⟨[(0, ⟨0, false, 0, 0⟩)], ⟨1, true, false, 0⟩⟩]⟩,
    ['a', '\\', 'n'], ?_, ?_, rfl, ?_⟩
  · intro g hg
    obtain rfl := List.mem_singleton.1 hg
    exact hok
  · exact ⟨_, List.mem_singleton.2 rfl, _, List.mem_singleton.2 rfl, _, List.mem_singleton.2 rfl, rfl, rfl⟩
  · exact ⟨_, rfl⟩

/-- Two atomic functions with the same name cannot be used together: the generation of the code raises an exception (`at` of a map). -/
theorem same_name_counterexample : ∃ g : Gen, g.Ok ∧ g.IdsDiffer ∧ (∀ c ∈ g.found, ∃ f ∈ g.funs, f.id = c.id) ∧ compile [g] = none :=
  ⟨⟨[⟨0, 0, ['a']⟩, ⟨1, 1, ['a']⟩], [⟨0, false, 0, 0⟩, ⟨1, false, 0, 0⟩], [⟨0, false, 0, 0⟩, ⟨1, false, 0, 0⟩]⟩, ⟨by decide, by decide⟩,
    by unfold Gen.IdsDiffer; decide, by decide, rfl⟩

end Verif.Library.Names
