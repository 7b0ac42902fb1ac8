/-
C11: printed programs with arrays which do not compute what they should.
-/
import Verif.Arrays.Props
namespace Verif.Arrays

/-! ### arguments which read arrays inside of expressions -/

def clobberNode : Nat → Ex Int
  | 0 => .var (.x 0)
  | 1 => .app (· + ·) (.elem 1 0) (.par 1)
  | 2 => .app (· + ·) (.elem 1 1) (.par 1)
  | 3 => .app (· * ·) (.elem 1 0) (.par 2)
  | _ => .par 0

/-- a call with results `r0`, `r1`, and a new array of `r0 + 1`, `r1 + 1`, `r0 * 2` -/
def clobberProg : List (Step Int) :=
  [.create 0 [.op 0], .create 1 [.par 0, .par 0], .call [0] 1 double, .create 2 [.op 1, .op 2, .op 3], .assign (.y 0) (.elem 2 2)]

def clobberLast : Nat → Nat
  | 0 => 3
  | 1 => 4
  | _ => 5

theorem clobber_created {a q : Nat} : CreatedAt clobberProg a q ↔ (q = 0 ∧ a = 0) ∨ (q = 1 ∧ a = 1) ∨ (q = 3 ∧ a = 2) := by
  unfold CreatedAt clobberProg
  match q with
  | 0 => simp [eq_comm]
  | 1 => simp [eq_comm]
  | 2 => simp
  | 3 => simp [eq_comm]
  | 4 => simp
  | q + 5 => simp

theorem clobber_lifetimes : Lifetimes clobberNode clobberProg clobberLast := by
  refine ⟨by decide, ?_, ?_, ?_⟩
  · intro a q h
    rcases clobber_created.mp h with ⟨rfl, rfl⟩ | ⟨rfl, rfl⟩ | ⟨rfl, rfl⟩ <;> decide
  · intro p st h a ha
    simp only [clobber_created]
    match p, h with
    | 0, h => cases h; simp [Step.uses, Step.reads, Arg.ex, clobberNode, Ex.reads] at ha
    | 1, h => cases h; simp [Step.uses, Step.reads, Arg.ex, Ex.reads] at ha
    | 2, h =>
      cases h
      simp only [Step.uses, List.mem_cons, List.not_mem_nil, or_false] at ha
      rcases ha with rfl | rfl
      · exact ⟨⟨1, by omega, by simp⟩, by decide⟩
      · exact ⟨⟨0, by omega, by simp⟩, by decide⟩
    | 3, h =>
      cases h
      have : a = 1 := by simpa [Step.uses, Step.reads, Arg.ex, clobberNode, Ex.reads] using ha
      subst this
      exact ⟨⟨1, by omega, by simp⟩, by decide⟩
    | 4, h =>
      cases h
      have : a = 2 := by simpa [Step.uses, Step.reads, Ex.reads] using ha
      subst this
      exact ⟨⟨3, by omega, by simp⟩, by decide⟩
    | q + 5, h => simp [clobberProg] at h
  · intro p st h a i hi
    match p, h with
    | 0, h => cases h; simp [Step.reads, Arg.ex, clobberNode, Ex.reads] at hi
    | 1, h => cases h; simp [Step.reads, Arg.ex, Ex.reads] at hi
    | 2, h => cases h; simp [Step.reads] at hi
    | 3, h =>
      cases h
      have : a = 1 ∧ i < 2 := by
        simp [Step.reads, Arg.ex, clobberNode, Ex.reads] at hi
        omega
      obtain ⟨rfl, h2⟩ := this
      exact h2
    | 4, h =>
      cases h
      have : a = 2 ∧ i = 2 := by simpa [Step.reads, Ex.reads] using hi
      obtain ⟨rfl, rfl⟩ := this
      decide
    | q + 5, h => simp [clobberProg] at h

theorem clobber_oneValue (s0 : St Int) : OneValue clobberNode clobberProg s0 := by
  refine ⟨fun n => match n with
    | 0 => s0.env (.x 0)
    | 1 => 2 * s0.env (.x 0) + 1
    | 2 => 2 * s0.env (.x 0) + 1 + 1
    | 3 => 2 * s0.env (.x 0) * 2
    | _ => 0, ?_⟩
  intro p b args h n hn
  match p, h with
  | 0, h => cases h; simp at hn; subst hn; rfl
  | 1, h => cases h; simp at hn
  | 3, h =>
    cases h
    simp at hn
    rcases hn with rfl | rfl | rfl <;>
      simp [clobberProg, runSteps, Step.run, setArr, Ex.eval, clobberNode, Arg.ex, double, sizeOf', argsOf, Step.creates]
  | q + 5, h => simp [clobberProg] at h

/-- The new array is stored over the array its arguments read: `r0` is overwritten by the second element before the
third one, `r0 * 2`, is computed. Everything but `NoNested` holds. For `x0 = 5` the result is 24 instead of 20. -/
theorem clobber_counterexample :
    Lifetimes clobberNode clobberProg clobberLast ∧ (∀ s0, OneValue clobberNode clobberProg s0) ∧
      ∃ s id', reduceArrays clobberNode clobberProg clobberLast (1 + cells clobberProg) (fun _ => 0) = .ok (s, id') ∧
        ∀ arr mem, (runPrinted clobberNode (fun a b => a == b) (fun v => v) (sizeOf' clobberProg) id' clobberProg
            ⟨fun _ => 5, mem, fun _ => none⟩).env (.y 0) = 24 ∧
          (runSteps clobberNode (sizeOf' clobberProg) clobberProg ⟨fun _ => 5, arr⟩).env (.y 0) = 20 := by
  refine ⟨clobber_lifetimes, clobber_oneValue, ?_⟩
  cases h : reduceArrays clobberNode clobberProg clobberLast (1 + cells clobberProg) (fun _ => 0) with
  | error e => exact absurd h (by
      have : (match reduceArrays clobberNode clobberProg clobberLast (1 + cells clobberProg) (fun _ => 0) with
        | .ok _ => true
        | .error _ => false) = true := by decide +kernel
      intro h'
      rw [h'] at this
      cases this)
  | ok q =>
    obtain ⟨s, id'⟩ := q
    have hid : (match reduceArrays clobberNode clobberProg clobberLast (1 + cells clobberProg) (fun _ => 0) with
        | .ok (_, id) => some (id 0, id 1, id 2)
        | .error _ => none) = some (1, 2, 1) := by decide +kernel
    rw [h] at hid
    simp only [Option.some.injEq, Prod.mk.injEq] at hid
    obtain ⟨h0, h1, h2⟩ := hid
    refine ⟨s, id', rfl, fun arr mem => ⟨?_, ?_⟩⟩
    · simp [clobberProg, runPrinted, Step.runP, fillArray, useLoop, h0, h1, h2, sizeOf', argsOf, Step.creates, isSame, clobberNode,
        runEnd, inVars, inConst, oldSame, exAt, setCell, setRange, setVar, Arg.ex, Ex.eval, double, List.range, List.range.loop]
    · simp [clobberProg, runSteps, Step.run, sizeOf', argsOf, Step.creates, clobberNode,
        setArr, setVar, Arg.ex, Ex.eval, double, List.range, List.range.loop]

/-! ### constants which compare equal but are not the same -/

/-- zero with its sign -/
inductive Zero
  | pos
  | neg
  deriving DecidableEq

/-- zeros compare equal -/
def zeroEq : Zero → Zero → Bool := fun _ _ => true

def zeroProg : List (Step Zero) :=
  [.create 0 [.par .pos], .assign (.v 0) (.app (fun a _ => a) (.elem 0 0) (.par .pos)), .create 1 [.par .neg], .assign (.y 0) (.elem 1 0)]

/-- The second array is stored where the first one was. The positive zero in there compares equal to the negative one, so
that it is not replaced. -/
theorem signed_zero_counterexample :
    ∃ s id', reduceArrays (fun _ => .par .pos) zeroProg (fun a => if a = 0 then 2 else 4) (1 + cells zeroProg) (fun _ => 0) = .ok (s, id') ∧
      ∀ mem arr, (runPrinted (fun _ => .par .pos) zeroEq (fun v => v) (sizeOf' zeroProg) id' zeroProg
          ⟨fun _ => .pos, mem, fun _ => none⟩).env (.y 0) = .pos ∧
        (runSteps (fun _ => .par .pos) (sizeOf' zeroProg) zeroProg ⟨fun _ => .pos, arr⟩).env (.y 0) = .neg := by
  cases h : reduceArrays (fun _ => .par .pos) zeroProg (fun a => if a = 0 then 2 else 4) (1 + cells zeroProg) (fun _ => 0) with
  | error e => exact absurd h (by
      have : (match reduceArrays (fun _ => .par .pos) zeroProg (fun a => if a = 0 then 2 else 4) (1 + cells zeroProg) (fun _ => 0) with
        | .ok _ => true
        | .error _ => false) = true := by decide +kernel
      intro h'
      rw [h'] at this
      cases this)
  | ok q =>
    obtain ⟨s, id'⟩ := q
    have hid : (match reduceArrays (fun _ => .par .pos) zeroProg (fun a => if a = 0 then 2 else 4) (1 + cells zeroProg) (fun _ => 0) with
        | .ok (_, id) => some (id 0, id 1)
        | .error _ => none) = some (1, 1) := by decide +kernel
    rw [h] at hid
    simp only [Option.some.injEq, Prod.mk.injEq] at hid
    obtain ⟨h0, h1⟩ := hid
    refine ⟨s, id', rfl, fun mem arr => ⟨?_, ?_⟩⟩
    · simp [zeroProg, runPrinted, Step.runP, fillArray, useLoop, h0, h1, isSame, zeroEq,
        runEnd, inConst, setCell, setVar, Arg.ex, Ex.eval, forget]
    · simp [zeroProg, runSteps, Step.run, setArr, setVar, Arg.ex, Ex.eval]

/-! ### constants in loops -/

def loopProg : List (Step Int) := [.create 0 [.par 1234567, .par 1234567, .par 1234567], .assign (.y 0) (.elem 0 0)]

/-- printing with six digits -/
def sixDigits (v : Int) : Int := (v + 5) / 10 * 10

/-- Three equal constants are stored by a loop, which prints them with the default precision of the stream: the array
holds 1234570 instead of 1234567. -/
theorem loop_precision_counterexample :
    ∃ s id', reduceArrays (fun _ => .par 0) loopProg (fun _ => 2) (1 + cells loopProg) (fun _ => 0) = .ok (s, id') ∧
      ∀ mem arr, (runPrinted (fun _ => .par 0) (fun a b => a == b) sixDigits (sizeOf' loopProg) id' loopProg
          ⟨fun _ => 0, mem, fun _ => none⟩).env (.y 0) = 1234570 ∧
        (runSteps (fun _ => .par 0) (sizeOf' loopProg) loopProg ⟨fun _ => 0, arr⟩).env (.y 0) = 1234567 := by
  cases h : reduceArrays (fun _ => Ex.par (0 : Int)) loopProg (fun _ => 2) (1 + cells loopProg) (fun _ => 0) with
  | error e => exact absurd h (by
      have : (match reduceArrays (fun _ => Ex.par (0 : Int)) loopProg (fun _ => 2) (1 + cells loopProg) (fun _ => 0) with
        | .ok _ => true
        | .error _ => false) = true := by decide +kernel
      intro h'
      rw [h'] at this
      cases this)
  | ok q =>
    obtain ⟨s, id'⟩ := q
    have hid : (match reduceArrays (fun _ => Ex.par (0 : Int)) loopProg (fun _ => 2) (1 + cells loopProg) (fun _ => 0) with
        | .ok (_, id) => some (id 0)
        | .error _ => none) = some 1 := by decide +kernel
    rw [h] at hid
    simp only [Option.some.injEq] at hid
    refine ⟨s, id', rfl, fun mem arr => ⟨?_, ?_⟩⟩
    · simp [loopProg, runPrinted, Step.runP, fillArray, useLoop, hid, isSame, oldSame,
        runEnd, inConst, setCell, setVar, Ex.eval, doFill, sixDigits]
    · simp [loopProg, runSteps, Step.run, setArr, setVar, Arg.ex, Ex.eval]

/-! ### arrays which are not used -/

/-- An array which is never used is released at position `0 - 1`. -/
theorem unused_counterexample :
    reduceArrays (fun _ => Ex.par (0 : Int)) [.create 0 [.par 1]] (fun _ => 0) 2 (fun _ => 0) = .error .ub := by rfl

end Verif.Arrays
