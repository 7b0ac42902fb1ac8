import Verif.Atomic.ModelScratch
import Mathlib.Tactic.ByContra
/-
C52: calls of atomic functions do not change the results a generated function stored before.
-/
namespace Verif.Atomic
open Verif.Deriv (Err Mem)

/-- Specification: the results of a generated function, whose memory nobody else writes to. -/
def results {V : Type} : List (Step V) → (Nat → V) → (Nat → Option V) → Nat → Option V
  | [], _, o => o
  | .assign k f :: ps, env, o => results ps (fun l => if l = k then f env else env l) o
  | .out i f :: ps, env, o => results ps env fun l => if l = i then some (f env) else o l
  | .call k len g :: ps, env, o => results ps (fun l => if k ≤ l ∧ l < k + len then g env (l - k) else env l) o

/-- every result is stored within the first `cap` elements, calls need no more than `cap` elements, and a call is only made
if the results stored before are beyond the elements it uses -/
def Safe {V : Type} (cap : Nat) : List (Step V) → Prop
  | [] => True
  | .assign _ _ :: ps => Safe cap ps
  | .out i _ :: ps => i < cap ∧ (∀ p ∈ ps, ∀ len, p.callLen = some len → len ≤ i) ∧ Safe cap ps
  | .call _ len _ :: ps => len ≤ cap ∧ Safe cap ps

theorem write_ok {V : Type} {h : Heap V} {b i : Nat} {a : Mem V} (hb : h.blocks[b]? = some (some a)) (hi : i < a.length)
    (v : V) : ∃ h', h.write b i v = .ok h' ∧ h'.blocks[b]? = some (some (a.set i (some v))) := by
  refine ⟨⟨h.blocks.set b (some (a.set i (some v)))⟩, by rw [Heap.write, hb]; simp only; rw [if_pos hi], ?_⟩
  apply List.getElem?_set_self
  by_contra hlt
  rw [List.getElem?_eq_none (by omega)] at hb
  cases hb

theorem fill_ok {V : Type} {h : Heap V} {b : Nat} {a : Mem V} (hb : h.blocks[b]? = some (some a)) (v : Nat → V) :
    ∀ len, len ≤ a.length → ∃ h' a', h.fill b v len = .ok h' ∧ h'.blocks[b]? = some (some a') ∧ a'.length = a.length ∧
      (∀ i < len, a'[i]? = some (some (v i))) ∧ ∀ i : Nat, len ≤ i → a'[i]? = a[i]?
  | 0, _ => ⟨h, a, rfl, hb, rfl, by simp, by simp⟩
  | len + 1, hl => by
    obtain ⟨h1, a1, e1, e2, e3, e4, e5⟩ := fill_ok hb v len (by omega)
    obtain ⟨h2, e6, e7⟩ := write_ok e2 (i := len) (by omega) (v len)
    refine ⟨h2, _, by rw [Heap.fill, e1]; exact e6, e7, by rw [List.length_set, e3], fun i hi => ?_, fun i hi => ?_⟩
    · by_cases he : i = len
      · subst he; rw [List.getElem?_set_self (by omega)]
      · rw [List.getElem?_set_ne (fun h => he h.symm), e4 i (by omega)]
    · rw [List.getElem?_set_ne (by omega), e5 i (by omega)]

theorem run_safe {V : Type} (alloc : Nat → Nat) {cap : Nat} : ∀ (ps : List (Step V)) (env : Nat → V) (o : Nat → Option V)
    (h : Heap V) (v : Vec) (a : Mem V), Safe cap ps → v.cap = cap → h.blocks[v.block]? = some (some a) → a.length = cap →
    (∀ i w, o i = some w → a[i]? = some (some w) ∧ ∀ p ∈ ps, ∀ len, p.callLen = some len → len ≤ i) →
    ∃ s, runSteps alloc v.block ps (env, h, v) = .ok s ∧
      ∀ i w, results ps env o i = some w → s.2.1.read v.block i = .ok w
  | [], env, o, h, v, a, _, _, hb, _, ho => ⟨_, rfl, fun i w hw => by
      simp only [Heap.read, hb]
      rw [(ho i w hw).1]⟩
  | .assign k f :: ps, env, o, h, v, a, hs, hv, hb, ha, ho => by
    obtain ⟨s, h1, h2⟩ := run_safe alloc ps (setVar env k (f env)) o h v a hs hv hb ha
      (fun i w hw => ⟨(ho i w hw).1, fun p hp => (ho i w hw).2 p (List.mem_cons_of_mem _ hp)⟩)
    exact ⟨s, h1, h2⟩
  | .out i f :: ps, env, o, h, v, a, hs, hv, hb, ha, ho => by
    obtain ⟨s1, s2, s3⟩ := hs
    obtain ⟨h', e1, e2⟩ := write_ok hb (i := i) (by omega) (f env)
    obtain ⟨s, h1, h2⟩ := run_safe alloc ps env (fun l => if l = i then some (f env) else o l) h' v (a.set i (some (f env)))
      s3 hv e2 (by rw [List.length_set, ha]) (fun l w hw => by
        split at hw
        · rename_i he
          subst he
          injection hw with hw
          subst hw
          exact ⟨List.getElem?_set_self (by omega), s2⟩
        · rename_i he
          exact ⟨by rw [List.getElem?_set_ne (fun h => he h.symm)]; exact (ho l w hw).1,
            fun p hp => (ho l w hw).2 p (List.mem_cons_of_mem _ hp)⟩)
    exact ⟨s, by rw [runSteps, Step.run]; simp only [e1]; exact h1, h2⟩
  | .call k len g :: ps, env, o, h, v, a, hs, hv, hb, ha, ho => by
    obtain ⟨s1, s2⟩ := hs
    obtain ⟨h', a', e1, e2, e3, _, e5⟩ := fill_ok hb (g env) len (by omega)
    obtain ⟨s, h1, h2⟩ := run_safe alloc ps (setVars env k len (g env)) o h' v a' s2 hv e2 (by omega) (fun l w hw => by
      refine ⟨?_, fun p hp => (ho l w hw).2 p (List.mem_cons_of_mem _ hp)⟩
      rw [e5 l ((ho l w hw).2 (.call k len g) (by simp) len rfl)]
      exact (ho l w hw).1)
    refine ⟨s, ?_, h2⟩
    rw [runSteps, Step.run]
    simp only [Heap.resize, if_pos (show len ≤ v.cap by omega), e1]
    exact h1

/-- C52. A generated function which is `Safe` gives its results. Missing: functions which call an atomic function after
storing a result, or one with more results than there is memory; see `scratch_overwritten_counterexample` and
`scratch_freed_counterexample`. -/
theorem scratch_partial {V : Type} {alloc : Nat → Nat} {size : Nat} {steps : List (Step V)}
    (env : Nat → V) {h : Heap V} {v : Vec} {a : Mem V} (hb : h.blocks[v.block]? = some (some a)) (ha : a.length = v.cap)
    (hs : Safe (if size ≤ v.cap then v.cap else alloc size) steps) {i : Nat} {w : V}
    (hw : results steps env (fun _ => none) i = some w) : runCompressed alloc size steps env h v i = .ok w := by
  rw [runCompressed]
  by_cases hc : size ≤ v.cap
  · rw [if_pos hc] at hs
    obtain ⟨s, h1, h2⟩ := run_safe alloc steps env (fun _ => none) h v a hs rfl hb ha (by simp)
    simp only [Heap.resize, if_pos hc, h1]
    exact h2 i w hw
  · rw [if_neg hc] at hs
    obtain ⟨s, h1, h2⟩ := run_safe alloc steps env (fun _ => none)
      ⟨(h.blocks.set v.block none) ++ [some (List.replicate (alloc size) none)]⟩ ⟨h.blocks.length, alloc size⟩
      (List.replicate (alloc size) none) hs rfl (by simp) (by simp) (by simp)
    simp only [Heap.resize, if_neg hc, h1]
    exact h2 i w hw

/-! ### what is wrong -/

/-- `y[0] = x[0]`, then a call of an atomic function with one result, 5 times its argument, then `y[1] =` this result -/
def storeThenCall : List (Step Int) := [.out 0 (fun e => e 0), .call 1 1 (fun e _ => 5 * e 0), .out 1 fun e => e 1]

/-- A result stored before a call is replaced by the results of the atomic function: 15 instead of 3. -/
theorem scratch_overwritten_counterexample :
    runCompressed (fun n => n) 2 storeThenCall (fun _ => 3) ⟨[some []]⟩ ⟨0, 0⟩ 0 = .ok 15 ∧
    results storeThenCall (fun _ => 3) (fun _ => none) 0 = some 3 := ⟨rfl, rfl⟩

/-- a call of an atomic function with three results, the sum of which is the only result -/
def wideCall : List (Step Int) := [.call 1 3 (fun e l => e 0 + l), .out 0 fun e => e 1 + e 2 + e 3]

/-- An atomic function with more results than there is memory for makes the generated function store its results in freed
memory, even if it stores none before the call. -/
theorem scratch_freed_counterexample :
    runCompressed (fun n => n) 1 wideCall (fun _ => 3) ⟨[some []]⟩ ⟨0, 0⟩ 0 = .error .ub ∧
    runSteps (fun n => n) 0 wideCall (fun _ => 3, ⟨[some [none]]⟩, ⟨0, 1⟩) = .error .ub ∧
    results wideCall (fun _ => 3) (fun _ => none) 0 = some 12 := ⟨rfl, rfl, rfl⟩

/-- with sufficient memory the hypotheses hold, and the result is right -/
example : runCompressed (fun n => n + 8) 1 wideCall (fun _ => 3) ⟨[some []]⟩ ⟨0, 0⟩ 0 = .ok 12 :=
  scratch_partial _ (a := []) rfl rfl (by simp [Safe, wideCall]) rfl

/-- a result stored before a call at a position beyond the elements used by the call -/
example : runCompressed (fun n => n) 2 [.out 1 (fun e => e 0), .call 1 1 (fun e _ => 5 * e 0), .out 0 fun e => e 1]
    (fun _ => (3 : Int)) ⟨[some []]⟩ ⟨0, 0⟩ 1 = .ok 3 :=
  scratch_partial _ (a := []) rfl rfl
    (by simp [Safe, Step.callLen]) rfl

end Verif.Atomic
