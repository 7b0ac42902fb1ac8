/-
C11: arrays which are in use at the same time never share storage, and printed programs with arrays compute
what the same programs with separate arrays compute.
-/
import Verif.Arrays.LemmasFill
namespace Verif.Arrays

variable {V : Type}

/-! ### histories of reservations and releases -/

theorem history_live [DecidableEq V] : ∀ (evs : List (Ev (Arg V))) (L : List Nat) (s : Comp V) (rng : Nat → Nat × Nat), Valid evs L → LInv s L rng →
    s.count + total evs ≤ s.tmp.length + 1 →
    ∃ s' rng', Comp.history evs s rng = .ok (s', rng') ∧ LInv s' (liveAfter evs L) rng' ∧ s'.count ≤ s.count + total evs ∧
      s.count ≤ s'.count ∧ s'.tmp.length = s.tmp.length ∧ ∀ a, (rng' a).2 = sizeAfter evs (fun b => (rng b).2) a := by
  intro evs
  induction evs with
  | nil => intro L s rng _ h _; exact ⟨s, rng, rfl, h, Nat.le_refl _, Nat.le_refl _, rfl, fun _ => rfl⟩
  | cons ev evs ih =>
    intro L s rng hv h ht
    cases ev with
    | reserve a args black =>
      obtain ⟨ha, hv⟩ := hv
      simp only [total] at ht
      obtain ⟨st, s1, e, h1, h2, h3, h4, _⟩ := h.reserve ha (args := args) (black := black) (by omega)
      obtain ⟨s', rng', e', h5, h6, h7, h8, h9⟩ := ih _ s1 _ hv h1 (by omega)
      refine ⟨s', rng', by simp only [Comp.history, e]; exact e', h5, by simp only [total]; omega, by omega, h8.trans h2, fun b => ?_⟩
      rw [h9]
      simp only [sizeAfter]
      congr 1
      funext c
      split <;> rfl
    | release a =>
      obtain ⟨ha, hv⟩ := hv
      obtain ⟨h1, h2, h3⟩ := h.release ha
      obtain ⟨s', rng', e', h5, h6, h7, h8, h9⟩ := ih _ _ _ hv h1 (by rw [h2, h3]; exact ht)
      rw [h2] at h6 h7
      exact ⟨s', rng', e', h5, h6, h7, by rw [h8, h3], h9⟩

/-- For every history of reservations and releases: nothing fails, the arrays in use have the sizes asked for, lie
below the reported size, and have no cell in common; the reported size is at most what all reservations need
together. -/
theorem storage_disjoint [DecidableEq V] (evs : List (Ev (Arg V))) (size : Nat) (rng0 : Nat → Nat × Nat) (hv : Valid evs [])
    (hs : total evs ≤ size) :
    ∃ s rng, Comp.history evs (Comp.init V size) rng0 = .ok (s, rng) ∧
      (∀ a ∈ liveAfter evs [], (rng a).2 = sizeAfter evs (fun b => (rng0 b).2) a ∧ (rng a).1 + (rng a).2 ≤ s.count - 1) ∧
      (∀ a ∈ liveAfter evs [], ∀ b ∈ liveAfter evs [], a ≠ b → Apart (rng a).1 (rng a).2 (rng b).1 (rng b).2) ∧
      s.count - 1 ≤ total evs := by
  obtain ⟨s, rng, e, h1, h2, _, _, h3⟩ := history_live evs [] (Comp.init V size) rng0 hv (LInv.init size rng0)
    (by simp only [Comp.init, List.length_replicate]; omega)
  refine ⟨s, rng, e, fun a ha => ⟨h3 a, ?_⟩, h1.apart, ?_⟩
  · have := h1.below a ha; omega
  · simp only [Comp.init] at h2; omega

/-- The next reservation after any history: the new array avoids the forbidden cells, and if there is a gap between
the arrays in use which is large enough and has no forbidden cell, the reported size does not grow. -/
theorem storage_reused [DecidableEq V] (evs : List (Ev (Arg V))) (size : Nat) (rng0 : Nat → Nat × Nat) (hv : Valid evs [])
    (a : Nat) (args : List (Arg V)) (black : List Nat) (ha : a ∉ liveAfter evs []) (hs : total evs + args.length ≤ size) :
    ∃ s rng st s', Comp.history evs (Comp.init V size) rng0 = .ok (s, rng) ∧ s.reserve args black = .ok (st, s') ∧
      (∀ b ∈ black, b < s.count - 1 → ¬ InRange st args.length b) ∧
      (∀ g n, args.length ≤ n → 0 < n → g + n ≤ s.count - 1 →
        (∀ c, InRange g n c → ∀ b ∈ liveAfter evs [], ¬ InRange (rng b).1 (rng b).2 c) →
        (∀ b ∈ black, ¬ InRange g n b) →
        (0 < g → ∃ b ∈ liveAfter evs [], InRange (rng b).1 (rng b).2 (g - 1)) →
        (g + n < s.count - 1 → ∃ b ∈ liveAfter evs [], InRange (rng b).1 (rng b).2 (g + n)) →
        s'.count = s.count) := by
  obtain ⟨s, rng, e, h1, h2, _, h4, _⟩ := history_live evs [] (Comp.init V size) rng0 hv (LInv.init size rng0)
    (by simp only [Comp.init, List.length_replicate]; omega)
  simp only [Comp.init, List.length_replicate] at h2 h4
  obtain ⟨st, s', e', _, _, _, _, h5, h6⟩ := h1.reserve ha (args := args) (black := black) (by omega)
  refine ⟨s, rng, st, s', e, e', fun b hb hlt => h5 b hb (by omega), ?_⟩
  intro g n hn h0 hgn hfree hblack hleft hright
  apply h6
  have hcell : ∀ c, InRange g n c → FreeCell s c := by
    intro c hc
    rcases h1.cover c (by have := hc.2; omega) with h7 | ⟨b, hb, h7⟩
    · exact h7
    · exact absurd h7 (hfree c hc b hb)
  obtain ⟨x, y, hxy, h7, h8⟩ := h1.free.run h0 hcell
  have hx : x = g := by
    by_contra hne
    obtain ⟨b, hb, h9⟩ := hleft (by omega)
    exact h1.used b hb _ h9 ⟨x, y, hxy, by omega, by omega⟩
  have hy : y + 1 = g + n := by
    by_contra hne
    have := (h1.free.le x y hxy).2
    obtain ⟨b, hb, h9⟩ := hright (by omega)
    exact h1.used b hb _ h9 ⟨x, y, hxy, by omega, by omega⟩
  refine ⟨x, y, hxy, by omega, fun c hc hc' => hblack c hc ⟨by omega, by omega⟩⟩

/-- a history where space is released, merged and used again: arrays of sizes 2, 3, 2, the first two are released and
an array of size 5 takes their place -/
example :
    let evs : List (Ev (Arg Nat)) := [.reserve 0 [.par 1, .op 0] [], .reserve 1 [.par 1, .op 0, .op 1] [], .reserve 2 [.par 1, .op 4] [],
      .release 1, .release 0, .reserve 3 [.op 0, .op 1, .op 2, .op 3, .op 4] []]
    (∀ evs', evs' = evs → Valid evs' [] ∧ total evs' ≤ 12) ∧
      (match Comp.history evs (Comp.init Nat 12) (fun _ => (0, 0)) with
        | .ok (s, rng) => some (s.count, rng 2, rng 3)
        | .error _ => none) = some (8, (5, 2), (0, 5)) := by
  refine ⟨?_, by decide +kernel⟩
  rintro _ rfl
  refine ⟨?_, by decide⟩
  simp [Valid]

/-! ### the arrays of a program -/

/-- Every array of a program gets its own place while it is in use: nothing fails, arrays lie below the reported size,
an array created while another one is still needed by a later step has no cell in common with it, and no cell in
common with the elements it is directly made of. -/
theorem arrays_placed [DecidableEq V] {node : Nat → Ex V} {prog : List (Step V)} {last : Nat → Nat} (hl : Lifetimes node prog last)
    {size : Nat} (hs : cells prog ≤ size) (id : Nat → Nat) :
    ∃ s id', reduceArrays node prog last size id = .ok (s, id') ∧
      (∀ a q, CreatedAt prog a q → 1 ≤ id' a ∧ id' a - 1 + sizeOf' prog a ≤ s.count - 1) ∧
      (∀ a b q q', CreatedAt prog a q → CreatedAt prog b q' → q < q' → q' + 1 < last a →
        Apart (id' a - 1) (sizeOf' prog a) (id' b - 1) (sizeOf' prog b)) ∧
      (∀ (b q : Nat) args, prog[q]? = some (.create b args) → ∀ x ∈ args, ∀ a i, x.ex node = .elem a i →
        ¬ InRange (id' b - 1) (sizeOf' prog b) (id' a - 1 + i)) ∧
      s.count - 1 ≤ cells prog := by
  obtain ⟨s, id', e, hP, hc⟩ := reduceArrays_ok hl hs id
  refine ⟨s, id', e, fun a q h => ?_, fun a b q q' h h' hq hlast => hP.apart a b q q' hq (Nat.zero_le _) h h' hlast,
    fun b q args h => hP.direct b q args (Nat.zero_le _) h, by omega⟩
  obtain ⟨h1, h2⟩ := hP.pos a q (Nat.zero_le _) h
  exact ⟨h1, by omega⟩

theorem run_agree {node : Nat → Ex V} {prog : List (Step V)} {last : Nat → Nat} (hl : Lifetimes node prog last) {eq : V → V → Bool}
    (heq : ∀ a b, eq a b = true → a = b) {lp : V → V} {id : Nat → Nat} {c : Comp V} (hP : Placed node prog last 0 c id) {val : Nat → V}
    (hlp : ∀ (p b : Nat) args, prog[p]? = some (.create b args) → ∀ v, Arg.par v ∈ args → lp v = v)
    (hnest : NoNested node prog last) {s0 : St V}
    (hval : ∀ (p b : Nat) args, prog[p]? = some (.create b args) → ∀ n, Arg.op n ∈ args →
      (node n).eval (runSteps node (sizeOf' prog) (prog.take p) s0).env (runSteps node (sizeOf' prog) (prog.take p) s0).arr = val n) :
    ∀ (rest : List (Step V)) (p : Nat) (t : Pr V), rest = prog.drop p →
      Agree prog last id val p (runSteps node (sizeOf' prog) (prog.take p) s0) t →
      (runPrinted node eq lp (sizeOf' prog) id rest t).env =
        (runSteps node (sizeOf' prog) rest (runSteps node (sizeOf' prog) (prog.take p) s0)).env := by
  intro rest
  induction rest with
  | nil => intro p t _ h; exact h.env
  | cons st rest ih =>
    intro p t hrest h
    have hst : prog[p]? = some st := by
      have : (prog.drop p)[0]? = some st := by rw [← hrest]; rfl
      simpa using this
    have hrest' : rest = prog.drop (p + 1) := by
      have : (st :: rest).tail = (prog.drop p).tail := by rw [hrest]
      simpa using this
    have hsnoc : ∀ (l : List (Step V)) (s : St V), runSteps node (sizeOf' prog) (l ++ [st]) s =
        st.run node (sizeOf' prog) (runSteps node (sizeOf' prog) l s) := by
      intro l
      induction l with
      | nil => intro s; rfl
      | cons x l ih => intro s; exact ih _
    have htake : prog.take (p + 1) = prog.take p ++ [st] := by
      rw [List.take_add_one, hst]; rfl
    have hnext := step_agree hl heq (lp := lp) hP hst h
      (fun b args e => hlp p b args (e ▸ hst)) (fun b args e => hval p b args (e ▸ hst)) (fun b args e => hnest p b args (e ▸ hst))
    rw [← hsnoc, ← htake] at hnext
    have := ih (p + 1) _ hrest' hnext
    rw [runPrinted, runSteps, this, htake, hsnoc]

/-- The printed program computes what the program with separate arrays computes, if arguments of arrays do not read
arrays inside of larger expressions for the last time (`NoNested`), values which compare equal are the same, and loops
print constants exactly. It starts with nothing remembered and any memory. Sharing of storage inside of conditional
scopes and index loops is not covered. -/
theorem printed_arrays_correct_partial [DecidableEq V] {node : Nat → Ex V} {prog : List (Step V)} {last : Nat → Nat}
    (hl : Lifetimes node prog last) {size : Nat} (hs : cells prog ≤ size) (id : Nat → Nat)
    {eq : V → V → Bool} (heq : ∀ a b, eq a b = true → a = b) {lp : V → V}
    (hlp : ∀ (p b : Nat) args, prog[p]? = some (.create b args) → ∀ v, Arg.par v ∈ args → lp v = v)
    (hnest : NoNested node prog last) :
    ∃ s id', reduceArrays node prog last size id = .ok (s, id') ∧
      ∀ (s0 : St V) (mem : Nat → V), OneValue node prog s0 →
        (runPrinted node eq lp (sizeOf' prog) id' prog ⟨s0.env, mem, fun _ => none⟩).env =
          (runSteps node (sizeOf' prog) prog s0).env := by
  obtain ⟨s, id', e, hP, _⟩ := reduceArrays_ok hl hs id
  refine ⟨s, id', e, fun s0 mem ⟨val, hval⟩ => ?_⟩
  exact run_agree hl heq hP hlp hnest hval prog 0 _ (by simp)
    ⟨rfl, fun a q h => by omega, fun c x h => by cases h⟩

/-! ### a program which meets the conditions -/

/-- two calls one after the other; the second one takes elements of the result of the first one, swapped -/
def swapNode : Nat → Ex Int
  | 0 => .var (.x 0)
  | 1 => .elem 1 1
  | 2 => .elem 1 0
  | _ => .par 0

def double (l : List (List Int)) (i : Nat) : Int := 2 * (l.flatten.getD 0 0) + i

def swapProg : List (Step Int) :=
  [.create 0 [.op 0], .create 1 [.par 0, .par 0], .call [0] 1 double, .create 2 [.op 1, .op 2], .create 3 [.par 0],
    .call [2] 3 double, .assign (.y 0) (.elem 3 0)]

def swapLast : Nat → Nat
  | 0 => 3
  | 1 => 4
  | 2 => 6
  | _ => 7

theorem swap_created {a q : Nat} : CreatedAt swapProg a q ↔ (q = 0 ∧ a = 0) ∨ (q = 1 ∧ a = 1) ∨ (q = 3 ∧ a = 2) ∨ (q = 4 ∧ a = 3) := by
  unfold CreatedAt swapProg
  match q with
  | 0 => simp [eq_comm]
  | 1 => simp [eq_comm]
  | 2 => simp
  | 3 => simp [eq_comm]
  | 4 => simp [eq_comm]
  | 5 => simp
  | 6 => simp
  | q + 7 => simp

theorem swap_lifetimes : Lifetimes swapNode swapProg swapLast := by
  refine ⟨by decide, ?_, ?_, ?_⟩
  · intro a q h
    rcases swap_created.mp h with ⟨rfl, rfl⟩ | ⟨rfl, rfl⟩ | ⟨rfl, rfl⟩ | ⟨rfl, rfl⟩ <;> decide
  · intro p st h a ha
    simp only [swap_created]
    match p, h with
    | 0, h => cases h; simp [Step.uses, Step.reads, Arg.ex, swapNode, Ex.reads] at ha
    | 1, h => cases h; simp [Step.uses, Step.reads, Arg.ex, swapNode, Ex.reads] at ha
    | 2, h =>
      cases h
      simp only [Step.uses, List.mem_cons, List.not_mem_nil, or_false] at ha
      rcases ha with rfl | rfl
      · exact ⟨⟨1, by omega, by simp⟩, by decide⟩
      · exact ⟨⟨0, by omega, by simp⟩, by decide⟩
    | 3, h =>
      cases h
      have : a = 1 := by simpa [Step.uses, Step.reads, Arg.ex, swapNode, Ex.reads] using ha
      subst this
      exact ⟨⟨1, by omega, by simp⟩, by decide⟩
    | 4, h => cases h; simp [Step.uses, Step.reads, Arg.ex, swapNode, Ex.reads] at ha
    | 5, h =>
      cases h
      simp only [Step.uses, List.mem_cons, List.not_mem_nil, or_false] at ha
      rcases ha with rfl | rfl
      · exact ⟨⟨4, by omega, by simp⟩, by decide⟩
      · exact ⟨⟨3, by omega, by simp⟩, by decide⟩
    | 6, h =>
      cases h
      have : a = 3 := by simpa [Step.uses, Step.reads, Ex.reads] using ha
      subst this
      exact ⟨⟨4, by omega, by simp⟩, by decide⟩
    | q + 7, h => simp [swapProg] at h
  · intro p st h a i hi
    match p, h with
    | 0, h => cases h; simp [Step.reads, Arg.ex, swapNode, Ex.reads] at hi
    | 1, h => cases h; simp [Step.reads, Arg.ex, swapNode, Ex.reads] at hi
    | 2, h => cases h; simp [Step.reads] at hi
    | 3, h =>
      cases h
      have : a = 1 ∧ i < 2 := by
        simp [Step.reads, Arg.ex, swapNode, Ex.reads] at hi
        omega
      obtain ⟨rfl, h2⟩ := this
      exact h2
    | 4, h => cases h; simp [Step.reads, Arg.ex, swapNode, Ex.reads] at hi
    | 5, h => cases h; simp [Step.reads] at hi
    | 6, h =>
      cases h
      have : a = 3 ∧ i = 0 := by simpa [Step.reads, Ex.reads] using hi
      obtain ⟨rfl, rfl⟩ := this
      decide
    | q + 7, h => simp [swapProg] at h

theorem swap_noNested : NoNested swapNode swapProg swapLast := by
  intro p b args h x hx
  match p, h with
  | 0, h => cases h; right; simp at hx; subst hx; simp [Arg.ex, swapNode, Ex.reads]
  | 1, h => cases h; right; simp at hx; subst hx; simp [Arg.ex, Ex.reads]
  | 3, h =>
    cases h
    left
    simp at hx
    rcases hx with rfl | rfl
    · exact ⟨1, 1, rfl⟩
    · exact ⟨1, 0, rfl⟩
  | 4, h => cases h; right; simp at hx; subst hx; simp [Arg.ex, Ex.reads]
  | q + 7, h => simp [swapProg] at h

/-- the second array of the example takes the place of the first ones where it may: the first array is at cell 0, its
result at cells 1 and 2; the arguments of the second call must not overwrite them and come after, its result goes to
cell 0 -/
example : (match reduceArrays swapNode swapProg swapLast 7 (fun _ => 0) with
    | .ok (s, id) => some (s.count, id 0, id 1, id 2, id 3)
    | .error _ => none) = some (6, 1, 2, 4, 1) := by decide +kernel

theorem swap_oneValue (s0 : St Int) : OneValue swapNode swapProg s0 := by
  refine ⟨fun n => match n with
    | 0 => s0.env (.x 0)
    | 1 => 2 * s0.env (.x 0) + 1
    | 2 => 2 * s0.env (.x 0)
    | _ => 0, ?_⟩
  intro p b args h n hn
  match p, h with
  | 0, h => cases h; simp at hn; subst hn; rfl
  | 1, h => cases h; simp at hn
  | 3, h =>
    cases h
    simp at hn
    rcases hn with rfl | rfl
    · simp [swapProg, runSteps, Step.run, setArr, Ex.eval, swapNode, Arg.ex, double, sizeOf', argsOf, Step.creates]
    · simp [swapProg, runSteps, Step.run, setArr, Ex.eval, swapNode, Arg.ex, double, sizeOf', argsOf, Step.creates]
  | 4, h => cases h; simp at hn
  | q + 7, h => simp [swapProg] at h

/-- all conditions of the theorem hold for it -/
example : ∃ s id', reduceArrays swapNode swapProg swapLast 7 (fun _ => 0) = .ok (s, id') ∧
    ∀ (s0 : St Int) (mem : Nat → Int),
      (runPrinted swapNode (fun a b => a == b) (fun v => v) (sizeOf' swapProg) id' swapProg ⟨s0.env, mem, fun _ => none⟩).env =
        (runSteps swapNode (sizeOf' swapProg) swapProg s0).env := by
  obtain ⟨s, id', e, h⟩ := printed_arrays_correct_partial swap_lifetimes (size := 7) (by decide) (fun _ => 0) (eq := fun a b => a == b)
    (by simp) (lp := fun v => v) (fun _ _ _ _ _ _ => rfl) swap_noNested
  exact ⟨s, id', e, fun s0 mem => h s0 mem (swap_oneValue s0)⟩

end Verif.Arrays
