import Verif.Library.ModelSources

namespace Verif.Library.Sources

/-- Holds after all operations: the library sources fit together. -/
def Fits (st : State) : Prop :=
  ∀ l, st.lib = some l → l.names = st.models ∧ l.access = l.pool ∧ (l.shutdown = true ↔ l.pool = .pthreads)

theorem genLib_fits (st : State) :
    (genLib st).names = st.models ∧ (genLib st).access = (genLib st).pool ∧ ((genLib st).shutdown = true ↔ (genLib st).pool = .pthreads) := by
  unfold genLib
  cases st.threads <;> cases anyEnabled st <;> simp

theorem getLib_fits {st : State} (h : Fits st) :
    Fits (getLib st).2 ∧ (getLib st).2.lib = some (getLib st).1 ∧ (getLib st).2.models = st.models ∧
      (getLib st).2.model = st.model ∧ (getLib st).2.threads = st.threads := by
  unfold getLib
  cases hl : st.lib with
  | some l => exact ⟨h, hl, rfl, rfl, rfl⟩
  | none =>
    refine ⟨fun l e => ?_, rfl, rfl, rfl, rfl⟩
    simp only [Option.some.injEq] at e
    subst e
    exact genLib_fits st

theorem sourcesOf_same (is : List Nat) (st : State) :
    (sourcesOf is st).lib = st.lib ∧ (sourcesOf is st).models = st.models ∧ (sourcesOf is st).threads = st.threads := by
  induction is generalizing st with
  | nil => exact ⟨rfl, rfl, rfl⟩
  | cons i is ih => exact ih (sourceOf i st)

theorem sourcesOf_fits {st : State} (is : List Nat) (h : Fits st) : Fits (sourcesOf is st) := by
  obtain ⟨a, b, -⟩ := sourcesOf_same is st
  intro l e
  rw [b]
  exact h l (a ▸ e)

theorem step_fits {st : State} (h : Fits st) (o : Op) : Fits (step st o) := by
  cases o with
  | setModel i s => exact h
  | setThreads t => exact h
  | add i => intro l e; cases e
  | other i t => exact h
  | libSources => exact (getLib_fits h).1
  | create => exact (getLib_fits (sourcesOf_fits st.models h)).1

theorem run_fits {st : State} (h : Fits st) (ops : List Op) : Fits (run st ops) := by
  induction ops generalizing st with
  | nil => exact h
  | cons o ops ih => exact ih (step_fits h o)

/-- The pools called by sources generated with some settings. -/
def calls (s : Settings) (t : Threads) : ModelSrc :=
  ⟨if s.sparseJac then jacSource s s.loops t else .none, if s.sparseHess then hessSource s s.loops t else .none⟩

/-- Nothing has been generated. -/
def Fresh (st : State) : Prop := st.lib = none ∧ ∀ i, (st.model i).src = none ∧ (st.model i).tapes = false

/-- All that has been generated is up to date. -/
def Current (st : State) : Prop :=
  (∀ i, ((st.model i).src = none ∧ (st.model i).tapes = false) ∨
    ((st.model i).src = some (calls (st.model i).set st.threads) ∧ (st.model i).tapes = (st.model i).set.loops)) ∧
  ∀ l, st.lib = some l → ∀ i ∈ st.models,
    ((calls (st.model i).set st.threads).jac = .none ∨ (calls (st.model i).set st.threads).jac = l.pool) ∧
    ((calls (st.model i).set st.threads).hess = .none ∨ (calls (st.model i).set st.threads).hess = l.pool)

theorem Fresh.current {st : State} (h : Fresh st) : Current st :=
  ⟨fun i => .inl (h.2 i), fun l e => by rw [h.1] at e; cases e⟩

theorem pool_of_any {st : State} (h : anyEnabled st = true) : (genLib st).pool = st.threads := by
  unfold genLib
  cases st.threads <;> simp [h]

theorem any_of {st : State} {i : Nat} (hi : i ∈ st.models) (h : jacEnabled (st.model i) = true ∨ hessEnabled (st.model i) = true) : anyEnabled st = true := by
  rw [anyEnabled, List.any_eq_true]
  exact ⟨i, hi, by simpa using h⟩

theorem calls_jac (s : Settings) (t : Threads) :
    (calls s t).jac = .none ∨ ((calls s t).jac = t ∧ s.multi = true ∧ s.loops = false ∧ s.sparseJac = true ∧ s.reuseOne = true ∧ (s.forwardOne || s.reverseOne) = true) := by
  rcases s with ⟨a, b, c, d, e, f, g, h, i, j⟩
  cases t <;> cases a <;> cases b <;> cases d <;> cases f <;> cases g <;> cases i <;> cases j <;>
    simp [calls, jacSource, jacForRev]

theorem calls_hess (s : Settings) (t : Threads) :
    (calls s t).hess = .none ∨ ((calls s t).hess = t ∧ s.multi = true ∧ s.loops = false ∧ s.sparseHess = true ∧ s.reuseRev2 = true ∧ s.reverseTwo = true) := by
  rcases s with ⟨a, b, c, d, e, f, g, h, i, j⟩
  cases t <;> cases a <;> cases c <;> cases e <;> cases h <;> cases j <;> simp [calls, hessSource]

theorem tapes_le {st : State} (h : Current st) (i : Nat) (hl : (st.model i).set.loops = false) : (st.model i).tapes = false := by
  rcases h.1 i with a | a
  · exact a.2
  · rw [a.2, hl]

theorem getLib_current {st : State} (h : Current st) : Current (getLib st).2 := by
  unfold getLib
  cases hl : st.lib with
  | some l => exact h
  | none =>
    refine ⟨h.1, fun l e i hi => ?_⟩
    simp only [Option.some.injEq] at e
    subst e
    dsimp only at hi ⊢
    constructor
    · rcases calls_jac (st.model i).set st.threads with a | ⟨a, b, c, d, e, f⟩
      · exact .inl a
      · right
        rw [a, pool_of_any (any_of hi (.inl _))]
        simp [jacEnabled, b, tapes_le h i c, d, e, f]
    · rcases calls_hess (st.model i).set st.threads with a | ⟨a, b, c, d, e, f⟩
      · exact .inl a
      · right
        rw [a, pool_of_any (any_of hi (.inr _))]
        simp [hessEnabled, b, tapes_le h i c, d, e, f]

theorem getSources_set (t : Threads) (m : MState) : (getSources t m).set = m.set := by
  unfold getSources generate
  split <;> rfl

theorem sourceOf_set (i : Nat) (st : State) (j : Nat) : ((sourceOf i st).model j).set = (st.model j).set := by
  unfold sourceOf
  dsimp only
  split
  · next h => subst h; exact getSources_set _ _
  · rfl

theorem sourcesOf_set (is : List Nat) (st : State) (j : Nat) : ((sourcesOf is st).model j).set = (st.model j).set := by
  induction is generalizing st with
  | nil => rfl
  | cons i is ih => exact (ih _).trans (sourceOf_set i st j)

theorem getSources_current {t : Threads} {m : MState}
    (h : (m.src = none ∧ m.tapes = false) ∨ (m.src = some (calls m.set t) ∧ m.tapes = m.set.loops)) :
    (getSources t m).src = some (calls m.set t) ∧ (getSources t m).tapes = m.set.loops := by
  rcases h with ⟨a, b⟩ | ⟨a, b⟩
  · simp [getSources, generate, a, b, calls]
  · simp [getSources, a, b]

theorem sourceOf_current {st : State} (i : Nat) (h : Current st) : Current (sourceOf i st) := by
  refine ⟨fun j => ?_, fun l e j hj => ?_⟩
  · rw [sourceOf_set]
    unfold sourceOf
    dsimp only
    split
    · next hj => subst hj; exact .inr (getSources_current (h.1 j))
    · exact h.1 j
  · rw [sourceOf_set]
    exact h.2 l e j hj

theorem sourcesOf_current {st : State} (is : List Nat) (h : Current st) : Current (sourcesOf is st) := by
  induction is generalizing st with
  | nil => exact h
  | cons i is ih => exact ih (sourceOf_current i h)

theorem sourceOf_keep {st : State} {i j : Nat} {c : ModelSrc} (h : (st.model j).src = some c) : ((sourceOf i st).model j).src = some c := by
  unfold sourceOf
  dsimp only
  split
  · next e => subst e; simp [getSources, h]
  · exact h

theorem sourcesOf_keep {st : State} {is : List Nat} {j : Nat} {c : ModelSrc} (h : (st.model j).src = some c) : ((sourcesOf is st).model j).src = some c := by
  induction is generalizing st with
  | nil => exact h
  | cons i is ih => exact ih (sourceOf_keep h)

theorem sourcesOf_src {st : State} {is : List Nat} (h : Current st) {j : Nat} (hj : j ∈ is) :
    ((sourcesOf is st).model j).src = some (calls (st.model j).set st.threads) := by
  induction is generalizing st with
  | nil => cases hj
  | cons i is ih =>
    by_cases e : j = i
    · subst e
      refine sourcesOf_keep (st := sourceOf j st) (is := is) ?_
      have e : (sourceOf j st).model j = getSources st.threads (st.model j) := if_pos rfl
      rw [e]
      exact (getSources_current (h.1 j)).1
    · have := ih (sourceOf_current i h) ((List.mem_cons.1 hj).resolve_left e)
      rw [sourceOf_set] at this
      exact this

theorem sourceOf_other {st : State} {i j : Nat} (h : j ≠ i) : (sourceOf i st).model j = st.model j := if_neg h

theorem sourcesOf_other {st : State} {is : List Nat} {j : Nat} (h : j ∉ is) : (sourcesOf is st).model j = st.model j := by
  induction is generalizing st with
  | nil => rfl
  | cons i is ih =>
    rw [List.mem_cons, not_or] at h
    exact (ih h.2).trans (sourceOf_other h.1)

theorem getLib_same (st : State) : (getLib st).2.model = st.model ∧ (getLib st).2.models = st.models := by
  unfold getLib
  split <;> exact ⟨rfl, rfl⟩

/-- Holds after operations of `Settled`. -/
structure Tidy (first : Nat) (ops : List Op) (st : State) : Prop where
  current : Current st
  unused : ∀ i, i ∉ st.models → (st.model i).src = none ∧ (st.model i).tapes = false
  fresh : Op.create ∉ ops → Op.libSources ∉ ops → Fresh st
  added : ∀ i ∈ st.models, i = first ∨ Op.add i ∈ ops

theorem Settled.prefix {first : Nat} {ops rest : List Op} (h : Settled first (ops ++ rest)) : Settled first ops :=
  fun pre o' post e => h pre o' (post ++ rest) (by rw [e]; simp)

theorem setModel_fresh {st : State} (h : Fresh st) (i : Nat) (s : Settings) : Fresh (step st (.setModel i s)) := by
  refine ⟨h.1, fun j => ?_⟩
  simp only [step]
  split
  · exact h.2 i
  · exact h.2 j

theorem tidy_step {first : Nat} {ops : List Op} {st : State} (h : Tidy first ops st) (o : Op)
    (hs : Settled first (ops ++ [o])) : Tidy first (ops ++ [o]) (step st o) := by
  obtain ⟨h1, h2, h3⟩ := hs ops o [] rfl
  have old : ∀ i, i = first ∨ Op.add i ∈ ops → i = first ∨ Op.add i ∈ ops ++ [o] := fun i hi => hi.imp_right fun a => List.mem_append_left _ a
  cases o with
  | other i t => exact absurd rfl (h1 i t)
  | setThreads t =>
    obtain ⟨a, b⟩ := h2 t rfl
    have hf : Fresh (step st (.setThreads t)) := h.fresh a b
    exact ⟨hf.current, h.unused, fun _ _ => hf, fun i hi => old i (h.added i hi)⟩
  | setModel i s =>
    have un : ∀ j, j ∉ st.models → ((step st (.setModel i s)).model j).src = none ∧ ((step st (.setModel i s)).model j).tapes = false := by
      intro j hj
      simp only [step]
      split
      · next e => subst e; exact h.unused j hj
      · exact h.unused j hj
    refine ⟨?_, un, fun a b => ?_, fun j hj => old j (h.added j hj)⟩
    · rcases h3 i s rfl with ⟨a, b⟩ | ⟨a, b⟩
      · exact (setModel_fresh (h.fresh a b) i s).current
      · have hi : i ∉ st.models := fun hi => (h.added i hi).elim a b
        refine ⟨fun j => ?_, fun l e j hj => ?_⟩
        · by_cases e : j = i
          · subst e
            exact .inl (un j hi)
          · have : (step st (.setModel i s)).model j = st.model j := if_neg e
            rw [this]
            exact h.current.1 j
        · have hj' : j ∈ st.models := hj
          have : (step st (.setModel i s)).model j = st.model j := if_neg fun (e : j = i) => hi (e ▸ hj')
          rw [this]
          exact h.current.2 l e j hj'
    · exact setModel_fresh (h.fresh (fun c => a (List.mem_append_left _ c)) fun c => b (List.mem_append_left _ c)) i s
  | add i =>
    refine ⟨⟨h.current.1, fun l e => by cases e⟩, fun j hj => h.unused j fun hj' => hj ?_, fun a b => ?_, fun j hj => ?_⟩
    · simp only [step]
      split
      · exact hj'
      · exact List.mem_cons_of_mem _ hj'
    · exact ⟨rfl, (h.fresh (fun c => a (List.mem_append_left _ c)) fun c => b (List.mem_append_left _ c)).2⟩
    · simp only [step] at hj
      split at hj
      · exact old j (h.added j hj)
      · rcases List.mem_cons.1 hj with rfl | hj
        · right; simp
        · exact old j (h.added j hj)
  | libSources =>
    obtain ⟨a, b⟩ := getLib_same st
    refine ⟨getLib_current h.current, fun j hj => ?_, fun _ c => absurd (by simp) c, fun j hj => ?_⟩
    · simp only [step, a, b] at hj ⊢
      exact h.unused j hj
    · simp only [step, b] at hj
      exact old j (h.added j hj)
  | create =>
    obtain ⟨a, b⟩ := getLib_same (sourcesOf st.models st)
    have hm := (sourcesOf_same st.models st).2.1
    refine ⟨getLib_current (sourcesOf_current st.models h.current), fun j hj => ?_, fun c _ => absurd (by simp) c, fun j hj => ?_⟩
    · simp only [step, create, a, b, hm] at hj ⊢
      rw [sourcesOf_other hj]
      exact h.unused j hj
    · simp only [step, create, b, hm] at hj
      exact old j (h.added j hj)

theorem run_tidy {first : Nat} (ops done : List Op) {st : State} (h : Tidy first done st) (hs : Settled first (done ++ ops)) :
    Tidy first (done ++ ops) (run st ops) := by
  induction ops generalizing done st with
  | nil => rw [List.append_nil]; exact h
  | cons o ops ih =>
    have e : done ++ o :: ops = (done ++ [o]) ++ ops := by simp
    rw [e] at hs ⊢
    exact ih (done ++ [o]) (tidy_step h o hs.prefix) hs

theorem run_settled (set : Nat → Settings) (i : Nat) {ops : List Op} (h : Settled i ops) : Current (run (init set i) ops) :=
  have hf : Fresh (init set i) := ⟨rfl, fun _ => ⟨rfl, rfl⟩⟩
  (run_tidy ops [] ⟨hf.current, fun j _ => hf.2 j, fun _ _ => hf, fun j hj => .inl (by simpa [init] using hj)⟩ h).current

end Verif.Library.Sources
