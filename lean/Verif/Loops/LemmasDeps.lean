import Verif.Loops.ModelDeps
import Verif.Index.Props

/-
Lemmas about the printing of indexed dependent variables.
-/
namespace Verif.Loops.Deps

open Verif.Index (Pat Plane isOffsetBy encapsulate)

variable {R V : Type} [CommRing R] [DecidableEq R] [Add V]

/-- the assignment which a variable stands for -/
def Dep.target (arr : Nat → Nat → V) (j : Nat) (d : Dep R V) : Target R V := ⟨d.pat.eval j, d.mode, d.src.value arr⟩

omit [CommRing R] in
theorem runAll_append (asg : V → V → V) : ∀ (ts us : List (Target R V)) (m : R → V),
    runAll asg (ts ++ us) m = (runAll asg ts m).bind (runAll asg us)
  | [], us, m => rfl
  | t :: ts, us, m => by
    rw [List.cons_append, runAll, runAll]
    cases t.run asg m with
    | none => rfl
    | some m' => exact runAll_append asg ts us m'

omit [Add V] in
/-- the variables which a loop stands for -/
theorem extend_spec (ref : Dep R V) (a s : Nat) : ∀ (nodes : List (Node R V)) (offset k : Nat), extend ref a s offset nodes = some k →
    ∃ ds : List (Dep R V), ds.length = k ∧ (∃ rest, nodes = ds.map Node.dep ++ rest) ∧
      ∀ (i : Nat) (d : Dep R V), ds[i]? = some d → d.src = .elem a (s + (offset + i)) ∧ d.mode = ref.mode ∧
        isOffsetBy d.pat ref.pat ((offset + i : Nat) : R) = true
  | [], offset, k, h => by
    cases h
    exact ⟨[], rfl, ⟨[], rfl⟩, by simp⟩
  | .other :: rest, offset, k, h => by
    cases h
    exact ⟨[], rfl, ⟨_, rfl⟩, by simp⟩
  | .dep d :: rest, offset, k, h => by
    have zero : k = 0 → ∃ ds : List (Dep R V), ds.length = k ∧ (∃ r, Node.dep d :: rest = ds.map Node.dep ++ r) ∧
        ∀ (i : Nat) (d : Dep R V), ds[i]? = some d → d.src = .elem a (s + (offset + i)) ∧ d.mode = ref.mode ∧
          isOffsetBy d.pat ref.pat ((offset + i : Nat) : R) = true := fun hk => ⟨[], hk.symm, ⟨_, rfl⟩, by simp⟩
    rw [extend] at h
    cases hs : d.src with
    | const v => simp [hs] at h
    | other v =>
      simp only [hs] at h
      exact zero (Option.some.inj h).symm
    | elem a' p =>
      simp only [hs] at h
      by_cases h1 : a' ≠ a
      · rw [if_pos h1] at h
        exact zero (Option.some.inj h).symm
      rw [if_neg h1] at h
      by_cases h2 : p ≠ s + offset
      · rw [if_pos h2] at h
        exact zero (Option.some.inj h).symm
      rw [if_neg h2] at h
      by_cases h3 : d.mode ≠ ref.mode
      · rw [if_pos h3] at h
        exact zero (Option.some.inj h).symm
      rw [if_neg h3] at h
      cases h4 : isOffsetBy d.pat ref.pat (offset : R) with
      | false =>
        rw [h4, if_pos (by simp)] at h
        exact zero (Option.some.inj h).symm
      | true =>
        rw [h4, if_neg (by simp)] at h
        obtain ⟨k', hk', rfl⟩ := Option.map_eq_some_iff.1 h
        obtain ⟨ds, hl, ⟨r, hr⟩, hd⟩ := extend_spec ref a s rest (offset + 1) k' hk'
        refine ⟨d :: ds, by simp [hl], ⟨r, by simp [hr]⟩, fun i e hi => ?_⟩
        cases i with
        | zero =>
          simp only [List.getElem?_cons_zero, Option.some.injEq] at hi
          subst hi
          refine ⟨?_, not_not.1 h3, ?_⟩
          · rw [hs, not_not.1 h1, not_not.1 h2]
            rfl
          · rw [Nat.add_zero]
            exact h4
        | succ i =>
          rw [List.getElem?_cons_succ] at hi
          have := hd i e hi
          rw [show offset + (i + 1) = offset + 1 + i by omega]
          exact this

theorem runLoop_eq (asg : V → V → V) (arr : Nat → Nat → V) (j : Nat) (f : Plane R) (mode a s : Nat) : ∀ (ds : List (Dep R V)) (o : Nat) (m : R → V),
    (∀ (i : Nat) (d : Dep R V), ds[i]? = some d → d.src = .elem a (s + (o + i)) ∧ d.mode = mode ∧ f.eval j (o + i) = d.pat.eval j) →
    runLoop asg arr j f mode a s (List.range' o ds.length) m = runAll asg (ds.map (Dep.target arr j)) m
  | [], _, m, _ => rfl
  | d :: ds, o, m, h => by
    obtain ⟨h1, h2, h3⟩ := h 0 d rfl
    rw [List.length_cons, List.range'_succ, runLoop, List.map_cons, runAll]
    have : assign asg mode (f.eval j o) (arr a (o + s)) m = (d.target arr j).run asg m := by
      rw [Nat.add_zero] at h1 h3
      rw [h3, assign, Target.run, Dep.target]
      simp only [h1, h2, Src.value]
      rw [Nat.add_comm o s]
    rw [this]
    congr 1
    funext m'
    exact runLoop_eq asg arr j f mode a s ds (o + 1) m' fun i d' hi => by
      have := h (i + 1) d' (by simpa using hi)
      rw [show o + (i + 1) = o + 1 + i by omega] at this
      exact this

/-- a loop does what the assignments do one by one -/
theorem usingLoop_spec (asg : V → V → V) (arr : Nat → Nat → V) (j : Nat) (ref : Dep R V) (nodes : List (Node R V)) (k : Nat) (st : Stmt R V)
    (h : usingLoop ref nodes = some (some (k, st))) :
    ∃ (ds : List (Dep R V)) (rest : List (Node R V)), ds.length = k ∧ nodes = ds.map Node.dep ++ rest ∧
      ∀ m, st.run asg arr j m = runAll asg ((ref :: ds).map (Dep.target arr j)) m := by
  rw [usingLoop] at h
  cases hs : ref.src with
  | const v => simp [hs] at h
  | other v => simp [hs] at h
  | elem a s =>
    simp only [hs] at h
    cases he : extend ref a s 1 nodes with
    | none =>
      cases hp : ref.pat with
      | linear p => simp [hp, he] at h
      | sectioned p => simp [hp, he] at h
      | random p => simp [hp] at h
    | some k' =>
      have h' : ¬ k' + 1 < 3 ∧ ∃ f, encapsulate ref.pat 0 = some f ∧ k' = k ∧ Stmt.loop (k' + 1) f ref.mode a s = st := by
        cases hp : ref.pat with
        | random p => simp [hp] at h
        | linear p =>
          simp only [hp, he] at h
          by_cases hk : k' + 1 < 3
          · rw [if_pos hk] at h
            simp at h
          · rw [if_neg hk] at h
            cases hf : encapsulate (Pat.linear p) (0 : R) with
            | none => simp [hf] at h
            | some f =>
              simp only [hf, Option.some.injEq, Prod.mk.injEq] at h
              exact ⟨hk, f, rfl, h.1, h.2⟩
        | sectioned p =>
          simp only [hp, he] at h
          by_cases hk : k' + 1 < 3
          · rw [if_pos hk] at h
            simp at h
          · rw [if_neg hk] at h
            cases hf : encapsulate (Pat.sectioned p) (0 : R) with
            | none => simp [hf] at h
            | some f =>
              simp only [hf, Option.some.injEq, Prod.mk.injEq] at h
              exact ⟨hk, f, rfl, h.1, h.2⟩
      obtain ⟨_, f, hf, rfl, rfl⟩ := h'
      obtain ⟨ds, hl, ⟨rest, hr⟩, hd⟩ := extend_spec ref a s nodes 1 k' he
      refine ⟨ds, rest, hl, hr, fun m => ?_⟩
      have hrun := runLoop_eq asg arr j f ref.mode a s (ref :: ds) 0 m fun i d hi => by
        cases i with
        | zero =>
          simp only [List.getElem?_cons_zero, Option.some.injEq] at hi
          subst hi
          refine ⟨hs, rfl, ?_⟩
          rw [Verif.Index.encapsulate_eval _ _ _ hf]
          cases ref.pat.eval j with
          | none => rfl
          | some v => simp
        | succ i =>
          rw [List.getElem?_cons_succ] at hi
          obtain ⟨h1, h2, h3⟩ := hd i d hi
          refine ⟨by rw [h1]; congr 2; omega, h2, ?_⟩
          rw [Verif.Index.encapsulate_eval _ _ _ hf, Verif.Index.offset_sound _ _ _ h3]
          congr 1
          funext v
          rw [sub_zero]
          congr 2
          omega
      rw [← hrun, List.length_cons, hl, Stmt.run, List.range_eq_range']

theorem printDeps_spec (asg : V → V → V) (arr : Nat → Nat → V) (j : Nat) : ∀ (nodes : List (Node R V)) (skip : Nat) (pre : List (Dep R V))
    (rest : List (Node R V)) (ss : List (Stmt R V)) (n : Nat), pre.length = skip → nodes = pre.map Node.dep ++ rest →
    printDeps skip nodes = some (ss, n) →
    ∃ ds : List (Dep R V), skip + ds.length = n ∧ (∃ tail, rest = ds.map Node.dep ++ tail ∧ ∀ d t, tail ≠ Node.dep d :: t) ∧
      ∀ m, runStmts asg arr j ss m = runAll asg (ds.map (Dep.target arr j)) m
  | [], skip, pre, rest, ss, n, hp, hn, h => by
    have hpre : pre = [] := by
      cases pre with
      | nil => rfl
      | cons a as => simp at hn
    subst hpre
    have hrest : rest = [] := by simpa using hn.symm
    subst hrest
    have hskip : skip = 0 := by simpa using hp.symm
    subst hskip
    rw [printDeps] at h
    cases h
    exact ⟨[], rfl, ⟨[], rfl, by simp⟩, fun m => rfl⟩
  | nd :: nodes, skip + 1, pre, rest, ss, n, hp, hn, h => by
    rw [printDeps] at h
    obtain ⟨⟨ss', n'⟩, h1, h2⟩ := Option.map_eq_some_iff.1 h
    cases h2
    cases pre with
    | nil => simp at hp
    | cons d pre =>
      rw [List.map_cons, List.cons_append, List.cons.injEq] at hn
      obtain ⟨ds, h3, h4, h5⟩ := printDeps_spec asg arr j nodes skip pre rest ss' n' (by simpa using hp) hn.2 h1
      exact ⟨ds, by simp only; omega, h4, h5⟩
  | .other :: nodes, 0, pre, rest, ss, n, hp, hn, h => by
    have hpre := List.eq_nil_of_length_eq_zero hp
    subst hpre
    rw [printDeps] at h
    cases h
    refine ⟨[], rfl, ⟨rest, rfl, fun d t ht => ?_⟩, fun m => rfl⟩
    rw [ht] at hn
    simp at hn
  | .dep d :: nodes, 0, pre, rest, ss, n, hp, hn, h => by
    have hpre := List.eq_nil_of_length_eq_zero hp
    subst hpre
    rw [List.map_nil, List.nil_append] at hn
    subst hn
    rw [printDeps] at h
    cases hu : usingLoop d nodes with
    | none => simp [hu] at h
    | some o =>
      cases o with
      | none =>
        simp only [hu] at h
        obtain ⟨⟨ss', n'⟩, h1, h2⟩ := Option.map_eq_some_iff.1 h
        cases h2
        obtain ⟨ds, h3, ⟨tail, h4, h5⟩, h6⟩ := printDeps_spec asg arr j nodes 0 [] nodes ss' n' rfl rfl h1
        refine ⟨d :: ds, by simp only [List.length_cons]; omega, ⟨tail, by rw [h4]; rfl, h5⟩, fun m => ?_⟩
        rw [runStmts, List.map_cons, runAll]
        congr 1
        funext m'
        exact h6 m'
      | some ks =>
        obtain ⟨k, st⟩ := ks
        simp only [hu] at h
        obtain ⟨⟨ss', n'⟩, h1, h2⟩ := Option.map_eq_some_iff.1 h
        cases h2
        obtain ⟨ds, rest', h3, h4, h5⟩ := usingLoop_spec asg arr j d nodes k st hu
        obtain ⟨ds', h6, ⟨tail, h7, h8⟩, h9⟩ := printDeps_spec asg arr j nodes k ds rest' ss' n' h3 h4 h1
        refine ⟨d :: (ds ++ ds'), by simp only [List.length_cons, List.length_append]; omega, ⟨tail, by rw [h4, h7]; simp, h8⟩, fun m => ?_⟩
        rw [runStmts, h5, ← List.cons_append, List.map_append, runAll_append]
        congr 1
        funext m'
        exact h9 m'

omit [Add V] in
theorem extend_defined (ref : Dep R V) (a s : Nat) : ∀ (nodes : List (Node R V)) (offset : Nat), (∀ d v, Node.dep d ∈ nodes → d.src ≠ .const v) →
    ∃ k, extend ref a s offset nodes = some k
  | [], _, _ => ⟨0, rfl⟩
  | .other :: _, _, _ => ⟨0, rfl⟩
  | .dep d :: rest, offset, h => by
    obtain ⟨k, hk⟩ := extend_defined ref a s rest (offset + 1) fun d v hd => h d v (by simp [hd])
    rw [extend]
    cases hs : d.src with
    | const v => exact absurd hs (h d v (by simp))
    | other v => exact ⟨0, rfl⟩
    | elem a' p =>
      simp only
      split
      · exact ⟨0, rfl⟩
      split
      · exact ⟨0, rfl⟩
      split
      · exact ⟨0, rfl⟩
      split
      · exact ⟨0, rfl⟩
      exact ⟨k + 1, by rw [hk]; rfl⟩

omit [Add V] in
theorem usingLoop_defined (ref : Dep R V) (nodes : List (Node R V)) (h : ∀ d v, Node.dep d ∈ nodes → d.src ≠ .const v) : ∃ o, usingLoop ref nodes = some o := by
  rw [usingLoop]
  cases hs : ref.src with
  | const v => exact ⟨none, rfl⟩
  | other v => exact ⟨none, rfl⟩
  | elem a s =>
    obtain ⟨k, hk⟩ := extend_defined ref a s nodes 1 h
    cases hp : ref.pat with
    | random p => exact ⟨none, rfl⟩
    | linear p =>
      simp only [hk]
      split
      · exact ⟨_, rfl⟩
      · exact ⟨_, rfl⟩
    | sectioned p =>
      simp only [hk]
      split
      · exact ⟨_, rfl⟩
      · exact ⟨_, rfl⟩

omit [Add V] in
theorem printDeps_defined : ∀ (nodes : List (Node R V)) (skip : Nat), (∀ d v, Node.dep d ∈ nodes → d.src ≠ .const v) → ∃ r, printDeps skip nodes = some r
  | [], _, _ => ⟨_, by rw [printDeps]⟩
  | nd :: nodes, skip + 1, h => by
    obtain ⟨r, hr⟩ := printDeps_defined nodes skip fun d v hd => h d v (by simp [hd])
    exact ⟨_, by rw [printDeps, hr]; rfl⟩
  | .other :: nodes, 0, _ => ⟨_, by rw [printDeps]⟩
  | .dep d :: nodes, 0, h => by
    have h' : ∀ d v, Node.dep d ∈ nodes → d.src ≠ .const v := fun d v hd => h d v (by simp [hd])
    obtain ⟨o, ho⟩ := usingLoop_defined d nodes h'
    rw [printDeps, ho]
    cases o with
    | none =>
      obtain ⟨r, hr⟩ := printDeps_defined nodes 0 h'
      exact ⟨_, by simp only [hr]; rfl⟩
    | some ks =>
      obtain ⟨r, hr⟩ := printDeps_defined nodes ks.1 h'
      exact ⟨_, by simp only [hr]; rfl⟩

end Verif.Loops.Deps
