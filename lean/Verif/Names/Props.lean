/-
C74: names of variables in generated code.
-/
import Verif.Names.Lemmas
namespace Verif.Names

/-- variables of a generated function: independent and dependent variables, temporaries, arrays -/
inductive Var
  | indep (id : Nat)
  | dep (i : Nat)
  | tmp (id : Nat)
  | arr (id : Nat)
  | sarr (id : Nat)

/-- identifiers start at 1, those of temporaries at the lowest one of the generator -/
def Var.Valid (g : Gen) : Var → Prop
  | .indep id => 1 ≤ id
  | .dep _ => True
  | .tmp id => g.base.minTmp ≤ id
  | .arr id => 1 ≤ id
  | .sarr id => 1 ≤ id

/-- the text for a variable -/
def Var.text (g : Gen) : Var → Txt
  | .indep id => g.indepName id
  | .dep i => g.depName i
  | .tmp id => g.tmpName id
  | .arr id => g.arrName id
  | .sarr id => g.sarrName id

/-- the names of arrays -/
def arrays (g : Gen) : List Txt := [g.base.dep, g.base.tmp, g.base.arr, g.base.sarr] ++ g.arguments

/-- the user gave this name to a dependent or an independent variable -/
def Own (g : Gen) (t : Txt) : Prop := ∃ i, Chosen g.depNames i t ∨ Chosen g.indepNames i t

/-- the names of arrays are different; names have no separator and no `&`; the names given by the user are different;
and if temporaries are not in an array then nothing else is named like them -/
structure Proper (g : Gen) : Prop where
  nodup : (arrays g).Nodup
  sep : ∀ a ∈ arrays g, g.base.style.sep ∉ a ∧ '&' ∉ a
  own : ∀ t, Own g t → g.base.style.sep ∉ t ∧ '&' ∉ t
  deps : ProperNames g.base.style g.depNames
  indeps : ProperNames g.base.style g.indepNames
  differ : ∀ i j t, Chosen g.depNames i t → ¬ Chosen g.indepNames j t
  scalars : g.base.tmpArray = false → ∀ k, g.base.tmp ++ digits k ∉ arrays g ∧ ¬ Own g (g.base.tmp ++ digits k)

/-- C74. An independent variable without own name is written as the element of the array, and at the position there, at
which it was registered; the arrays are the arguments of the function, in the order of registration. The methods for the
array and for the position in it tell the same. -/
theorem independent_place (g : Gen) (hu : g.Uniform) (id : Nat) (hid : 1 ≤ id) (hn : ∀ t, ¬ Chosen g.indepNames (id - 1) t) :
    g.layout.map (·.1) = g.arguments ∧
    ∃ a k, At g.layout id a k ∧ g.indepName id = element g.base.style a k ∧ g.arrayName id = a ∧ g.arrayIndex id = k :=
  ⟨layout_names g, _, _, indep_at g id hid, (indep_text g hu id hid).2 hn, rfl, rfl⟩

/-- C74. Names given by the user are used. -/
theorem own_names (g : Gen) (hu : g.Uniform) :
    (∀ id t, 1 ≤ id → Chosen g.indepNames (id - 1) t → g.indepName id = t) ∧
    ∀ i t, Chosen g.depNames i t → g.depName i = t :=
  ⟨fun id t hid ht => (indep_text g hu id hid).1 t ht, fun i t ht => (dep_text g i).1 t ht⟩

/-- C74. A dependent variable without own name is the element of the array of dependents with its index. -/
theorem dependent_place (g : Gen) (i : Nat) (hn : ∀ t, ¬ Chosen g.depNames i t) :
    g.depName i = element g.base.style g.base.dep i := (dep_text g i).2 hn

/-- C74. Temporaries in an array: the text is the element at the position told by `getTemporaryVarArrayIndex`, the
position is in the declared array, and variables said to be consecutive are. -/
theorem temporary_place (g : Gen) (ht : g.base.tmpArray = true) (maxTmp id : Nat) (h1 : g.base.minTmp ≤ id) (h2 : id ≤ maxTmp) :
    g.tmpName id = element g.base.style g.base.tmp (g.tmpIndex id) ∧
    g.tmpIndex id < declaredTmps g.base.minTmp maxTmp ∧
    ∀ id', g.base.minTmp ≤ id' → (g.consecutiveTmp id id' = true ↔ g.tmpIndex id' = g.tmpIndex id + 1) := by
  refine ⟨?_, ?_, ?_⟩
  · simp only [Gen.tmpName, ht, if_true]; exact withIndex_eq _ _ _
  · simp only [Gen.tmpIndex, declaredTmps]; omega
  · intro id' h'
    simp only [Gen.tmpIndex, Gen.consecutiveTmp, beq_iff_eq]; omega

/-- C74. Different variables have different names. -/
theorem names_differ (g : Gen) (hu : g.Uniform) (hp : Proper g) (v w : Var) (hv : v.Valid g) (hw : w.Valid g)
    (h : v.text g = w.text g) : v = w := by
  have key : ∀ v : Var, v.Valid g → ∃ κ : Key, κ.text g.base = v.text g ∧ κ.Ok g.base (arrays g) (Own g) ∧
      match v with
      | .indep id => (∃ t, Chosen g.indepNames (id - 1) t ∧ κ = .own t) ∨ κ = .el (g.arrayName id) (g.arrayIndex id)
      | .dep i => (∃ t, Chosen g.depNames i t ∧ κ = .own t) ∨ κ = .el g.base.dep i
      | .tmp id => κ = .el g.base.tmp (id - g.base.minTmp) ∨ κ = .sc id
      | .arr id => κ = .amp g.base.arr (id - 1)
      | .sarr id => κ = .amp g.base.sarr (id - 1) := by
    intro v hv
    cases v with
    | indep id =>
      by_cases hc : ∃ t, Chosen g.indepNames (id - 1) t
      · obtain ⟨t, ht⟩ := hc
        exact ⟨.own t, ((indep_text g hu id hv).1 t ht).symm, ⟨id - 1, .inr ht⟩, .inl ⟨t, ht, rfl⟩⟩
      · refine ⟨.el (g.arrayName id) (g.arrayIndex id),
          ((indep_text g hu id hv).2 fun t ht => hc ⟨t, ht⟩).symm, ?_, .inr rfl⟩
        have := (indep_at g id hv).mem
        rw [layout_names] at this
        exact List.mem_append.mpr (.inr this)
    | dep i =>
      by_cases hc : ∃ t, Chosen g.depNames i t
      · obtain ⟨t, ht⟩ := hc
        exact ⟨.own t, ((dep_text g i).1 t ht).symm, ⟨i, .inl ht⟩, .inl ⟨t, ht, rfl⟩⟩
      · exact ⟨.el g.base.dep i, ((dep_text g i).2 fun t ht => hc ⟨t, ht⟩).symm,
          show g.base.dep ∈ arrays g by simp [arrays], .inr rfl⟩
    | tmp id =>
      cases ht : g.base.tmpArray with
      | true =>
        refine ⟨.el g.base.tmp (id - g.base.minTmp), ?_, show g.base.tmp ∈ arrays g by simp [arrays], .inl rfl⟩
        simp only [Var.text, Gen.tmpName, ht, if_true, Key.text, withIndex_eq]
      | false =>
        refine ⟨.sc id, ?_, ht, .inr rfl⟩
        simp only [Var.text, Gen.tmpName, ht, Key.text, withIndex_eq, Bool.false_eq_true, if_false]
        cases g.base.style <;> rfl
    | arr id =>
      refine ⟨.amp g.base.arr (id - 1), ?_, show g.base.arr ∈ arrays g by simp [arrays], rfl⟩
      simp only [Var.text, Gen.arrName, Key.text, withIndex_eq]
      cases g.base.style <;> rfl
    | sarr id =>
      refine ⟨.amp g.base.sarr (id - 1), ?_, show g.base.sarr ∈ arrays g by simp [arrays], rfl⟩
      simp only [Var.text, Gen.sarrName, Key.text, withIndex_eq]
      cases g.base.style <;> rfl
  obtain ⟨κ, k1, k2, k3⟩ := key v hv
  obtain ⟨κ', k1', k2', k3'⟩ := key w hw
  have hk : κ = κ' := Key.inj (show g.base.tmp ∈ arrays g by simp [arrays]) hp.sep hp.own hp.scalars k2 k2'
    (by rw [k1, k1', h])
  subst hk
  have nd := hp.nodup
  unfold arrays at nd
  obtain ⟨nd1, nd2, nd3⟩ := List.nodup_append.mp nd
  have inArgs : ∀ id, 1 ≤ id → g.arrayName id ∈ g.arguments := fun id h => by
    have := (indep_at g id h).mem
    rwa [layout_names] at this
  have ndDep : ∀ id, 1 ≤ id → g.base.dep ≠ g.arrayName id := fun id h => nd3 _ (by simp) _ (inArgs id h)
  have ndTmp : ∀ id, 1 ≤ id → g.base.tmp ≠ g.arrayName id := fun id h => nd3 _ (by simp) _ (inArgs id h)
  simp only [List.nodup_cons, List.mem_cons, List.not_mem_nil, not_or, or_false] at nd1
  cases v <;> cases w <;> simp only [Var.Valid] at hv hw <;> simp only at k3 k3'
  case indep.indep i j =>
    rcases k3 with ⟨t, ht, rfl⟩ | rfl <;> rcases k3' with ⟨u, hu', e⟩ | e
    · cases e
      have := hp.indeps.2 _ _ _ ht hu'
      congr 1; omega
    · cases e
    · cases e
    · have e1 := Key.el.inj e
      have a1 := indep_at g i hv
      have a2 := indep_at g j hw
      rw [← e1.1, ← e1.2] at a2
      have nl : (g.layout.map (·.1)).Nodup := by rw [layout_names]; exact nd2
      rw [At.inj nl a1 a2]
  case indep.dep i j =>
    rcases k3 with ⟨t, ht, rfl⟩ | rfl <;> rcases k3' with ⟨u, hu', e⟩ | e <;>
      simp only [Key.own.injEq, Key.el.injEq, reduceCtorEq] at e
    · exact absurd (e ▸ ht) (hp.differ _ _ _ hu')
    · exact absurd e.1.symm (ndDep i hv)
  case dep.indep i j =>
    rcases k3 with ⟨t, ht, rfl⟩ | rfl <;> rcases k3' with ⟨u, hu', e⟩ | e <;>
      simp only [Key.own.injEq, Key.el.injEq, reduceCtorEq] at e
    · exact absurd (e ▸ hu') (hp.differ _ _ _ ht)
    · exact absurd e.1 (ndDep j hw)
  case dep.dep i j =>
    rcases k3 with ⟨t, ht, rfl⟩ | rfl <;> rcases k3' with ⟨u, hu', e⟩ | e <;>
      simp only [Key.own.injEq, Key.el.injEq, reduceCtorEq] at e
    · subst e; rw [hp.deps.2 i j t ht hu']
    · rw [e.2]
  case tmp.tmp i j =>
    rcases k3 with rfl | rfl <;> rcases k3' with e | e <;> simp only [Key.el.injEq, Key.sc.injEq, reduceCtorEq] at e
    · congr 1; omega
    · rw [e]
  case tmp.indep i j =>
    rcases k3 with rfl | rfl <;> rcases k3' with ⟨u, hu', e⟩ | e <;> simp only [Key.el.injEq, reduceCtorEq] at e
    exact absurd e.1 (ndTmp j hw)
  case indep.tmp i j =>
    rcases k3' with rfl | rfl <;> rcases k3 with ⟨u, hu', e⟩ | e <;> simp only [Key.el.injEq, reduceCtorEq] at e
    exact absurd e.1 (ndTmp i hv)
  case tmp.dep i j =>
    rcases k3 with rfl | rfl <;> rcases k3' with ⟨u, hu', e⟩ | e <;> simp only [Key.el.injEq, reduceCtorEq] at e
    exact absurd e.1.symm nd1.1.1
  case dep.tmp i j =>
    rcases k3' with rfl | rfl <;> rcases k3 with ⟨u, hu', e⟩ | e <;> simp only [Key.el.injEq, reduceCtorEq] at e
    exact absurd e.1.symm nd1.1.1
  case arr.arr i j =>
    subst k3; simp only [Key.amp.injEq, true_and] at k3'; congr 1; omega
  case sarr.sarr i j =>
    subst k3; simp only [Key.amp.injEq, true_and] at k3'; congr 1; omega
  case arr.sarr i j =>
    subst k3; simp only [Key.amp.injEq] at k3'; exact absurd k3'.1 nd1.2.2.1
  case sarr.arr i j =>
    subst k3; simp only [Key.amp.injEq] at k3'; exact absurd k3'.1.symm nd1.2.2.1
  all_goals
    first
    | (subst k3; rcases k3' with ⟨u, hu', e⟩ | e <;> exact absurd e (by simp))
    | (subst k3; rcases k3' with e | e <;> exact absurd e (by simp))
    | (subst k3'; rcases k3 with ⟨u, hu', e⟩ | e <;> exact absurd e (by simp))
    | (subst k3'; rcases k3 with e | e <;> exact absurd e (by simp))

/-- C74. Variables said to be consecutive have no own names and are neighbours in the same array. -/
theorem consecutive_right (g : Gen) (i j : Nat) (hi : 1 ≤ i) (hj : 1 ≤ j) (h : g.consecutive i j = some true) :
    (∀ t, ¬ Chosen g.indepNames (i - 1) t) ∧ (∀ t, ¬ Chosen g.indepNames (j - 1) t) ∧
    ∃ a k, At g.layout i a k ∧ At g.layout j a (k + 1) := by
  obtain ⟨_, h2, h3, h4, h5⟩ := consecutive_true g i j hi hj h
  refine ⟨h4, h5, _, _, indep_at g i hi, ?_⟩
  have := indep_at g j hj
  rwa [h2, h3] at this

/-- C74. The loop which fills an array from a run of variables said to be consecutive, `array[i] = name[offset + i]` with
name and position of the first one (language_c_arrays.hpp l.136-160), reads in each round the variable of that place. -/
theorem run_right (g : Gen) (hu : g.Uniform) (id : Nat → Nat) (len : Nat) (h2 : 2 ≤ len) (hid : ∀ e, e < len → 1 ≤ id e)
    (h : ∀ e, e + 1 < len → g.consecutive (id e) (id (e + 1)) = some true) (e : Nat) (he : e < len) :
    g.indepName (id e) = element g.base.style (g.arrayName (id 0)) (g.arrayIndex (id 0) + e) := by
  have key : ∀ e, e < len → g.arrayName (id e) = g.arrayName (id 0) ∧ g.arrayIndex (id e) = g.arrayIndex (id 0) + e ∧
      ∀ t, ¬ Chosen g.indepNames (id e - 1) t := by
    intro e
    induction e with
    | zero =>
      intro _
      exact ⟨rfl, rfl, (consecutive_true g _ _ (hid 0 (by omega)) (hid 1 (by omega)) (h 0 (by omega))).2.2.2.1⟩
    | succ e ih =>
      intro he
      obtain ⟨i1, i2, _⟩ := ih (by omega)
      obtain ⟨_, c1, c2, _, c3⟩ := consecutive_true g _ _ (hid e (by omega)) (hid (e + 1) he) (h e he)
      exact ⟨c1.trans i1, by omega, c3⟩
  obtain ⟨k1, k2, k3⟩ := key e he
  rw [(indep_text g hu _ (hid e he)).2 k3, k1, k2]

/-- C74. Neighbours in an array, without own names, are never said not to be consecutive. -/
theorem consecutive_complete (g : Gen) (hL : (g.layout.map (·.1)).Nodup) (i j : Nat) (hi : 1 ≤ i) (hj : 1 ≤ j)
    (hni : ∀ t, ¬ Chosen g.indepNames (i - 1) t) (hnj : ∀ t, ¬ Chosen g.indepNames (j - 1) t)
    (a : Txt) (k : Nat) (ai : At g.layout i a k) (aj : At g.layout j a (k + 1)) : g.consecutive i j ≠ some false := by
  intro h
  obtain ⟨p, s, x, e, x1, x2, x3⟩ := ai
  obtain ⟨p', s', x', e', x1', x2', x3'⟩ := aj
  obtain ⟨e1, e2, e3⟩ := split_nodup (L := g.layout) hL e e'
  rw [e2] at x3'
  exact consecutive_false g i j hi hj h hni hnj p s a x e x1 (by omega) x3 x3' (by omega)

/-- C74, missing: the condition for a generator with names given by the user. Whether variables are consecutive is
determined, except for the variable right behind those with names given by the user. -/
theorem consecutive_defined_partial (g : Gen) (i j : Nat)
    (h : ∀ b ds xs, g.inner = .custom b ds xs → i ≠ xs.length + 1 ∧ j ≠ xs.length + 1) : (g.consecutive i j).isSome :=
  consecutive_isSome g i j h

/-- the array of an independent variable, or of one whose index depends on a loop -/
def arrayOf (g : Gen) : Ref → Txt
  | .inv id => g.arrayName id
  | .loop l _ => g.loopArray l

/-- the level of a variable in a loop is that of an argument -/
def Ref.Valid (g : Gen) : Ref → Prop
  | .inv id => 1 ≤ id
  | .loop l _ => l < g.arguments.length

/-- C74, missing: names given by the user and wrappers of wrappers. Without them two variables are said to be in the same
array if and only if they are; this holds for independent variables and for those whose index depends on a loop. -/
theorem same_array_partial (g : Gen) (hL : g.arguments.Nodup)
    (hg : (∃ b, g = .plain b) ∨ (∃ b n m, g = .hess (.plain b) n m) ∨ ∃ b n n1 m1 m2, g = .rev2 (.plain b) n n1 m1 m2)
    (r s : Ref) (hr : r.Valid g) (hs : s.Valid g) : g.sameArray r s = some (decide (arrayOf g r = arrayOf g s)) := by
  rcases hg with ⟨b, rfl⟩ | ⟨b, n, m, rfl⟩ | ⟨b, n, n1, m1, m2, rfl⟩
  · cases r <;> cases s <;> simp [Gen.sameArray, arrayOf, Gen.arrayName, Gen.loopArray]
  · simp only [Gen.arguments, List.cons_append, List.nil_append, List.nodup_cons, List.mem_cons, List.not_mem_nil,
      or_false] at hL
    have hne : b.indep ≠ m := hL.1
    have lev : ∀ r : Ref, r.Valid (.hess (.plain b) n m) →
        (r.level [n + 1] = 0 ∧ arrayOf (.hess (.plain b) n m) r = b.indep) ∨
        (r.level [n + 1] = 1 ∧ arrayOf (.hess (.plain b) n m) r = m) := by
      intro r hr
      cases r with
      | inv id =>
        by_cases h : id < n + 1
        · left; simp [Ref.level, arrayOf, Gen.arrayName, h, List.takeWhile]
          have : ¬ n + 1 ≤ id := by omega
          simp [this]
        · right
          have : n + 1 ≤ id := by omega
          simp [Ref.level, arrayOf, Gen.arrayName, h, List.takeWhile, this]
      | loop l id =>
        simp only [Ref.Valid, Gen.arguments, List.length_append, List.length_cons, List.length_nil] at hr
        have : l = 0 ∨ l = 1 := by omega
        rcases this with rfl | rfl
        · left; simp [Ref.level, arrayOf, Gen.loopArray]
        · right; simp [Ref.level, arrayOf, Gen.loopArray]
    simp only [Gen.sameArray]
    rcases lev r hr with ⟨e1, e2⟩ | ⟨e1, e2⟩ <;> rcases lev s hs with ⟨e3, e4⟩ | ⟨e3, e4⟩ <;>
      simp [e1, e2, e3, e4, hne, hne.symm]
  · simp only [Gen.arguments, List.cons_append, List.nil_append, List.nodup_cons, List.mem_cons, List.not_mem_nil,
      or_false, not_or] at hL
    have hne1 : b.indep ≠ m1 := hL.1.1
    have hne2 : b.indep ≠ m2 := hL.1.2
    have hne3 : m1 ≠ m2 := hL.2.1
    have lev : ∀ r : Ref, r.Valid (.rev2 (.plain b) n n1 m1 m2) →
        (r.level [n + 1, n + 1 + n1] = 0 ∧ arrayOf (.rev2 (.plain b) n n1 m1 m2) r = b.indep) ∨
        (r.level [n + 1, n + 1 + n1] = 1 ∧ arrayOf (.rev2 (.plain b) n n1 m1 m2) r = m1) ∨
        (r.level [n + 1, n + 1 + n1] = 2 ∧ arrayOf (.rev2 (.plain b) n n1 m1 m2) r = m2) := by
      intro r hr
      cases r with
      | inv id =>
        by_cases h : id < n + 1
        · left
          have : ¬ n + 1 ≤ id := by omega
          simp [Ref.level, arrayOf, Gen.arrayName, h, List.takeWhile, this]
        · right
          have h1 : n + 1 ≤ id := by omega
          by_cases h2 : id < n + 1 + n1
          · left
            have : ¬ n + 1 + n1 ≤ id := by omega
            simp [Ref.level, arrayOf, Gen.arrayName, h, h1, h2, List.takeWhile, this]
          · right
            have : n + 1 + n1 ≤ id := by omega
            simp [Ref.level, arrayOf, Gen.arrayName, h, h1, h2, List.takeWhile, this]
      | loop l id =>
        simp only [Ref.Valid, Gen.arguments, List.length_append, List.length_cons, List.length_nil] at hr
        have : l = 0 ∨ l = 1 ∨ l = 2 := by omega
        rcases this with rfl | rfl | rfl
        · left; simp [Ref.level, arrayOf, Gen.loopArray]
        · right; left; simp [Ref.level, arrayOf, Gen.loopArray]
        · right; right; simp [Ref.level, arrayOf, Gen.loopArray]
    simp only [Gen.sameArray]
    rcases lev r hr with ⟨e1, e2⟩ | ⟨e1, e2⟩ | ⟨e1, e2⟩ <;> rcases lev s hs with ⟨e3, e4⟩ | ⟨e3, e4⟩ | ⟨e3, e4⟩ <;>
      simp [e1, e2, e3, e4, hne1, hne1.symm, hne2, hne2.symm, hne3, hne3.symm]

/-- C74. With names given by the user two independent variables are said to be in the same array only if neither has an
own name, and whenever neither has one and the test is defined. -/
theorem same_array_own_names (b : Names) (ys xs : List Txt) (i j : Nat) (hi : 1 ≤ i) (hj : 1 ≤ j) :
    ((Gen.custom b ys xs).sameArray (.inv i) (.inv j) = some true →
      ∀ t, ¬ Chosen xs (i - 1) t ∧ ¬ Chosen xs (j - 1) t) ∧
    (i - 1 ≠ xs.length → j - 1 ≠ xs.length → (∀ t, ¬ Chosen xs (i - 1) t ∧ ¬ Chosen xs (j - 1) t) →
      (Gen.custom b ys xs).sameArray (.inv i) (.inv j) = some true) := by
  have one : ∀ i, 1 ≤ i → unnamed xs i = some true → ∀ t, ¬ Chosen xs (i - 1) t := by
    intro i hi h t ⟨h1, h2⟩
    have hlt := (List.getElem?_eq_some_iff.mp h1).1
    unfold unnamed at h
    rw [if_neg (by omega), h1] at h
    simp only [Option.some.injEq, List.isEmpty_iff] at h
    exact h2 h
  have two : ∀ i, 1 ≤ i → i - 1 ≠ xs.length → (∀ t, ¬ Chosen xs (i - 1) t) → unnamed xs i = some true := by
    intro i hi hne h
    unfold unnamed
    split
    · rfl
    · rename_i hlt
      have hl : i - 1 < xs.length := by omega
      rw [List.getElem?_eq_getElem hl]
      simp only [Option.some.injEq, List.isEmpty_iff]
      by_cases he : xs[i - 1] = []
      · exact he
      · exact absurd ⟨List.getElem?_eq_getElem hl, he⟩ (h _)
  refine ⟨fun h t => ?_, fun h1 h2 h => ?_⟩
  · simp only [Gen.sameArray, Ref.id, both] at h
    split at h
    · cases h
    · cases h
    · rename_i e
      exact ⟨one i hi e t, one j hj h t⟩
  · simp only [Gen.sameArray, Ref.id, both]
    rw [two i hi h1 fun t => (h t).1]
    exact two j hj h2 fun t => (h t).2

/-! ### cases -/

def txt (s : String) : Txt := s.toList

/-- the default names for C -/
def cNames (dep : String) : Names := ⟨.c, txt dep, txt "x", txt "v", txt "array", txt "sarray", true, 5⟩

/-- the generator of `generateSparseReverseTwoSourcesNoAtomics` for two variables and one direction -/
def reverseTwo : Gen := .rev2 (.plain (cNames "px")) 2 1 (txt "tx1") (txt "py2")

/-- own names for the first variable and the second equation -/
def customGen : Gen := .hess (.custom (cNames "y") [[], txt "flow"] [txt "mass", [], []]) 4 (txt "mult")

/-- LaTeX -/
def latexGen : Gen := .plain ⟨.latex, txt "y", txt "x", txt "v", txt "\\mathbf{a}", txt "\\mathbf{s}", true, 4⟩

example : reverseTwo.arguments = [txt "x", txt "tx1", txt "py2"] := by decide +kernel
example : (List.range 5).map (fun i => reverseTwo.indepName (i + 1)) =
    [txt "x[0]", txt "x[1]", txt "tx1[0]", txt "py2[0]", txt "py2[1]"] := by decide +kernel
example : reverseTwo.consecutive 1 2 = some true ∧ reverseTwo.consecutive 2 3 = some false ∧
    reverseTwo.consecutive 3 4 = some false ∧ reverseTwo.consecutive 4 5 = some true := by decide
example : reverseTwo.sameArray (.inv 4) (.loop 2 0) = some true ∧ reverseTwo.sameArray (.inv 3) (.loop 2 0) = some false := by
  decide
example : customGen.indepName 1 = txt "mass" ∧ customGen.indepName 2 = txt "x[1]" ∧ customGen.indepName 5 = txt "mult[0]" ∧
    customGen.depName 1 = txt "flow" ∧ customGen.depName 2 = txt "y[2]" ∧ customGen.tmpName 7 = txt "v[2]" := by decide +kernel
example : (List.range 2).map (fun e => customGen.indepName (2 + e)) =
    (List.range 2).map (fun e => element .c (customGen.arrayName 2) (customGen.arrayIndex 2 + e)) := by decide +kernel
example : (Gen.custom (cNames "y") [] [txt "mass", []]).sameArray (.inv 1) (.inv 2) = some false ∧
    (Gen.custom (cNames "y") [] [txt "mass", []]).sameArray (.inv 2) (.inv 4) = some true := by decide
example : customGen.consecutive 2 3 = some true ∧ customGen.consecutive 1 2 = some false := by decide
example : latexGen.indepName 3 = txt "x_2" ∧ latexGen.indepName 12 = txt "x_{11}" := by decide +kernel
example : reverseTwo.Uniform ∧ customGen.Uniform ∧ latexGen.Uniform := by simp [Gen.Uniform, reverseTwo, customGen, latexGen, Gen.base, cNames]
example : At reverseTwo.layout 5 (txt "py2") 1 := ⟨[(txt "x", 1), (txt "tx1", 3)], [], 4, rfl, by decide, rfl, by simp⟩

theorem proper_reverseTwo : Proper reverseTwo := by
  have hd : ∀ i t, ¬ Chosen reverseTwo.depNames i t := by intro i t h; simp [reverseTwo, Gen.depNames, Chosen] at h
  have hi : ∀ i t, ¬ Chosen reverseTwo.indepNames i t := by intro i t h; simp [reverseTwo, Gen.indepNames, Chosen] at h
  refine ⟨by decide +kernel, by decide +kernel, ?_, ⟨?_, ?_⟩, ⟨?_, ?_⟩, ?_, ?_⟩
  · rintro t ⟨i, h | h⟩
    · exact absurd h (hd i t)
    · exact absurd h (hi i t)
  · exact fun i t h => absurd h (hd i t)
  · exact fun i j t h => absurd h (hd i t)
  · exact fun i t h => absurd h (hi i t)
  · exact fun i j t h => absurd h (hi i t)
  · exact fun i j t h => absurd h (hd i t)
  · intro h; simp [reverseTwo, Gen.base, cNames] at h

example : (Var.indep 3).text reverseTwo ≠ (Var.tmp 5).text reverseTwo := fun h => by
  have := names_differ reverseTwo (by simp [Gen.Uniform, reverseTwo, Gen.base, cNames]) proper_reverseTwo (.indep 3) (.tmp 5)
    (by show 1 ≤ 3; decide) (by show 5 ≤ 5; decide) h
  cases this

/-! ### where the claim fails -/

/-- C74, failure. With one name given by the user, the question whether the second and the third variable are consecutive
reads an element behind the end of the names (`index > size` instead of `index >= size`). -/
theorem own_names_undefined_counterexample :
    ∃ g : Gen, g.Uniform ∧ (∀ t, ¬ Chosen g.indepNames (2 - 1) t) ∧ (∀ t, ¬ Chosen g.indepNames (3 - 1) t) ∧
      At g.layout 2 (txt "x") 1 ∧ At g.layout 3 (txt "x") 2 ∧ g.consecutive 2 3 = none := by
  refine ⟨.custom (cNames "y") [] [txt "mass"], trivial, ?_, ?_, ⟨[], [], 1, rfl, by decide, rfl, by simp⟩,
    ⟨[], [], 1, rfl, by decide, rfl, by simp⟩, by decide⟩
  · rintro t ⟨h, _⟩; simp [Gen.indepNames] at h
  · rintro t ⟨h, _⟩; simp [Gen.indepNames] at h

/-- C74, failure. The wrapper for multipliers does not ask the generator it wraps: a variable with an own name is said to
be in the same array as another one. -/
theorem same_array_counterexample :
    ∃ (g : Gen) (t : Txt), g.Uniform ∧ Chosen g.indepNames (1 - 1) t ∧ g.indepName 1 = t ∧ '[' ∉ t ∧
      g.sameArray (.inv 1) (.inv 2) = some true := by
  exact ⟨customGen, txt "mass", by simp [Gen.Uniform, customGen, Gen.base, cNames], ⟨by rfl, by decide⟩, by decide +kernel,
    by decide +kernel, by decide⟩

/-- C74, failure. When temporaries are not in an array (possible for generators derived from the given ones, which set
`array` of the first argument for temporaries) they are still said to be consecutive elements of one. -/
theorem scalar_temporaries_counterexample :
    ∃ g : Gen, g.consecutiveTmp 5 6 = true ∧ g.tmpName 5 ≠ element .c g.base.tmp (g.tmpIndex 5) ∧ g.tmpName 5 = txt "v5" :=
  ⟨.plain { cNames "y" with tmpArray := false }, by decide, by decide +kernel, by decide +kernel⟩

end Verif.Names
