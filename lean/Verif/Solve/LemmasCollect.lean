import Verif.Solve.LemmasClone
/- `collectVariableAddSub`: the value of the rewritten sub-expression. -/
namespace Verif.Solve
open Verif.Codegen Verif.Cg Verif.Paths Verif.Eval

/-- `n` adds or subtracts two arguments, from each of which one route leads to `l` -/
structure Fork {α : Type} (G : Graph α) (n l : Nat) (is js : List Nat) : Prop where
  op : (G n).op = .add ∨ (G n).op = .sub
  left : ∀ r, Route G n (0 :: r) l ↔ r = is
  right : ∀ r, Route G n (1 :: r) l ↔ r = js

section
variable {α : Type} {G : Graph α} {n l : Nat} {is js : List Nat}

theorem no_cycle {rank : Nat → Nat} (hr : Ranked G rank) {n : Nat} {r : List Nat} (h : Route G n r n) : r = [] := by
  have := route_rank hr h
  exact List.length_eq_zero_iff.mp (by omega)

theorem Fork.cases (F : Fork G n l is js) (hs : ShapedG G) {rank : Nat → Nat} (hr : Ranked G rank) {s : List Nat}
    (h : Route G n s l) : s = 0 :: is ∨ s = 1 :: js := by
  match s with
  | [] =>
    rw [route_nil] at h
    subst h
    have := no_cycle hr ((F.left is).mpr rfl)
    cases this
  | 0 :: r => left; rw [(F.left r).mp h]
  | 1 :: r => right; rw [(F.right r).mp h]
  | (i + 2) :: r =>
    exfalso
    obtain ⟨m, hi, _⟩ := route_cons.mp h
    have h1 := hs n
    unfold Shaped at h1
    have h2 := (List.getElem?_eq_some_iff.mp hi).1
    rw [h1] at h2
    rcases F.op with h3 | h3 <;> rw [h3] at h2 <;> simp only [arity] at h2 <;> omega

theorem Fork.reaches (F : Fork G n l is js) : Reaches G n l := ⟨_, (F.left is).mpr rfl⟩

theorem Fork.below (F : Fork G n l is js) {m : Nat} {pre suf : List Nat}
    (hpre : Route G n pre m) (hne : pre ≠ []) (hsuf : Route G m suf l)
    (hn : ∀ i, (i :: (pre.tail ++ suf)) = pre ++ suf → i = 0 ∨ i = 1) :
    ∀ r, Route G m r l → r = suf := by
  intro r hrr
  match pre, hne with
  | i :: pre, _ =>
    have h1 : Route G n (i :: (pre ++ suf)) l := route_append.mpr ⟨m, hpre, hsuf⟩
    have h2 : Route G n (i :: (pre ++ r)) l := route_append.mpr ⟨m, hpre, hrr⟩
    rcases hn i rfl with rfl | rfl
    · have e1 := (F.left _).mp h1
      have e2 := (F.left _).mp h2
      rw [← e1] at e2
      exact List.append_cancel_left e2
    · have e1 := (F.right _).mp h1
      have e2 := (F.right _).mp h2
      rw [← e1] at e2
      exact List.append_cancel_left e2

theorem Fork.only (F : Fork G n l is js) (hs : ShapedG G) {rank : Nat → Nat} (hr : Ranked G rank) {m : Nat}
    {pre suf : List Nat} (hpre : Route G n pre m) (hne : pre ≠ []) (hsuf : Route G m suf l) :
    ∀ r, Route G m r l → r = suf := by
  refine F.below hpre hne hsuf ?_
  intro i hi
  have := F.cases hs hr (route_append.mpr ⟨m, hpre, hsuf⟩)
  rw [← hi] at this
  rcases this with h | h
  · left; exact (List.cons.inj h).1
  · right; exact (List.cons.inj h).1

theorem collectable_suffix {v : Nat} : ∀ (pre : List Nat) (a m : Nat) (suf : List Nat), Route G a pre m →
    Route G m suf v → collectablePath G (stepsUp G a (pre ++ suf)) = true → collectablePath G (stepsUp G m suf) = true := by
  intro pre
  induction pre with
  | nil =>
    intro a m suf h h' hc
    rw [route_nil] at h
    subst h
    exact hc
  | cons j pre ih =>
    intro a m suf h h' hc
    obtain ⟨u, hu, h2⟩ := route_cons.mp h
    rw [List.cons_append, stepsUp_cons hu, collectablePath_cons (stepsUp_ne (route_append.mpr ⟨m, h2, h'⟩)),
      Bool.and_eq_true] at hc
    exact ih u m suf h2 h' hc.2

end

theorem div_suffix {G : Graph ℝ} {val : Nat → ℝ} : ∀ (pre : List Nat) (a m : Nat) (suf : List Nat), Route G a pre m →
    Divisible G val a (pre ++ suf) → Divisible G val m suf := by
  intro pre
  induction pre with
  | nil =>
    intro a m suf h hc
    rw [route_nil] at h
    subst h
    exact hc
  | cons j pre ih =>
    intro a m suf h hc
    obtain ⟨u, hu, h2⟩ := route_cons.mp h
    rw [List.cons_append] at hc
    simp only [Divisible, hu] at hc
    exact ih u m suf h2 hc.2

open Classical in
/-- the coefficient of `l` in the value of `m` -/
noncomputable def tilt (G : Graph ℝ) (val : Nat → ℝ) (n l : Nat) (is js : List Nat) (m : Nat) : ℝ :=
  if m = n then coefficient G val n (0 :: is) + coefficient G val n (1 :: js)
  else if h : ∃ r, Route G m r l then coefficient G val m h.choose else 0

/-- the value of `m` without the part due to `l` -/
noncomputable def rest (G : Graph ℝ) (val : Nat → ℝ) (n l : Nat) (is js : List Nat) (m : Nat) : ℝ :=
  val m - tilt G val n l is js m * val l

section
variable {w : World ℝ} {n l : Nat} {is js : List Nat} {val : Nat → ℝ}

theorem tilt_below {rank : Nat → Nat} (F : Fork w.graph n l is js) (hs : ShapedG w.graph) (hr : Ranked w.graph rank)
    {m : Nat} {pre suf : List Nat} (hpre : Route w.graph n pre m) (hne : pre ≠ []) (hsuf : Route w.graph m suf l) :
    tilt w.graph val n l is js m = coefficient w.graph val m suf := by
  have hmn : m ≠ n := by
    rintro rfl
    exact hne (no_cycle hr hpre)
  have hex : ∃ r, Route w.graph m r l := ⟨suf, hsuf⟩
  unfold tilt
  rw [if_neg hmn, dif_pos hex, F.only hs hr hpre hne hsuf _ hex.choose_spec]

theorem tilt_off (F : Fork w.graph n l is js) {m : Nat} (h : ¬ Reaches w.graph m l) :
    tilt w.graph val n l is js m = 0 := by
  have h' : ¬ ∃ r, Route w.graph m r l := h
  unfold tilt
  rw [if_neg (by rintro rfl; exact h F.reaches), dif_neg h']

theorem rest_off (F : Fork w.graph n l is js) {m : Nat} (h : ¬ Reaches w.graph m l) :
    rest w.graph val n l is js m = val m := by
  unfold rest
  rw [tilt_off F h]; ring

theorem rest_step {I : Interp ℝ} (R : RealI I) {rank : Nat → Nat} (F : Fork w.graph n l is js) (hs : ShapedG w.graph)
    (hr : Ranked w.graph rank) {x : Nat → ℝ} (hv : w.Val I x val) {m i m' : Nat} {pre s : List Nat}
    (hpre : Route w.graph n pre m) (hne : pre ≠ []) (hi : (w.graph m).args[i]? = some (.node m'))
    (hsuf : Route w.graph m' s l) (hcol : collectable (w.graph m) (some i) = true)
    (hdiv : (w.graph m).op = .div → ((w.graph m).args.map (argVal val)).getD 1 0 ≠ 0) :
    (w.graph m).args.map (argVal (rest w.graph val n l is js)) =
      ((w.graph m).args.map (argVal val)).set i (rest w.graph val n l is js m') ∧
    opSem I (w.graph m).op ((w.graph m).args.map (argVal (rest w.graph val n l is js))) =
      some (rest w.graph val n l is js m) := by
  have hms : Route w.graph m (i :: s) l := route_cons.mpr ⟨m', hi, hsuf⟩
  have hlt := (List.getElem?_eq_some_iff.mp hi).1
  have hset : (w.graph m).args.map (argVal (rest w.graph val n l is js)) =
      ((w.graph m).args.map (argVal val)).set i (rest w.graph val n l is js m') := by
    apply List.ext_getElem?
    intro j
    rw [List.getElem?_set, List.length_map, List.getElem?_map]
    by_cases hj : i = j
    · subst hj
      rw [if_pos rfl, if_pos hlt, hi]; rfl
    · rw [if_neg hj, List.getElem?_map]
      cases ha : (w.graph m).args[j]? with
      | none => rfl
      | some a =>
        cases a with
        | param c => rfl
        | node u =>
          have : ¬ Reaches w.graph u l := by
            rintro ⟨r, hr'⟩
            have := F.only hs hr hpre hne hms (j :: r) (route_cons.mpr ⟨u, ha, hr'⟩)
            exact hj (List.cons.inj this).1.symm
          simp only [Option.map_some, argVal, rest_off F this]
  refine ⟨hset, ?_⟩
  rw [hset]
  have hget : ((w.graph m).args.map (argVal val)).getD i 0 = val m' := by
    rw [List.getD_eq_getElem?_getD, List.getElem?_map, hi]; rfl
  have haff := step_affine R (hs m) hlt hcol (vs := (w.graph m).args.map (argVal val)) (List.length_map _) hdiv
    (val_node hv hs hi) (tilt w.graph val n l is js m' * val l)
  rw [hget] at haff
  have e1 : rest w.graph val n l is js m' = val m' - tilt w.graph val n l is js m' * val l := rfl
  rw [e1, haff]
  congr 1
  have e2 : rest w.graph val n l is js m = val m - tilt w.graph val n l is js m * val l := rfl
  rw [e2, tilt_below F hs hr hpre hne hms,
    tilt_below F hs hr (route_append.mpr ⟨m, hpre, route_cons.mpr ⟨m', hi, route_nil.mpr rfl⟩⟩) (by simp) hsuf]
  simp only [coefficient, hi]
  ring

theorem rest_zero {I : Interp ℝ} (R : RealI I) {rank : Nat → Nat} (F : Fork w.graph n l is js) (hs : ShapedG w.graph)
    (hr : Ranked w.graph rank) {x : Nat → ℝ} (hv : w.Val I x val) :
    ∀ (suf pre : List Nat) (m : Nat), Route w.graph n pre m → pre ≠ [] → Route w.graph m suf l →
      collectablePath w.graph (stepsUp w.graph m suf) = true → Divisible w.graph val m suf →
      (replaced w.graph (stepsUp w.graph m suf)).headD false = true → rest w.graph val n l is js m = 0 := by
  intro suf
  induction suf with
  | nil =>
    intro pre m hpre hne hsuf _ _ _
    have e2 : rest w.graph val n l is js m = val m - tilt w.graph val n l is js m * val l := rfl
    rw [e2, tilt_below F hs hr hpre hne hsuf]
    rw [route_nil] at hsuf
    subst hsuf
    simp [coefficient]
  | cons i s ih =>
    intro pre m hpre hne hsuf hcol hdiv hrep
    obtain ⟨m', hi, h'⟩ := route_cons.mp hsuf
    rw [replaced_cons hi h', Bool.and_eq_true] at hrep
    rw [stepsUp_cons hi, collectablePath_cons (stepsUp_ne h'), Bool.and_eq_true] at hcol
    simp only [Divisible, hi] at hdiv
    have hz := ih (pre ++ [i]) m' (route_append.mpr ⟨m, hpre, route_cons.mpr ⟨m', hi, route_nil.mpr rfl⟩⟩) (by simp) h'
      hcol.2 hdiv.2 hrep.2
    obtain ⟨h1, h2⟩ := rest_step R F hs hr hv hpre hne hi h' hcol.1 hdiv.1
    rw [h1, hz, vanish_sem R (hs m) (List.getElem?_eq_some_iff.mp hi).1 hcol.1 hrep.1 (List.length_map _)] at h2
    exact (Option.some.inj h2).symm

/-- the denominators on both routes are not zero -/
def DivOk (G : Graph ℝ) (n : Nat) (is js : List Nat) (val : Nat → ℝ) : Prop :=
  Divisible G val n (0 :: is) ∧ Divisible G val n (1 :: js)

/-- what is met by the evaluator -/
theorem visit_fork {I : Interp ℝ} {ord : Op → List Nat} {rank : Nat → Nat} (F : Fork w.graph n l is js)
    (hs : ShapedG w.graph) (hr : Ranked w.graph rank) {hook : List (Nat × Nat) → Nat → Option (Cg ℝ)}
    (hh : hook = pathHook I (stepsUp w.graph n (0 :: is)) (stepsUp w.graph n (1 :: js))
      (replaced w.graph (stepsUp w.graph n (0 :: is))) (replaced w.graph (stepsUp w.graph n (1 :: js))))
    {path : List (Nat × Nat)} {m : Nat} (hvis : Visit (cloneSetup I w ord hook) [n] path m) :
    ∃ pre, Route w.graph n pre m ∧
      ((∃ suf, (0 :: is = pre ++ suf ∨ 1 :: js = pre ++ suf) ∧ Route w.graph m suf l ∧
        hook path m = if (replaced w.graph (stepsUp w.graph m suf)).headD false then some (.const I.zero) else none) ∨
      (¬ Reaches w.graph m l ∧ hook path m = some ⟨some m, none⟩)) := by
  obtain ⟨pre, hpre, hp⟩ := visit_route hvis
  change Route w.graph n pre m at hpre
  change _ = edgesUp w.graph n pre at hp
  refine ⟨pre, hpre, ?_⟩
  have hl := (F.left is).mpr rfl
  have hrr := (F.right js).mpr rfl
  have hlen : path.length = pre.length := by
    have := congrArg List.length hp
    rwa [List.length_map, edgesUp_length hpre] at this
  subst hh
  unfold pathHook
  by_cases h1 : isOnPath (stepsUp w.graph n (0 :: is)) path m = true
  · rw [if_pos h1]
    obtain ⟨suf, e⟩ := (onPath_iff hl hpre hp).mp h1
    rw [e] at hl
    obtain ⟨m', h2, h3⟩ := route_append.mp hl
    have := route_unique hpre h2
    subst this
    left
    refine ⟨suf, .inl e, h3, ?_⟩
    rw [e, hlen, replaced_append pre n m suf hpre h3]
  · rw [if_neg h1]
    by_cases h2 : isOnPath (stepsUp w.graph n (1 :: js)) path m = true
    · rw [if_pos h2]
      obtain ⟨suf, e⟩ := (onPath_iff hrr hpre hp).mp h2
      rw [e] at hrr
      obtain ⟨m', h3, h4⟩ := route_append.mp hrr
      have := route_unique hpre h3
      subst this
      left
      refine ⟨suf, .inr e, h4, ?_⟩
      rw [e, hlen, replaced_append pre n m suf hpre h4]
    · rw [if_neg h2]
      right
      refine ⟨?_, rfl⟩
      rintro ⟨suf, hsuf⟩
      rcases F.cases hs hr (route_append.mpr ⟨m, hpre, hsuf⟩) with h | h
      · exact h1 ((onPath_iff hl hpre hp).mpr ⟨suf, h.symm⟩)
      · exact h2 ((onPath_iff hrr hpre hp).mpr ⟨suf, h.symm⟩)

theorem reaches_lt {α : Type} {w : World α} (hc : Closed w) : ∀ (is : List Nat) (n m : Nat), n < w.nodes.length →
    Route w.graph n is m → m < w.nodes.length := by
  intro is
  induction is with
  | nil => intro n m hn h; rw [route_nil] at h; subst h; exact hn
  | cons i is ih =>
    intro n m _ h
    obtain ⟨u, hi, h'⟩ := route_cons.mp h
    exact ih u m (closed_kid hc hi) h'

theorem pathClone_means {I : Interp ℝ} (R : RealI I) {ord : Op → List Nat} (hord : ∀ op, (ord op).Perm (List.range (arity op)))
    {rank : Nat → Nat} (F : Fork w.graph n l is js) (hs : ShapedG w.graph) (hr : Ranked w.graph rank) (hc : Closed w)
    (hn : n < w.nodes.length) {a b : Nat} (ha : (w.graph n).args = [.node a, .node b])
    (hc1 : collectablePath w.graph (stepsUp w.graph a is) = true)
    (hc2 : collectablePath w.graph (stepsUp w.graph b js) = true) (x val : Nat → ℝ) :
    Means (cloneSetup I w ord (pathHook I (stepsUp w.graph n (0 :: is)) (stepsUp w.graph n (1 :: js))
      (replaced w.graph (stepsUp w.graph n (0 :: is))) (replaced w.graph (stepsUp w.graph n (1 :: js))))) I (VaC (some l))
      (fun s => s.Val I x val ∧ DivOk w.graph n is js val) (Good False val) (cgDom I) [n] rank w
      (rest w.graph val n l is js) := by
  have hia : (w.graph n).args[0]? = some (.node a) := by rw [ha]; rfl
  have hib : (w.graph n).args[1]? = some (.node b) := by rw [ha]; rfl
  have hnl : ∀ {p : List Nat}, Route w.graph n p n → p = [] := fun h => no_cycle hr h
  -- what is known about nodes on the routes
  have below : ∀ {m : Nat} {pre suf : List Nat}, Route w.graph n pre m → pre ≠ [] →
      (0 :: is = pre ++ suf ∨ 1 :: js = pre ++ suf) → Route w.graph m suf l →
      collectablePath w.graph (stepsUp w.graph m suf) = true ∧
      (DivOk w.graph n is js val → Divisible w.graph val m suf) := by
    intro m pre suf hpre hne he hsuf
    match pre, hne with
    | i :: pre, _ =>
      obtain ⟨u, hi, hu⟩ := route_cons.mp hpre
      rcases he with he | he
      · obtain ⟨rfl, rfl⟩ := List.cons.inj he
        rw [hia] at hi
        cases hi
        exact ⟨collectable_suffix pre a m suf hu hsuf hc1, fun h => div_suffix (0 :: pre) n m suf hpre h.1⟩
      · obtain ⟨rfl, rfl⟩ := List.cons.inj he
        rw [hib] at hi
        cases hi
        exact ⟨collectable_suffix pre b m suf hu hsuf hc2, fun h => div_suffix (1 :: pre) n m suf hpre h.2⟩
  have atRoot : ∀ {m : Nat} {suf : List Nat}, Route w.graph n [] m → (0 :: is = [] ++ suf ∨ 1 :: js = [] ++ suf) →
      (replaced w.graph (stepsUp w.graph m suf)).headD false = false := by
    intro m suf hm he
    rw [route_nil] at hm
    subst hm
    have hv : vanishes (w.graph n).op = false := by rcases F.op with h | h <;> rw [h] <;> rfl
    rcases he with he | he
    · rw [List.nil_append] at he
      subst he
      obtain ⟨u, hi, hu⟩ := route_cons.mp ((F.left is).mpr rfl)
      rw [replaced_cons hi hu, hv]; rfl
    · rw [List.nil_append] at he
      subst he
      obtain ⟨u, hi, hu⟩ := route_cons.mp ((F.right js).mpr rfl)
      rw [replaced_cons hi hu, hv]; rfl
  refine ⟨?_, ?_, ?_, ?_⟩
  · intro path m r hvis hh
    obtain ⟨pre, hpre, ⟨suf, he, hsuf, hk⟩ | ⟨hoff, hk⟩⟩ := visit_fork F hs hr rfl hvis
    · change pathHook I _ _ _ _ path m = some r at hh
      rw [hk] at hh
      cases hrep : (replaced w.graph (stepsUp w.graph m suf)).headD false with
      | false => rw [hrep] at hh; cases hh
      | true =>
        rw [hrep] at hh
        cases hh
        refine ⟨vaC_const _ _ _, ?_⟩
        rintro ⟨hv, hdiv⟩
        have hne : pre ≠ [] := by
          rintro rfl
          rw [atRoot hpre he] at hrep; cases hrep
        obtain ⟨h1, h2⟩ := below hpre hne he hsuf
        rw [rest_zero R F hs hr hv suf pre m hpre hne hsuf h1 (h2 hdiv) hrep, ← R.zero]
        exact good_const _
    · change pathHook I _ _ _ _ path m = some r at hh
      rw [hk] at hh
      cases hh
      refine ⟨⟨reaches_lt hc pre n m hn hpre, ?_⟩, ?_⟩
      · intro v hv k hk'
        cases hv
        cases hk'
        exact hoff
      · rintro ⟨hv, _⟩
        rw [rest_off F hoff]
        exact ⟨rfl, fun h => h.elim⟩
  · intro path m hvis hh hinv
    exfalso
    obtain ⟨pre, hpre, ⟨suf, he, hsuf, hk⟩ | ⟨hoff, hk⟩⟩ := visit_fork F hs hr rfl hvis
    · change pathHook I _ _ _ _ path m = none at hh
      have hnil : (w.graph m).args = [] := by
        have := hs m
        unfold Shaped at this
        change (w.graph m).op = .inv at hinv
        rw [hinv] at this
        exact List.length_eq_zero_iff.mp this
      have : suf = [] := by
        cases suf with
        | nil => rfl
        | cons i s =>
          obtain ⟨u, hi, _⟩ := route_cons.mp hsuf
          rw [hnil] at hi; cases hi
      subst this
      rw [hk] at hh
      cases hh
    · change pathHook I _ _ _ _ path m = none at hh
      rw [hk] at hh; cases hh
  · intro path m hvis hh hinv
    change pathHook I _ _ _ _ path m = none at hh
    change (w.graph m).op ≠ .inv at hinv
    obtain ⟨pre, hpre, ⟨suf, he, hsuf, hk⟩ | ⟨hoff, hk⟩⟩ := visit_fork F hs hr rfl hvis
    · refine ⟨hs m, ?_, hord _, ?_⟩
      · show unsupportedOp (w.graph m).op = false
        by_cases hne : pre = []
        · subst hne
          rw [route_nil] at hpre
          subst hpre
          rcases F.op with h | h <;> rw [h] <;> rfl
        · cases suf with
          | nil =>
            rw [hk] at hh; cases hh
          | cons i s =>
            obtain ⟨h1, _⟩ := below hpre hne he hsuf
            obtain ⟨m', hi, h'⟩ := route_cons.mp hsuf
            rw [stepsUp_cons hi, collectablePath_cons (stepsUp_ne h'), Bool.and_eq_true] at h1
            have h2 := h1.1
            unfold collectable at h2
            cases hop : (w.graph m).op <;> rw [hop] at h2 <;> first | rfl | cases h2
      · rintro ⟨hv, hdiv⟩
        show cgDom I (w.graph m).op _ ∧ opSem I (w.graph m).op ((w.graph m).args.map _) = some _
        by_cases hne : pre = []
        · subst hne
          rw [route_nil] at hpre
          subst hpre
          have e0 : ∀ k, rest w.graph val n l is js k = val k - tilt w.graph val n l is js k * val l := fun _ => rfl
          obtain ⟨a', hia', h1⟩ := route_cons.mp ((F.left is).mpr rfl)
          rw [hia] at hia'
          cases hia'
          obtain ⟨b', hib', h2⟩ := route_cons.mp ((F.right js).mpr rfl)
          rw [hib] at hib'
          cases hib'
          have ta : tilt w.graph val n l is js a = coefficient w.graph val a is :=
            tilt_below F hs hr (pre := [0]) (route_cons.mpr ⟨a, hia, route_nil.mpr rfl⟩) (by simp) h1
          have tb : tilt w.graph val n l is js b = coefficient w.graph val b js :=
            tilt_below F hs hr (pre := [1]) (route_cons.mpr ⟨b, hib, route_nil.mpr rfl⟩) (by simp) h2
          have tn : tilt w.graph val n l is js n = coefficient w.graph val n (0 :: is) + coefficient w.graph val n (1 :: js) := by
            unfold tilt; rw [if_pos rfl]
          have hval := val_node hv hs hia
          rw [ha] at hval ⊢
          simp only [List.map_cons, List.map_nil, argVal] at hval ⊢
          rw [e0 a, e0 b, e0 n, ta, tb, tn]
          simp only [coefficient, hia, hib]
          rcases F.op with h | h
          · rw [h] at hval ⊢
            refine ⟨(fun h => by cases h), ?_⟩
            simp only [opSem, R.add, Option.some.injEq, passes] at hval ⊢
            rw [← hval]; ring
          · rw [h] at hval ⊢
            refine ⟨(fun h => by cases h), ?_⟩
            simp only [opSem, R.sub, Option.some.injEq, passes] at hval ⊢
            rw [← hval]; ring
        · cases suf with
          | nil => rw [hk] at hh; cases hh
          | cons i s =>
            obtain ⟨h1, h1'⟩ := below hpre hne he hsuf
            obtain ⟨m', hi, h'⟩ := route_cons.mp hsuf
            rw [stepsUp_cons hi, collectablePath_cons (stepsUp_ne h'), Bool.and_eq_true] at h1
            have hd := h1' hdiv
            simp only [Divisible, hi] at hd
            obtain ⟨h2, h3⟩ := rest_step R F hs hr hv hpre hne hi h' h1.1 hd.1
            refine ⟨?_, h3⟩
            intro hop
            change ((w.graph m).args.map (argVal (rest w.graph val n l is js)))[1]? ≠ some I.zero
            have hi0 : i = 0 := by
              have := h1.1
              unfold collectable at this
              rw [hop] at this
              simpa using this
            subst hi0
            rw [h2, List.getElem?_set_ne (by omega)]
            have h4 := hd.1 hop
            intro h5
            apply h4
            rw [List.getD_eq_getElem?_getD, h5, R.zero]; rfl
    · rw [hk] at hh; cases hh
  · intro path m hvis hh k hk
    exact hr m k hk

end

/-! ### extension of the graph -/

section
variable {α : Type} {w w' : World α} (h : Ext w w') (hc : Closed w)
include h hc

theorem stepsUp_ext {t : Nat} : ∀ (is : List Nat) (n : Nat), n < w.nodes.length → Route w.graph n is t →
    stepsUp w'.graph n is = stepsUp w.graph n is := by
  intro is
  induction is with
  | nil => intro n _ _; rfl
  | cons i is ih =>
    intro n hn hr
    obtain ⟨m, hi, hr'⟩ := route_cons.mp hr
    have hi' : (w'.graph n).args[i]? = some (.node m) := by rw [graph_ext h hn]; exact hi
    rw [stepsUp_cons hi, stepsUp_cons hi', ih m (closed_kid hc hi) hr']

theorem collectable_ext {t : Nat} : ∀ (is : List Nat) (n : Nat), n < w.nodes.length → Route w.graph n is t →
    collectablePath w'.graph (stepsUp w.graph n is) = collectablePath w.graph (stepsUp w.graph n is) := by
  intro is
  induction is with
  | nil => intro n _ _; rfl
  | cons i is ih =>
    intro n hn hr
    obtain ⟨m, hi, hr'⟩ := route_cons.mp hr
    rw [stepsUp_cons hi, collectablePath_cons (stepsUp_ne hr'), collectablePath_cons (stepsUp_ne hr'),
      graph_ext h hn, ih m (closed_kid hc hi) hr']

theorem replaced_ext {t : Nat} : ∀ (is : List Nat) (n : Nat), n < w.nodes.length → Route w.graph n is t →
    replaced w'.graph (stepsUp w.graph n is) = replaced w.graph (stepsUp w.graph n is) := by
  intro is
  induction is with
  | nil => intro n _ _; rfl
  | cons i is ih =>
    intro n hn hr
    obtain ⟨m, hi, hr'⟩ := route_cons.mp hr
    have := ih m (closed_kid hc hi) hr'
    rw [stepsUp_cons hi]
    cases hs : stepsUp w.graph m is with
    | nil => exact absurd hs (stepsUp_ne hr')
    | cons a b =>
      rw [hs] at this
      have e : ∀ G : Graph α, replaced G ((n, some i) :: a :: b) =
          (vanishes (G n).op && (replaced G (a :: b)).headD false) :: replaced G (a :: b) := by
        intro G
        rw [replaced]; simp
      rw [e, e, this, graph_ext h hn]

end

theorem slope_ext {w w' : World ℝ} (h : Ext w w') (hc : Closed w) {val : Nat → ℝ} : ∀ (is : List Nat) (n : Nat),
    n < w.nodes.length → coefficient w'.graph val n is = coefficient w.graph val n is := by
  intro is
  induction is with
  | nil => intro n _; rfl
  | cons i is ih =>
    intro n hn
    simp only [coefficient, graph_ext h hn]
    cases hi : (w.graph n).args[i]? with
    | none => rfl
    | some a =>
      cases a with
      | param c => rfl
      | node m => simp only [ih m (closed_kid hc hi)]

theorem div_ext {w w' : World ℝ} (h : Ext w w') (hc : Closed w) {val : Nat → ℝ} : ∀ (is : List Nat) (n : Nat),
    n < w.nodes.length → (Divisible w'.graph val n is ↔ Divisible w.graph val n is) := by
  intro is
  induction is with
  | nil => intro n _; rfl
  | cons i is ih =>
    intro n hn
    simp only [Divisible, graph_ext h hn]
    cases hi : (w.graph n).args[i]? with
    | none => rfl
    | some a =>
      cases a with
      | param c => rfl
      | node m => simp only [ih m (closed_kid hc hi)]

theorem Fork.ext {α : Type} {w w' : World α} (h : Ext w w') (hc : Closed w) {n l : Nat} {is js : List Nat} (hn : n < w.nodes.length)
    (F : Fork w.graph n l is js) : Fork w'.graph n l is js :=
  ⟨by rw [graph_ext h hn]; exact F.op, fun r => by rw [route_ext h hc hn]; exact F.left r,
    fun r => by rw [route_ext h hc hn]; exact F.right r⟩

theorem stepsUp_last {α : Type} {G : Graph α} {t : Nat} : ∀ (is : List Nat) (n : Nat), Route G n is t →
    (stepsUp G n is).getLast? = some (t, none) := by
  intro is
  induction is with
  | nil => intro n h; rw [route_nil] at h; subst h; rfl
  | cons i is ih =>
    intro n h
    obtain ⟨m, hi, h'⟩ := route_cons.mp h
    rw [stepsUp_cons hi]
    cases hs : stepsUp G m is with
    | nil => exact absurd hs (stepsUp_ne h')
    | cons a b =>
      rw [List.getLast?_cons_cons, ← hs]
      exact ih m h'

/-! ### the sub-expression -/

theorem VaC.none {α : Type} {av : Option Nat} {w : World α} {c : Cg α} (h : VaC av w c) : VaC none w c :=
  ⟨h.reg, fun v hv => by cases hv⟩

theorem OkW.none {α : Type} {h0 : Nat} {av : Option Nat} {w : World α} (h : OkW h0 av w) : OkW h0 none w :=
  ⟨h.own, h.closed, fun v hv => by cases hv⟩

theorem Den.mono' {α : Type} {I : Interp α} {w w' : World α} {c : Cg α} {f : (Nat → α) → Option α} (h : Den I w c f)
    (he : Grow w w') : Den I w' c f := h.mono he.ext

/-- the value of an object -/
def cgv {α : Type} (val : Nat → α) (c : Cg α) : Option α :=
  match c.node with
  | some n => some (val n)
  | none => c.value

theorem good_cgv {α : Type} {val : Nat → α} {c : Cg α} {p : α} : Good False val c p ↔ cgv val c = some p := by
  unfold cgv
  constructor
  · intro h
    have := h.den
    cases hn : c.node with
    | none => rw [hn] at this; exact this
    | some n => rw [hn] at this; simp only at this ⊢; rw [this]
  · intro h
    refine ⟨?_, fun h => h.elim⟩
    cases hn : c.node with
    | none => rw [hn] at h; exact h
    | some n => rw [hn] at h; exact Option.some.inj h

theorem den_cgv {α : Type} (I : Interp α) (w : World α) (c : Cg α) : Den I w c (fun val => cgv val c) :=
  fun _ _ _ _ hp => good_cgv.mpr hp

/-- the coefficient found by the code -/
noncomputable def codeSum (I : Interp ℝ) (G : Graph ℝ) (n a b : Nat) (is js : List Nat) (val : Nat → ℝ) : Option ℝ :=
  haveI : DecidableEq ℝ := Classical.decEq ℝ
  (coefAlong I G val (some 0) a is 1).bind fun p =>
    (coefAlong I G val (some 1) b js (if (G n).op = .sub then -1 else 1)).map fun q => p + q

open Classical in
theorem collectAddSub_does {I : Interp ℝ} (R : RealI I) {ord : Op → List Nat} (hord : ∀ op, (ord op).Perm (List.range (arity op)))
    {h0 : Nat} {w : World ℝ} {n l : Nat} {is js : List Nat} (hw : OkW h0 (some l) w) (hs : ShapedG w.graph)
    (hr : ∃ rank, Ranked w.graph rank) (hn : n < w.nodes.length) (F : Fork w.graph n l is js) {a b : Nat}
    (ha : (w.graph n).args = [.node a, .node b])
    (hc1 : collectablePath w.graph (stepsUp w.graph a is) = true)
    (hc2 : collectablePath w.graph (stepsUp w.graph b js) = true) {depth : Nat} (hd : w.nodes.length < depth) :
    ∃ s e r w', collectAddSub I ord depth w (stepsUp w.graph n (0 :: is)) (stepsUp w.graph n (1 :: js)) = .ok (r, w') ∧
      Grow w w' ∧ OkW h0 (some l) w' ∧ VaC none w' r ∧ VaC (some l) w' s ∧ VaC (some l) w' e ∧
      Den I w' s (codeSum I w.graph n a b is js) ∧
      Den I w' e (fun val => if DivOk w.graph n is js val then
        some (val n - (coefficient w.graph val n (0 :: is) + coefficient w.graph val n (1 :: js)) * val l) else none) ∧
      (∀ x val, w'.Val I x val → ∀ p q, Good False val s p → Good False val e q → Good False val r (p * val l + q)) := by
  have L := real_laws R
  have hia : (w.graph n).args[0]? = some (.node a) := by rw [ha]; rfl
  have hib : (w.graph n).args[1]? = some (.node b) := by rw [ha]; rfl
  have hla := (F.left is).mpr rfl
  have hlb := (F.right js).mpr rfl
  obtain ⟨a', hi, hra⟩ := route_cons.mp hla
  rw [hia] at hi; cases hi
  obtain ⟨b', hi, hrb⟩ := route_cons.mp hlb
  rw [hib] at hi; cases hi
  have han := closed_kid hw.closed hia
  have hbn := closed_kid hw.closed hib
  have una : ∀ u, some l = some u → u = l ∧ ∀ is', Route w.graph a is' l → is' = is := by
    intro u hu
    exact ⟨(Option.some.inj hu).symm, fun is' h => (F.left is').mp (route_cons.mpr ⟨a, hia, h⟩)⟩
  have unb : ∀ u, some l = some u → u = l ∧ ∀ is', Route w.graph b is' l → is' = js := by
    intro u hu
    exact ⟨(Option.some.inj hu).symm, fun is' h => (F.right is').mp (route_cons.mpr ⟨b, hib, h⟩)⟩
  obtain ⟨c1, w1, e1, g1, ok1, va1, d1⟩ := (coefPath_does L hw hs is a (some 0) w (.const I.one) _ hra una hc1
    (Grow.refl _) hw (vaC_const _ _ _) (den_const I w I.one)).ex
  obtain ⟨s1, w2, e2, g2, ok2, va2, d2⟩ := (compound_does L (o := .add) (by simp) ok1 (vaC_const _ _ I.zero) va1
    (den_const I w1 I.zero) d1).ex
  obtain ⟨c2, w3, e3, g3, ok3, va3, d3⟩ := (coefPath_does L hw hs js b (some 1) w2
    (.const (if (w.graph n).op = .sub then I.negOne else I.one)) _ hrb unb hc2 (g1.trans g2) ok2 (vaC_const _ _ _)
    (den_const I w2 _)).ex
  obtain ⟨s2, w4, e4, g4, ok4, va4, d4⟩ := (compound_does L (o := .add) (by simp) ok3 (va2.mono g3.ext ok2) va3
    (d2.mono g3.ext) d3).ex
  have g04 : Grow w w4 := ((g1.trans g2).trans g3).trans g4
  have hsum : Den I w4 s2 (codeSum I w.graph n a b is js) := by
    refine d4.imp ?_
    intro val p hp
    unfold codeSum at hp
    simp only [Option.bind_eq_some_iff, Option.map_eq_some_iff] at hp
    obtain ⟨u, hu, v, hv, rfl⟩ := hp
    have eu : coefAlong I w.graph val (some 0) a is I.one = some u := by rw [R.one]; convert hu
    have ev : coefAlong I w.graph val (some 1) b js (if (w.graph n).op = .sub then I.negOne else I.one) = some v := by
      rw [R.one, R.negOne]; convert hv
    simp only [Option.bind_some, eu, ev]
    show some (I.add (I.add I.zero u) v) = some (u + v)
    rw [R.add, R.add, R.zero, zero_add]
  -- the rest
  have hrest : Does I h0 (some l) w4
      (if !((replaced w.graph (stepsUp w.graph n (0 :: is))).getD 1 false &&
          (replaced w.graph (stepsUp w.graph n (1 :: js))).getD 1 false) then
        cloneExpr I w4 ord depth (pathHook I (stepsUp w.graph n (0 :: is)) (stepsUp w.graph n (1 :: js))
          (replaced w.graph (stepsUp w.graph n (0 :: is))) (replaced w.graph (stepsUp w.graph n (1 :: js)))) n
      else .ok (.const I.zero, w4))
      (fun val => if DivOk w.graph n is js val then
        some (val n - (coefficient w.graph val n (0 :: is) + coefficient w.graph val n (1 :: js)) * val l) else none) := by
    obtain ⟨rank, hrank, hle⟩ := rank_ext g04.ext hw.closed hr (g04.acyclic hr)
    have hn4 : n < w4.nodes.length := by
      obtain ⟨⟨s, hs⟩, _⟩ := g04.ext
      rw [hs, List.length_append]; omega
    have hdiv : ∀ val, DivOk w4.graph n is js val ↔ DivOk w.graph n is js val := by
      intro val
      unfold DivOk
      rw [div_ext g04.ext hw.closed _ n hn, div_ext g04.ext hw.closed _ n hn]
    have hrn : ∀ val, rest w4.graph val n l is js n =
        val n - (coefficient w.graph val n (0 :: is) + coefficient w.graph val n (1 :: js)) * val l := by
      intro val
      unfold rest tilt
      rw [if_pos rfl, slope_ext g04.ext hw.closed _ n hn, slope_ext g04.ext hw.closed _ n hn]
    have hF := F.ext g04.ext hw.closed hn
    have ha4 : (w4.graph n).args = [.node a, .node b] := by rw [graph_ext g04.ext hn]; exact ha
    have hc1' : collectablePath w4.graph (stepsUp w4.graph a is) = true := by
      rw [stepsUp_ext g04.ext hw.closed is a han hra, collectable_ext g04.ext hw.closed is a han hra]; exact hc1
    have hc2' : collectablePath w4.graph (stepsUp w4.graph b js) = true := by
      rw [stepsUp_ext g04.ext hw.closed js b hbn hrb, collectable_ext g04.ext hw.closed js b hbn hrb]; exact hc2
    by_cases hflag : ((replaced w.graph (stepsUp w.graph n (0 :: is))).getD 1 false &&
          (replaced w.graph (stepsUp w.graph n (1 :: js))).getD 1 false) = true
    · rw [hflag]
      simp only [Bool.not_true, Bool.false_eq_true, if_false]
      refine Does.pure ok4 (vaC_const _ _ _) ?_
      intro x val hv p hp
      by_cases hP : DivOk w.graph n is js val
      · simp only [hP, if_true] at hp
        cases hp
        rw [Bool.and_eq_true] at hflag
        have f1 := replaced_append (v := l) [0] n a is (route_cons.mpr ⟨a, hia, route_nil.mpr rfl⟩) hra
        have f2 := replaced_append (v := l) [1] n b js (route_cons.mpr ⟨b, hib, route_nil.mpr rfl⟩) hrb
        rw [List.singleton_append] at f1 f2
        change (replaced w.graph (stepsUp w.graph n (0 :: is))).getD 1 false = _ at f1
        change (replaced w.graph (stepsUp w.graph n (1 :: js))).getD 1 false = _ at f2
        rw [hflag.1] at f1
        rw [hflag.2] at f2
        have hv' := g04.ext.val hv
        obtain ⟨rk, hrk⟩ := hr
        have za := rest_zero R F hs hrk hv' is [0] a (route_cons.mpr ⟨a, hia, route_nil.mpr rfl⟩) (by simp) hra hc1
          (div_suffix [0] n a is (route_cons.mpr ⟨a, hia, route_nil.mpr rfl⟩) hP.1) f1.symm
        have zb := rest_zero R F hs hrk hv' js [1] b (route_cons.mpr ⟨b, hib, route_nil.mpr rfl⟩) (by simp) hrb hc2
          (div_suffix [1] n b js (route_cons.mpr ⟨b, hib, route_nil.mpr rfl⟩) hP.2) f2.symm
        have ta : tilt w.graph val n l is js a = coefficient w.graph val a is :=
          tilt_below F hs hrk (pre := [0]) (route_cons.mpr ⟨a, hia, route_nil.mpr rfl⟩) (by simp) hra
        have tb : tilt w.graph val n l is js b = coefficient w.graph val b js :=
          tilt_below F hs hrk (pre := [1]) (route_cons.mpr ⟨b, hib, route_nil.mpr rfl⟩) (by simp) hrb
        unfold rest at za zb
        rw [ta] at za
        rw [tb] at zb
        have hval := val_node hv' hs hia
        rw [ha] at hval
        simp only [List.map_cons, List.map_nil, argVal] at hval
        have : val n - (coefficient w.graph val n (0 :: is) + coefficient w.graph val n (1 :: js)) * val l = 0 := by
          simp only [coefficient, hia, hib]
          rcases F.op with h | h
          · rw [h] at hval ⊢
            simp only [opSem, R.add, Option.some.injEq, passes] at hval ⊢
            rw [← hval]; linear_combination za + zb
          · rw [h] at hval ⊢
            simp only [opSem, R.sub, Option.some.injEq, passes] at hval ⊢
            rw [← hval]; linear_combination za - zb
        rw [this, ← R.zero]
        exact good_const _
      · simp only [hP, if_false] at hp; cases hp
    · rw [Bool.not_eq_true] at hflag
      rw [hflag]
      simp only [Bool.not_false, if_true]
      have hM := pathClone_means R hord hF (g04.shaped hs) hrank ok4.closed hn4 ha4 hc1' hc2'
      rw [stepsUp_ext g04.ext hw.closed _ n hn hla, stepsUp_ext g04.ext hw.closed _ n hn hlb,
        replaced_ext g04.ext hw.closed _ n hn hla, replaced_ext g04.ext hw.closed _ n hn hlb] at hM
      refine (cloneExpr_does L ok4 (Nat.lt_of_le_of_lt (hle n hn) hd) _ _ hM).imp ?_
      intro val p hp
      simp only [hdiv, hrn]
      exact hp
  obtain ⟨e2', w5, e5, g5, ok5, va5, d5⟩ := hrest.ex
  have hl5 : l < w5.nodes.length := ok5.av l rfl
  obtain ⟨t, w6, e6, g6, ok6, va6, d6⟩ := (binary_does L (o := .mul) (OkW.none ok5) (VaC.none (va4.mono g5.ext ok4))
    (⟨hl5, fun v hv => by cases hv⟩ : VaC none w5 ⟨some l, none⟩) (den_cgv I w5 s2)
    (den_arg I w5 (.node l))).ex
  obtain ⟨r, w7, e7, g7, ok7, va7, d7⟩ := (binary_does L (o := .add) ok6 va6 ((VaC.none va5).mono g6.ext (OkW.none ok5)) d6
    (den_cgv I w6 e2')).ex
  have g47 := (g5.trans g6).trans g7
  have hok7 : OkW h0 (some l) w7 := ⟨ok7.own, ok7.closed, fun v hv => by
    cases hv
    obtain ⟨⟨s, hs⟩, _⟩ := (g6.trans g7).ext
    rw [hs, List.length_append]; omega⟩
  refine ⟨s2, e2', r, w7, ?_, g04.trans g47, hok7, va7, va4.mono g47.ext ok4, va5.mono (g6.trans g7).ext ok5,
    hsum.mono g47.ext, d5.mono (g6.trans g7).ext, ?_⟩
  · unfold collectAddSub
    rw [stepsUp_last _ n hla, stepsUp_last _ n hlb]
    rw [stepsUp_cons hia, stepsUp_cons hib] at e5 ⊢
    simp only
    rw [if_neg (by simp), if_neg (by rcases F.op with h | h <;> rw [h] <;> simp), if_neg (by simp),
      if_neg (by rw [hc1, hc2]; simp)]
    simp only [e1, e2, e3, e4, bind, Except.bind]
    split at e5
    · rename_i hc
      rw [if_pos hc]
      simp only [e5, e6, e7]
    · rename_i hc
      rw [if_neg hc]
      cases e5
      simp only [e6, e7]
  · intro x val hv p q hp hq
    refine d7 x val hv _ ?_
    rw [good_cgv] at hp hq
    simp only [hp, hq, Option.bind_some, argVal]
    show some (I.add (I.mul p (val l)) q) = _
    rw [R.add, R.mul]

/-- the code finds the coefficient when the subtractions agree -/
theorem codeSum_slope {I : Interp ℝ} (R : RealI I) {w : World ℝ} {n l : Nat} {is js : List Nat} (hs : ShapedG w.graph)
    (F : Fork w.graph n l is js) {a b : Nat} (ha : (w.graph n).args = [.node a, .node b])
    (hc1 : collectablePath w.graph (stepsUp w.graph a is) = true)
    (hc2 : collectablePath w.graph (stepsUp w.graph b js) = true) (hs1 : SameSides w.graph 0 a is)
    (hs2 : SameSides w.graph 1 b js) {val : Nat → ℝ} (hd : DivOk w.graph n is js val) :
    codeSum I w.graph n a b is js val = some (coefficient w.graph val n (0 :: is) + coefficient w.graph val n (1 :: js)) := by
  have hia : (w.graph n).args[0]? = some (.node a) := by rw [ha]; rfl
  have hib : (w.graph n).args[1]? = some (.node b) := by rw [ha]; rfl
  obtain ⟨a', hi, hra⟩ := route_cons.mp ((F.left is).mpr rfl)
  rw [hia] at hi; cases hi
  obtain ⟨b', hi, hrb⟩ := route_cons.mp ((F.right js).mpr rfl)
  rw [hib] at hi; cases hi
  obtain ⟨h1, h2⟩ := hd
  simp only [Divisible, hia, hib] at h1 h2
  unfold codeSum
  rw [coefAlong_slope R _ hs is a _ _ hra hc1 h1.2 hs1, coefAlong_slope R _ hs js b _ _ hrb hc2 h2.2 hs2]
  simp only [coefficient, hia, hib, Option.bind_some, Option.map_some, Option.some.injEq]
  rcases F.op with h | h <;> rw [h] <;> simp [passes]

end Verif.Solve
