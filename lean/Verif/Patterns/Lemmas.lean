import Verif.Patterns.Model
import Mathlib.Tactic.ByContra
/- Shapes, and what a comparison of two nodes finds. -/
namespace Verif.Patterns

variable {V K : Type}

theorem shapeAt_eq (key : V → K) {G : Graph V} (hG : Acyclic G) :
    ∀ f i f', i < f → i < f' → shapeAt key G f i = shapeAt key G f' i
  | 0, _, _, h, _ => by omega
  | _ + 1, _, 0, _, h => by omega
  | f + 1, i, f' + 1, h, h' => by
    have hargs : ∀ j, Arg.node j ∈ (G i).args → shapeAt key G f j = shapeAt key G f' j := fun j hj =>
      shapeAt_eq key hG f j f' (by have := hG i j hj; omega) (by have := hG i j hj; omega)
    have hmap : (G i).args.map (fun a => match a with
        | .par c => Shape.par (key c)
        | .node j => shapeAt key G f j) = (G i).args.map (fun a => match a with
        | .par c => Shape.par (key c)
        | .node j => shapeAt key G f' j) := by
      apply List.map_congr_left
      intro a ha
      cases a with
      | par c => rfl
      | node j => exact hargs j ha
    generalize ho : (G i).op = o
    generalize has : (G i).args = as at *
    simp only [shapeAt, ho, has]
    split
    · rfl
    · rename_i j
      rw [hargs j (by simp)]
    · exact congrArg _ hmap

/-- the shape of an argument -/
def argShape (key : V → K) (G : Graph V) : Arg V → Shape K
  | .par c => .par (key c)
  | .node j => shape key G j

/-- a node at which the loop over aliases stops -/
def Bare (G : Graph V) (i : Nat) : Prop :=
  (G i).op ≠ .inv ∧ ((G i).op = .alias_ → ∃ j, (G i).args = [.node j] ∧ (G j).op = .inv)

theorem shape_inv (key : V → K) {G : Graph V} {i : Nat} (h : (G i).op = .inv) : shape key G i = .indep := by
  simp [shape, shapeAt, h]

theorem shape_bare (key : V → K) {G : Graph V} (hG : Acyclic G) {i : Nat} (h : Bare G i) :
    shape key G i = .op (G i).op (G i).info ((G i).args.map (argShape key G)) := by
  have hmap : (G i).args.map (fun a => match a with
      | .par c => Shape.par (key c)
      | .node j => shapeAt key G i j) = (G i).args.map (argShape key G) := by
    apply List.map_congr_left
    intro a ha
    cases a with
    | par c => rfl
    | node j => exact shapeAt_eq key hG i j (j + 1) (hG i j ha) (by omega)
  obtain ⟨h1, h2⟩ := h
  rw [← hmap, shape]
  cases ho : (G i).op with
  | inv => exact absurd ho h1
  | alias_ =>
    obtain ⟨j, h3, h4⟩ := h2 ho
    simp only [shapeAt, ho, h3, h4, if_true, List.map_cons, List.map_nil]
    have hj := hG i j (by rw [h3]; simp)
    cases i with
    | zero => omega
    | succ i => simp [shapeAt, h4]
  | other k => simp only [shapeAt, ho]; rfl

theorem skip_ok (key : V → K) {G : Graph V} (hG : Acyclic G) (hA : AliasOk G) :
    ∀ f i, i < f → (G i).op ≠ .inv → ∃ i', skip G f i = some i' ∧ i' ≤ i ∧ Bare G i' ∧ shape key G i' = shape key G i
  | 0, _, h, _ => by omega
  | f + 1, i, h, hi => by
    by_cases ha : (G i).op = .alias_
    · obtain ⟨j, hj⟩ := hA i ha
      have hji := hG i j (by rw [hj]; simp)
      by_cases hjv : (G j).op = .inv
      · exact ⟨i, by simp [skip, ha, hj, hjv], Nat.le_refl _, ⟨hi, fun _ => ⟨j, hj, hjv⟩⟩, rfl⟩
      · obtain ⟨i', h1, h2, h3, h4⟩ := skip_ok key hG hA f j (by omega) hjv
        refine ⟨i', by simp [skip, ha, hj, hjv, h1], by omega, h3, ?_⟩
        rw [h4]
        have : shape key G i = shapeAt key G i j := by simp [shape, shapeAt, ha, hj, hjv]
        rw [this]
        exact shapeAt_eq key hG (j + 1) j i (by omega) hji
    · exact ⟨i, by simp [skip, ha], Nat.le_refl _, ⟨hi, fun h => absurd h ha⟩, rfl⟩

theorem skip_any (key : V → K) {G : Graph V} (hG : Acyclic G) (hA : AliasOk G) (f i : Nat) (h : i < f) :
    ∃ i', skip G f i = some i' ∧ i' ≤ i ∧ (Bare G i' ∨ (G i').op = .inv) ∧ shape key G i' = shape key G i := by
  by_cases hi : (G i).op = .inv
  · cases f with
    | zero => omega
    | succ f => exact ⟨i, by simp [skip, hi], Nat.le_refl _, .inr hi, rfl⟩
  · obtain ⟨i', h1, h2, h3, h4⟩ := skip_ok key hG hA f i h hi
    exact ⟨i', h1, h2, .inl h3, h4⟩

theorem shape_indep_iff (key : V → K) {G : Graph V} (hG : Acyclic G) (hA : AliasOk G) (i : Nat) :
    shape key G i = .indep ↔ (G i).op = .inv := by
  constructor
  · intro h
    by_contra hi
    obtain ⟨i', _, _, h3, h4⟩ := skip_ok key hG hA (i + 1) i (by omega) hi
    rw [← h4, shape_bare key hG h3] at h
    cases h
  · exact shape_inv key

/-- What is known of the colors during a comparison: nodes with the same color from `min` on have the same shape, or belong
to a comparison which is not finished (`E`). -/
structure CInv (key : V → K) (G : Graph V) (min : Nat) (E : Nat → Nat → Prop) (color : Nat → Nat) (cmp : Nat) : Prop where
  lt : ∀ i, color i < cmp
  le : min ≤ cmp
  same : ∀ i j, min ≤ color i → color i = color j →
    shape key G i = shape key G j ∨ ∃ p q, E p q ∧ (i = p ∨ i = q) ∧ (j = p ∨ j = q)

/-- what a comparison guarantees -/
def Good (key : V → K) (G : Graph V) (min : Nat) (E : Nat → Nat → Prop) (same : Prop) (st : St)
    (r : Option (Bool × St)) : Prop :=
  ∃ b st', r = some (b, st') ∧ (b = true ↔ same) ∧ st.cmp ≤ st'.cmp ∧ (∀ i, st'.color i < st'.cmp) ∧
    (b = true → CInv key G min E st'.color st'.cmp)

theorem saveIndependent_colors (G : Graph V) (cst : Nat → Nat → Bool) (refDep cur op a j1 j2 : Nat) (st : St) :
    (saveIndependent G cst refDep cur op a j1 j2 st).2.color = st.color ∧
    (saveIndependent G cst refDep cur op a j1 j2 st).2.cmp = st.cmp := by
  unfold saveIndependent
  split
  · exact ⟨rfl, rfl⟩
  · split <;> exact ⟨rfl, rfl⟩

variable [DecidableEq K]

theorem compareArgs_ok (key : V → K) {G : Graph V} (hG : Acyclic G) (hA : AliasOk G) (refDep cur min : Nat)
    {E : Nat → Nat → Prop} (cmpNode : Nat → Nat → St → Option (Bool × St)) (r : Nat) :
    ∀ (as bs : List (Arg V)) (a : Nat) (st : St), as.length = bs.length → CInv key G min E st.color st.cmp →
    (∀ j j', Arg.node j ∈ as → Arg.node j' ∈ bs → (G j).op ≠ .inv → ∀ st, CInv key G min E st.color st.cmp →
      Good key G min E (shape key G j = shape key G j') st (cmpNode j j' st)) →
    Good key G min E (as.map (argShape key G) = bs.map (argShape key G)) st
      (compareArgs key G (fun _ _ => false) refDep cur cmpNode r a as bs st)
  | [], [], a, st, _, hst, _ => ⟨true, st, rfl, by simp, Nat.le_refl _, hst.lt, fun _ => hst⟩
  | [], _ :: _, _, _, h, _, _ => by simp at h
  | _ :: _, [], _, _, h, _, _ => by simp at h
  | x :: as, y :: bs, a, st, h, hst, hrec => by
    have ih := fun st (hst : CInv key G min E st.color st.cmp) =>
      compareArgs_ok key hG hA refDep cur min cmpNode r as bs (a + 1) st (by simpa using h) hst
      (fun j j' hj hj' => hrec j j' (by simp [hj]) (by simp [hj']))
    cases x with
    | par c =>
      cases y with
      | par c' =>
        simp only [compareArgs]
        by_cases hc : key c = key c'
        · rw [if_pos hc]
          obtain ⟨b, st', h1, h2, h3⟩ := ih st hst
          refine ⟨b, st', h1, ?_, h3⟩
          rw [h2]
          simp [argShape, hc]
        · rw [if_neg hc]
          exact ⟨false, st, rfl, by simp [argShape, hc], Nat.le_refl _, hst.lt, by simp⟩
      | node j' =>
        simp only [compareArgs]
        refine ⟨false, st, rfl, ?_, Nat.le_refl _, hst.lt, by simp⟩
        simp only [Bool.false_eq_true, List.map_cons, argShape, List.cons.injEq, not_and, false_iff]
        intro he
        exfalso
        by_cases hj : (G j').op = .inv
        · rw [shape_inv key hj] at he; cases he
        · obtain ⟨i', _, _, h3, h4⟩ := skip_ok key hG hA (j' + 1) j' (by omega) hj
          rw [← h4, shape_bare key hG h3] at he
          cases he
    | node j =>
      cases y with
      | par c' =>
        simp only [compareArgs]
        refine ⟨false, st, rfl, ?_, Nat.le_refl _, hst.lt, by simp⟩
        simp only [Bool.false_eq_true, List.map_cons, argShape, List.cons.injEq, not_and, false_iff]
        intro he
        exfalso
        by_cases hj : (G j).op = .inv
        · rw [shape_inv key hj] at he; cases he
        · obtain ⟨i', _, _, h3, h4⟩ := skip_ok key hG hA (j + 1) j (by omega) hj
          rw [← h4, shape_bare key hG h3] at he
          cases he
      | node j' =>
        simp only [compareArgs]
        by_cases hj : (G j).op = .inv
        · rw [if_pos hj]
          have hcol := saveIndependent_colors G (fun _ _ => false) refDep cur r a j j' st
          by_cases hj' : (G j').op = .inv
          · have htrue : (saveIndependent G (fun _ _ => false) refDep cur r a j j' st).1 = true := by
              simp [saveIndependent, hj, hj']
            generalize saveIndependent G (fun _ _ => false) refDep cur r a j j' st = q at *
            obtain ⟨b, st2⟩ := q
            simp only at htrue hcol
            subst htrue
            simp only
            obtain ⟨b, st', h1, h2, h3, h4⟩ := ih st2 (by rw [hcol.1, hcol.2]; exact hst)
            refine ⟨b, st', h1, ?_, by rw [← hcol.2]; exact h3, h4⟩
            rw [h2]
            simp [argShape, shape_inv key hj, shape_inv key hj']
          · have hfalse : saveIndependent G (fun _ _ => false) refDep cur r a j j' st = (false, st) := by
              simp [saveIndependent, hj']
            rw [hfalse]
            simp only
            refine ⟨false, st, rfl, ?_, Nat.le_refl _, hst.lt, by simp⟩
            simp only [Bool.false_eq_true, List.map_cons, argShape, List.cons.injEq, not_and, false_iff, shape_inv key hj]
            intro he
            exact absurd ((shape_indep_iff key hG hA j').1 he.symm) hj'
        · rw [if_neg hj]
          obtain ⟨b, st2, h1, h2, h3, h4, h5⟩ := hrec j j' (by simp) (by simp) hj st hst
          rw [h1]
          cases b with
          | false =>
            refine ⟨false, st2, rfl, ?_, h3, h4, by simp⟩
            simp only [Bool.false_eq_true, false_iff] at h2
            simp [argShape, h2]
          | true =>
            obtain ⟨b, st', g1, g2, g3, g4⟩ := ih st2 (h5 rfl)
            refine ⟨b, st', g1, ?_, by omega, g4⟩
            rw [g2]
            simp [argShape, h2.1 rfl]

theorem comparePath_ok (key : V → K) {G : Graph V} (hG : Acyclic G) (hA : AliasOk G) (refDep cur min : Nat) :
    ∀ (f r s : Nat) (E : Nat → Nat → Prop) (st : St), r < f → (G r).op ≠ .inv →
    CInv key G min E st.color st.cmp → (∀ p q, E p q → r < p ∧ s < q) →
    Good key G min E (shape key G r = shape key G s) st
      (comparePath key G (fun _ _ => false) refDep cur min f r s st)
  | 0, _, _, _, _, h, _, _, _ => by omega
  | f + 1, r, s, E, st, hr, hrv, hst, hE => by
    obtain ⟨r', e1, e2, e3, e4⟩ := skip_ok key hG hA (f + 1) r hr hrv
    obtain ⟨s', e5, e6, e7, e8⟩ := skip_any key hG hA (s + 1) s (by omega)
    rw [← e4, ← e8]
    simp only [comparePath, e1, e5]
    by_cases hc : st.color s' ≥ min ∧ st.color r' ≥ min ∧ st.color s' = st.color r'
    · rw [if_pos hc]
      refine ⟨true, st, rfl, ?_, Nat.le_refl _, hst.lt, fun _ => hst⟩
      simp only [true_iff]
      rcases hst.same r' s' hc.2.1 hc.2.2.symm with h | ⟨p, q, h1, h2, h3⟩
      · exact h
      · have := hE p q h1
        omega
    · rw [if_neg hc]
      have hst2 : CInv key G min (fun p q => E p q ∨ (p = r' ∧ q = s'))
          (setColor (setColor st.color r' st.cmp) s' st.cmp) (st.cmp + 1) := by
        refine ⟨fun i => ?_, by have := hst.le; omega, fun i j h1 h2 => ?_⟩
        · have := hst.lt i
          simp only [setColor]
          split
          · omega
          · split <;> omega
        · by_cases hi : i = s' ∨ i = r'
          · have hci : setColor (setColor st.color r' st.cmp) s' st.cmp i = st.cmp := by
              simp only [setColor]
              rcases hi with h | h
              · rw [if_pos h]
              · rw [if_pos h, ite_self]
            by_cases hj : j = s' ∨ j = r'
            · exact .inr ⟨r', s', .inr ⟨rfl, rfl⟩, hi.symm, hj.symm⟩
            · rw [hci] at h2
              have := hst.lt j
              simp only [setColor] at h2
              rw [if_neg (fun h => hj (.inl h)), if_neg (fun h => hj (.inr h))] at h2
              omega
          · have hci : setColor (setColor st.color r' st.cmp) s' st.cmp i = st.color i := by
              simp only [setColor]
              rw [if_neg (fun h => hi (.inl h)), if_neg (fun h => hi (.inr h))]
            have := hst.lt i
            by_cases hj : j = s' ∨ j = r'
            · have hcj : setColor (setColor st.color r' st.cmp) s' st.cmp j = st.cmp := by
                simp only [setColor]
                rcases hj with h | h
                · rw [if_pos h]
                · rw [if_pos h, ite_self]
              rw [hci, hcj] at h2
              omega
            · have hcj : setColor (setColor st.color r' st.cmp) s' st.cmp j = st.color j := by
                simp only [setColor]
                rw [if_neg (fun h => hj (.inl h)), if_neg (fun h => hj (.inr h))]
              rw [hci] at h1
              rw [hci, hcj] at h2
              rcases hst.same i j h1 h2 with h | ⟨p, q, h3, h4⟩
              · exact .inl h
              · exact .inr ⟨p, q, .inl h3, h4⟩
      rcases e7.symm with e7 | e7
      · have h1 : (G r').op ≠ (G s').op := by rw [e7]; exact e3.1
        rw [if_pos h1]
        refine ⟨false, _, rfl, ?_, by simp, hst2.lt, by simp⟩
        rw [shape_bare key hG e3, shape_inv key e7]
        simp
      rw [shape_bare key hG e3, shape_bare key hG e7]
      by_cases h1 : (G r').op ≠ (G s').op
      · rw [if_pos h1]
        refine ⟨false, _, rfl, ?_, by simp, hst2.lt, by simp⟩
        simp only [Bool.false_eq_true, Shape.op.injEq, false_iff, not_and]
        intro h
        exact absurd h h1
      rw [if_neg h1]
      by_cases h2 : (G r').info ≠ (G s').info
      · rw [if_pos h2]
        refine ⟨false, _, rfl, ?_, by simp, hst2.lt, by simp⟩
        simp only [Bool.false_eq_true, Shape.op.injEq, false_iff, not_and]
        intro _ h
        exact absurd h h2
      rw [if_neg h2]
      by_cases h3 : (G r').args.length ≠ (G s').args.length
      · rw [if_pos h3]
        refine ⟨false, _, rfl, ?_, by simp, hst2.lt, by simp⟩
        simp only [Bool.false_eq_true, Shape.op.injEq, false_iff, not_and]
        intro _ _ h
        apply h3
        have := congrArg List.length h
        simpa using this
      rw [if_neg h3]
      simp only [ne_eq, not_not] at h1 h2 h3
      obtain ⟨b, st', g1, g2, g3, g4, g5⟩ := compareArgs_ok key hG hA refDep cur min
        (comparePath key G (fun _ _ => false) refDep cur min f) r' (G r').args (G s').args 0
        { st with color := setColor (setColor st.color r' st.cmp) s' st.cmp, cmp := st.cmp + 1 } h3 hst2
        (fun j j' hj hj' hjv st3 hst3 => by
          have hjr := hG r' j hj
          have hjs := hG s' j' hj'
          exact comparePath_ok key hG hA refDep cur min f j j' _ st3 (by omega) hjv hst3 (fun p q h => by
            rcases h with h | ⟨h4, h5⟩
            · have := hE p q h; omega
            · omega))
      refine ⟨b, st', g1, ?_, by simp only at g3; omega, g4, fun hb => ?_⟩
      · rw [g2]
        simp [h1, h2]
      · have hb' := g2.1 hb
        have hsh : shape key G r' = shape key G s' := by
          rw [shape_bare key hG e3, shape_bare key hG e7, h1, h2, hb']
        refine ⟨g4, (g5 hb).le, fun i j hi hij => ?_⟩
        rcases (g5 hb).same i j hi hij with h | ⟨p, q, h4 | ⟨h4, h4'⟩, h5, h6⟩
        · exact .inl h
        · exact .inr ⟨p, q, h4, h5, h6⟩
        · subst h4; subst h4'
          left
          rcases h5 with h5 | h5 <;> rcases h6 with h6 | h6 <;> rw [h5, h6]
          · exact hsh
          · exact hsh.symm

end Verif.Patterns
