import Verif.Colors.SpecLoop
import Verif.Colors.ModelLoop
import Verif.Colors.Props
import Verif.Sparsity.LemmasMult

/- Helper lemmas: maps with the elements of the Jacobian and of the Hessians. -/
namespace Verif.Colors

/-- the elements in `S` are written, all others are as before -/
def Upd {R : Type} (S : Nat → Nat → Prop) (A : Nat → Nat → R) (old new : Nat → Nat → Option R) : Prop :=
  ∀ i j, (S i j → new i j = some (A i j)) ∧ (¬ S i j → new i j = old i j)

theorem Upd.nothing {R : Type} {S : Nat → Nat → Prop} {A : Nat → Nat → R} {old : Nat → Nat → Option R} (h : ∀ i j, ¬ S i j) : Upd S A old old :=
  fun i j => ⟨fun hs => absurd hs (h i j), fun _ => rfl⟩

theorem Upd.trans {R : Type} {S T U : Nat → Nat → Prop} {A : Nat → Nat → R} {a b c : Nat → Nat → Option R} (h1 : Upd S A a b) (h2 : Upd T A b c)
    (hu : ∀ i j, U i j ↔ S i j ∨ T i j) : Upd U A a c := by
  intro i j
  by_cases ht : T i j
  · exact ⟨fun _ => (h2 i j).1 ht, fun hn => absurd ((hu i j).2 (.inr ht)) hn⟩
  · rw [(h2 i j).2 ht]
    refine ⟨fun h => (h1 i j).1 (((hu i j).1 h).resolve_right ht), fun hn => (h1 i j).2 fun hs => hn ((hu i j).2 (.inl hs))⟩

/-- the same for a map of maps: rows are there if they were or an element is written -/
structure Upd2 {R : Type} (S : Nat → Nat → Prop) (A : Nat → Nat → R) (old new : Nat → Option (Nat → Option R)) : Prop where
  values : Upd S A (inMap old) (inMap new)
  rows : ∀ i, (new i).isSome ↔ (old i).isSome ∨ ∃ j, S i j

theorem Upd2.nothing {R : Type} {S : Nat → Nat → Prop} {A : Nat → Nat → R} {old : Nat → Option (Nat → Option R)} (h : ∀ i j, ¬ S i j) : Upd2 S A old old :=
  ⟨Upd.nothing h, fun i => ⟨.inl, fun h' => h'.elim id fun ⟨j, hj⟩ => absurd hj (h i j)⟩⟩

theorem Upd2.trans {R : Type} {S T U : Nat → Nat → Prop} {A : Nat → Nat → R} {a b c : Nat → Option (Nat → Option R)} (h1 : Upd2 S A a b) (h2 : Upd2 T A b c)
    (hu : ∀ i j, U i j ↔ S i j ∨ T i j) : Upd2 U A a c := by
  refine ⟨h1.values.trans h2.values hu, fun i => ?_⟩
  rw [h2.rows, h1.rows]
  simp only [hu, exists_or]
  tauto

theorem put_upd {R : Type} {jac : List (Nat → Option R)} {i j : Nat} {r : Nat → Option R} {A : Nat → Nat → R} (h : jac[i]? = some r) :
    Upd (fun i' j' => i' = i ∧ j' = j) A (inVector jac) (inVector (jac.set i (put r j (A i j)))) := by
  have hl := (List.getElem?_eq_some_iff.1 h).1
  intro i' j'
  constructor
  · rintro ⟨rfl, rfl⟩
    simp [inVector, hl, put]
  · intro hn
    by_cases hi : i' = i
    · subst hi
      have : j' ≠ j := fun e => hn ⟨rfl, e⟩
      simp only [inVector, h]
      simp [hl, put, this]
    · simp only [inVector]
      rw [List.getElem?_set_ne (Ne.symm hi)]

theorem put2_upd {R : Type} {M : Nat → Option (Nat → Option R)} {i j : Nat} {A : Nat → Nat → R} :
    Upd2 (fun i' j' => i' = i ∧ j' = j) A M (put2 M i j (A i j)) := by
  refine ⟨fun i' j' => ⟨?_, ?_⟩, fun i' => ?_⟩
  · rintro ⟨rfl, rfl⟩
    simp [inMap, put2, put]
  · intro hn
    by_cases hi : i' = i
    · subst hi
      have : j' ≠ j := fun e => hn ⟨rfl, e⟩
      cases h : M i' <;> simp [inMap, put2, put, this, h]
    · simp [inMap, put2, hi]
  · by_cases hi : i' = i
    · subst hi
      simp [put2]
    · simp [put2, hi]

theorem saveJac_ok {R : Type} {row col : List Nat} {flat : List R} {A : Nat → Nat → R} (hs : row.length = col.length) (hf : Stored row col A flat) :
    ∀ (els : List Nat) (jac : List (Nat → Option R)), (∀ el ∈ els, el < row.length) → (∀ i ∈ row, i < jac.length) →
      ∃ jac', saveJac row col flat els jac = some jac' ∧ jac'.length = jac.length ∧
        Upd (fun i j => ∃ el ∈ els, Requested row col el i j) A (inVector jac) (inVector jac')
  | [], jac, _, _ => ⟨jac, rfl, rfl, Upd.nothing fun i j h => by simp at h⟩
  | el :: els, jac, hel, hi => by
    have hq := requested_of_lt hs (hel el (by simp))
    have hv := hf _ _ _ hq
    have hlt := hi _ (List.mem_of_getElem? hq.1)
    obtain ⟨r, hr⟩ : ∃ r, jac[row.getD el 0]? = some r := ⟨_, List.getElem?_eq_getElem hlt⟩
    obtain ⟨jac', e1, e2, e3⟩ := saveJac_ok hs hf els (jac.set (row.getD el 0) (put r (col.getD el 0) (A (row.getD el 0) (col.getD el 0))))
      (fun e he => hel e (List.mem_cons_of_mem _ he)) (by simpa using hi)
    refine ⟨jac', ?_, by simpa using e2, (put_upd hr).trans e3 ?_⟩
    · unfold saveJac
      simp only [hq.1, hq.2, hv, hr, e1]
    · intro i j
      constructor
      · rintro ⟨e, he, hq'⟩
        rcases List.mem_cons.1 he with rfl | he
        · left
          have h1 := hq.1.symm.trans hq'.1
          have h2 := hq.2.symm.trans hq'.2
          exact ⟨(Option.some.inj h1).symm, (Option.some.inj h2).symm⟩
        · exact .inr ⟨e, he, hq'⟩
      · rintro (⟨rfl, rfl⟩ | ⟨e, he, hq'⟩)
        · exact ⟨el, by simp, hq⟩
        · exact ⟨e, List.mem_cons_of_mem _ he, hq'⟩

theorem saveHes_ok {R : Type} {row col : List Nat} {flat : List R} {A : Nat → Nat → R} (hs : row.length = col.length) (hf : Stored row col A flat) :
    ∀ (els : List Nat) (M : Nat → Option (Nat → Option R)), (∀ el ∈ els, el < row.length) →
      ∃ M', saveHes row col flat els M = some M' ∧ Upd2 (fun i j => ∃ el ∈ els, Requested row col el i j) A M M'
  | [], M, _ => ⟨M, rfl, Upd2.nothing fun i j h => by simp at h⟩
  | el :: els, M, hel => by
    have hq := requested_of_lt hs (hel el (by simp))
    have hv := hf _ _ _ hq
    obtain ⟨M', e1, e3⟩ := saveHes_ok hs hf els (put2 M (row.getD el 0) (col.getD el 0) (A (row.getD el 0) (col.getD el 0)))
      (fun e he => hel e (List.mem_cons_of_mem _ he))
    refine ⟨M', ?_, put2_upd.trans e3 ?_⟩
    · unfold saveHes
      simp only [hq.1, hq.2, hv, e1]
    · intro i j
      constructor
      · rintro ⟨e, he, hq'⟩
        rcases List.mem_cons.1 he with rfl | he
        · left
          have h1 := hq.1.symm.trans hq'.1
          have h2 := hq.2.symm.trans hq'.2
          exact ⟨(Option.some.inj h1).symm, (Option.some.inj h2).symm⟩
        · exact .inr ⟨e, he, hq'⟩
      · rintro (⟨rfl, rfl⟩ | ⟨e, he, hq'⟩)
        · exact ⟨el, by simp, hq⟩
        · exact ⟨e, List.mem_cons_of_mem _ he, hq'⟩

/-- all Hessians -/
inductive Upds {R : Type} (S : Nat → Nat → Prop) : List (Nat → Nat → R) → List (Nat → Option (Nat → Option R)) → List (Nat → Option (Nat → Option R)) → Prop
  | nil : Upds S [] [] []
  | cons {H Hs M M' Ms Ms'} : Upd2 S H M M' → Upds S Hs Ms Ms' → Upds S (H :: Hs) (M :: Ms) (M' :: Ms')

theorem Upds.nothing {R : Type} {S : Nat → Nat → Prop} (h : ∀ i j, ¬ S i j) : ∀ {Hs : List (Nat → Nat → R)} {Ms : List (Nat → Option (Nat → Option R))},
    Ms.length = Hs.length → Upds S Hs Ms Ms
  | [], [], _ => .nil
  | _ :: _, _ :: _, hl => .cons (Upd2.nothing h) (Upds.nothing h (by simpa using hl))

theorem Upds.trans {R : Type} {S T U : Nat → Nat → Prop} (hu : ∀ i j, U i j ↔ S i j ∨ T i j) :
    ∀ {Hs : List (Nat → Nat → R)} {a b c : List (Nat → Option (Nat → Option R))}, Upds S Hs a b → Upds T Hs b c → Upds U Hs a c
  | _, _, _, _, .nil, .nil => .nil
  | _, _, _, _, .cons h1 t1, .cons h2 t2 => .cons (h1.trans h2 hu) (Upds.trans hu t1 t2)

theorem Upds.length {R : Type} {S : Nat → Nat → Prop} : ∀ {Hs : List (Nat → Nat → R)} {a b : List (Nat → Option (Nat → Option R))}, Upds S Hs a b →
    a.length = Hs.length ∧ b.length = Hs.length
  | _, _, _, .nil => ⟨rfl, rfl⟩
  | _, _, _, .cons _ t => by simp [t.length]

theorem Upds.get {R : Type} {S : Nat → Nat → Prop} : ∀ {Hs : List (Nat → Nat → R)} {a b : List (Nat → Option (Nat → Option R))}, Upds S Hs a b →
    ∀ (l : Nat) (H : Nat → Nat → R) (M : Nat → Option (Nat → Option R)), Hs[l]? = some H → a[l]? = some M → ∃ M', b[l]? = some M' ∧ Upd2 S H M M'
  | _, _, _, .nil, l, H, M, h, _ => by simp at h
  | _, _, _, .cons h t, 0, H, M, h1, h2 => by
    simp at h1 h2
    subst h1 h2
    exact ⟨_, rfl, h⟩
  | _, _, _, .cons h t, l + 1, H, M, h1, h2 => t.get l H M (by simpa using h1) (by simpa using h2)

theorem saveAll_ok {R : Type} {row col : List Nat} (hs : row.length = col.length) :
    ∀ {Hs : List (Nat → Nat → R)} {flats : List (List R)} {Ms : List (Nat → Option (Nat → Option R))}, List.Forall₂ (Stored row col) Hs flats →
      Ms.length = Hs.length → ∃ Ms', saveAll row col flats Ms = some Ms' ∧ Upds (fun i j => ∃ el ∈ List.range row.length, Requested row col el i j) Hs Ms Ms'
  | _, _, [], .nil, _ => ⟨[], rfl, .nil⟩
  | _, _, M :: Ms, .cons h t, hl => by
    obtain ⟨M', e1, e2⟩ := saveHes_ok hs h (List.range row.length) M (by simp)
    obtain ⟨Ms', f1, f2⟩ := saveAll_ok hs t (Ms := Ms) (by simpa using hl)
    exact ⟨M' :: Ms', by simp only [saveAll, e1, f1], .cons e2 f2⟩

theorem saveColumn_ok {R : Type} {dy : List R} {j : Nat} {A : Nat → Nat → R} :
    ∀ (is : List Nat) (jac : List (Nat → Option R)), (∀ i ∈ is, i < jac.length ∧ dy[i]? = some (A i j)) →
      ∃ jac', saveColumn dy j is jac = some jac' ∧ jac'.length = jac.length ∧ Upd (fun i' j' => i' ∈ is ∧ j' = j) A (inVector jac) (inVector jac')
  | [], jac, _ => ⟨jac, rfl, rfl, Upd.nothing fun i j h => by simp at h⟩
  | i :: is, jac, hi => by
    obtain ⟨hlt, hv⟩ := hi i (by simp)
    obtain ⟨r, hr⟩ : ∃ r, jac[i]? = some r := ⟨_, List.getElem?_eq_getElem hlt⟩
    obtain ⟨jac', e1, e2, e3⟩ := saveColumn_ok (dy := dy) (j := j) (A := A) is (jac.set i (put r j (A i j)))
      (fun e he => by simpa using hi e (List.mem_cons_of_mem _ he))
    refine ⟨jac', ?_, by simpa using e2, (put_upd hr).trans e3 ?_⟩
    · unfold saveColumn
      simp only [hv, hr, e1]
    · intro i' j'
      simp only [List.mem_cons]
      tauto

theorem saveRow_ok {R : Type} {px : List R} {a : Nat → R} :
    ∀ (js : List Nat) (r : Nat → Option R), (∀ j ∈ js, px[j * 2 + 1]? = some (a j)) →
      ∃ r', saveRow px js r = some r' ∧ ∀ j, (j ∈ js → r' j = some (a j)) ∧ (j ∉ js → r' j = r j)
  | [], r, _ => ⟨r, rfl, fun j => ⟨fun h => by simp at h, fun _ => rfl⟩⟩
  | j :: js, r, h => by
    obtain ⟨r', e1, e2⟩ := saveRow_ok js (put r j (a j)) fun j' hj' => h j' (List.mem_cons_of_mem _ hj')
    refine ⟨r', ?_, fun j' => ⟨fun hm => ?_, fun hn => ?_⟩⟩
    · unfold saveRow
      simp only [h j (by simp), e1]
    · by_cases hm' : j' ∈ js
      · exact (e2 j').1 hm'
      · rw [(e2 j').2 hm']
        have : j' = j := (List.mem_cons.1 hm).resolve_right hm'
        simp [put, this]
    · rw [(e2 j').2 fun hm => hn (List.mem_cons_of_mem _ hm)]
      have : j' ≠ j := fun e => hn (by simp [e])
      simp [put, this]

theorem saveRows_ok {R : Type} {u : List R} {j1 : Nat} {cols : List Nat} (hne : cols ≠ []) :
    ∀ {Hs : List (Nat → Nat → R)} {revs : List (List R → List R)} {Ms : List (Nat → Option (Nat → Option R))},
      List.Forall₂ (fun H rev => ∀ j ∈ cols, (rev u)[j * 2 + 1]? = some (H j1 j)) Hs revs → Ms.length = Hs.length →
      ∃ Ms', saveRows u j1 cols revs Ms = some Ms' ∧ Upds (fun i j => i = j1 ∧ j ∈ cols) Hs Ms Ms'
  | _, _, [], .nil, _ => ⟨[], rfl, .nil⟩
  | _, _, M :: Ms, .cons (a := H) h t, hl => by
    obtain ⟨r, e1, e2⟩ := saveRow_ok (a := fun j => H j1 j) cols ((M j1).getD fun _ => none) h
    obtain ⟨Ms', f1, f2⟩ := saveRows_ok hne t (Ms := Ms) (by simpa using hl)
    refine ⟨(fun i => if i = j1 then some r else M i) :: Ms', by simp only [saveRows, e1, f1], .cons ⟨fun i j => ⟨?_, ?_⟩, fun i => ?_⟩ f2⟩
    · rintro ⟨rfl, hj⟩
      simp [inMap, (e2 j).1 hj]
    · intro hn
      by_cases hi : i = j1
      · subst hi
        have hj : j ∉ cols := fun e => hn ⟨rfl, e⟩
        simp only [inMap, if_true, Option.bind_some, (e2 j).2 hj]
        cases M i <;> rfl
      · simp [inMap, hi]
    · by_cases hi : i = j1
      · subst hi
        obtain ⟨c, hc⟩ := List.exists_mem_of_ne_nil _ hne
        simp only [if_true, Option.isSome_some, true_iff]
        exact .inr ⟨c, by simpa using hc⟩
      · simp [hi]

theorem sum_unit {R : Type} [CommSemiring R] {n j : Nat} {A : Nat → R} (hj : j < n) :
    ∑ i ∈ Finset.range n, A i * ((List.range n).map fun i => if i = j then (1 : R) else 0).getD i 0 = A j := by
  have hget : ∀ i < n, ((List.range n).map fun i => if i = j then (1 : R) else 0).getD i 0 = if i = j then 1 else 0 := by
    intro i hi
    simp [List.getD_eq_getElem?_getD, hi]
  rw [Finset.sum_eq_single j]
  · rw [hget j hj, if_pos rfl, mul_one]
  · intro i hi hne
    rw [Finset.mem_range] at hi
    rw [hget i hi, if_neg hne, mul_zero]
  · intro hn
    exact absurd (Finset.mem_range.2 hj) hn

section
variable {R : Type} [CommSemiring R] {m n : Nat} {jacP jacEval hesP hesEval : List (List Nat)} (hj : ToEvaluate m n jacP jacEval)
  (hh : ToEvaluate n n hesP hesEval) {J : Nat → Nat → R} {fwd : List R → List R} (hf : ForwardOne m n J fwd)
  {Hs : List (Nat → Nat → R)} {revs : List (List R → List R)} (hrev : List.Forall₂ (ReverseTwo n) Hs revs)
include hj hh hf hrev

theorem byVariable_ok {jacT : List (List Nat)} (ht : ∀ i j, InPattern jacT j i ↔ InPattern jacEval i j) (htl : jacT.length = n) {j1 : Nat} (hj1 : j1 < n)
    {jac : List (Nat → Option R)} {vhess : List (Nat → Option (Nat → Option R))} (hjl : jac.length = m) (hhl : vhess.length = Hs.length) :
    ∃ jac' vhess', byVariable fwd revs n jacT hesEval j1 (jac, vhess) = some (jac', vhess') ∧ jac'.length = m ∧
      Upd (fun i j => j = j1 ∧ InPattern jacEval i j) J (inVector jac) (inVector jac') ∧ Upds (fun i j => i = j1 ∧ InPattern hesEval i j) Hs vhess vhess' := by
  obtain ⟨column, hcol⟩ : ∃ c, jacT[j1]? = some c := ⟨_, List.getElem?_eq_getElem (by omega)⟩
  obtain ⟨cols, hcols⟩ : ∃ c, hesEval[j1]? = some c := ⟨_, List.getElem?_eq_getElem (by rw [hh.evalSize]; exact hj1)⟩
  have hmem : ∀ i, i ∈ column ↔ InPattern jacEval i j1 := by
    intro i
    rw [← ht]
    simp [InPattern, hcol]
  have hmem' : ∀ j, j ∈ cols ↔ InPattern hesEval j1 j := by
    intro j
    simp [InPattern, hcols]
  have hu : ((List.range n).map fun i => if i = j1 then (1 : R) else 0).length = n := by simp
  obtain ⟨jac', e1, e2, e3⟩ := saveColumn_ok (dy := fwd ((List.range n).map fun i => if i = j1 then (1 : R) else 0)) (j := j1) (A := J) column jac (by
    intro i hi
    have him : i < m := by
      obtain ⟨s, h1, _⟩ := (hmem i).1 hi
      have := (List.getElem?_eq_some_iff.1 h1).1
      rw [hj.evalSize] at this
      exact this
    refine ⟨by omega, ?_⟩
    rw [(hf _ hu).2 i him, sum_unit hj1])
  have e3' : Upd (fun i j => j = j1 ∧ InPattern jacEval i j) J (inVector jac) (inVector jac') := by
    intro i j
    have : (j = j1 ∧ InPattern jacEval i j) ↔ (i ∈ column ∧ j = j1) := by
      rw [hmem]
      constructor
      · rintro ⟨rfl, h⟩
        exact ⟨h, rfl⟩
      · rintro ⟨h, rfl⟩
        exact ⟨rfl, h⟩
    show (_ ∧ _ → _) ∧ (¬ (_ ∧ _) → _)
    rw [this]
    exact e3 i j
  unfold byVariable
  simp only [hcol, hcols]
  by_cases h0 : column = [] ∧ cols = []
  · rw [if_pos h0]
    refine ⟨jac, vhess, rfl, hjl, Upd.nothing ?_, Upds.nothing ?_ hhl⟩
    · rintro i j ⟨rfl, h⟩
      have := (hmem i).2 h
      rw [h0.1] at this
      cases this
    · rintro i j ⟨rfl, h⟩
      have := (hmem' j).2 h
      rw [h0.2] at this
      cases this
  · rw [if_neg h0]
    simp only [e1]
    by_cases h1 : cols = []
    · rw [if_pos h1]
      refine ⟨jac', vhess, rfl, by omega, e3', Upds.nothing ?_ hhl⟩
      rintro i j ⟨rfl, h⟩
      have := (hmem' j).2 h
      rw [h1] at this
      cases this
    · rw [if_neg h1]
      obtain ⟨vhess', f1, f2⟩ := saveRows_ok (u := (List.range n).map fun i => if i = j1 then (1 : R) else 0) (j1 := j1) h1
        (hrev.imp fun H rev hr => by
          intro j hj
          have hjn := hh.cols _ _ (hh.inside _ _ ((hmem' j).1 hj))
          rw [hr _ hu j hjn, sum_unit (A := fun i => H i j) hj1]) hhl
      simp only [f1]
      refine ⟨jac', vhess', rfl, by omega, e3', ?_⟩
      have : (fun i j => i = j1 ∧ InPattern hesEval i j) = fun i j => i = j1 ∧ j ∈ cols := by
        funext i j
        rw [hmem']
        refine propext ⟨?_, ?_⟩
        · rintro ⟨rfl, h⟩
          exact ⟨rfl, h⟩
        · rintro ⟨rfl, h⟩
          exact ⟨rfl, h⟩
      rw [this]
      exact f2

theorem byVariables_ok {jacT : List (List Nat)} (ht : ∀ i j, InPattern jacT j i ↔ InPattern jacEval i j) (htl : jacT.length = n)
    {jac : List (Nat → Option R)} {vhess : List (Nat → Option (Nat → Option R))} (hjl : jac.length = m) (hhl : vhess.length = Hs.length) :
    ∀ N ≤ n, ∃ jac' vhess', (List.range N).foldlM (fun s j1 => byVariable fwd revs n jacT hesEval j1 s) (jac, vhess) = some (jac', vhess') ∧ jac'.length = m ∧
      Upd (fun i j => j < N ∧ InPattern jacEval i j) J (inVector jac) (inVector jac') ∧ Upds (fun i j => i < N ∧ InPattern hesEval i j) Hs vhess vhess'
  | 0, _ => ⟨jac, vhess, rfl, hjl, Upd.nothing fun i j h => absurd h.1 (by omega), Upds.nothing (fun i j h => absurd h.1 (by omega)) hhl⟩
  | N + 1, hN => by
    obtain ⟨jac', vhess', e1, e2, e3, e4⟩ := byVariables_ok ht htl hjl hhl N (by omega)
    obtain ⟨jac2, vhess2, f1, f2, f3, f4⟩ := byVariable_ok hj hh hf hrev ht htl (j1 := N) (by omega) e2 e4.length.2
    refine ⟨jac2, vhess2, ?_, f2, e3.trans f3 ?_, Upds.trans ?_ e4 f4⟩
    · rw [List.range_succ, List.foldlM_append, e1]
      simp only [List.foldlM_cons, List.foldlM_nil, Option.bind_eq_bind, Option.bind_some, f1]
      rfl
    · intro i j
      have : j < N + 1 ↔ j < N ∨ j = N := by omega
      rw [this]
      tauto
    · intro i j
      have : i < N + 1 ↔ i < N ∨ i = N := by omega
      rw [this]
      tauto

end

theorem requested_indexes {p : List (List Nat)} {i j : Nat} :
    (∃ k ∈ List.range (Sparsity.indexes p).1.length, Requested (Sparsity.indexes p).1 (Sparsity.indexes p).2 k i j) ↔ InPattern p i j := by
  have h : (i, j) ∈ (Sparsity.indexes p).1.zip (Sparsity.indexes p).2 ↔ InPattern p i j := (Sparsity.mem_pairs (i := 0)).trans (by simp [Sparsity.Entry, InPattern])
  rw [← h]
  constructor
  · rintro ⟨k, _, hq⟩
    refine List.mem_of_getElem? (i := k) ?_
    rw [List.getElem?_zip_eq_some]
    exact hq
  · intro hm
    obtain ⟨k, hk⟩ := List.mem_iff_getElem?.1 hm
    rw [List.getElem?_zip_eq_some] at hk
    exact ⟨k, by simpa using requested_lt hk, hk⟩

theorem indexes_valid {m n : Nat} {p eval : List (List Nat)} (h : ToEvaluate m n p eval) :
    ValidRequest m n p (Sparsity.indexes eval).1 (Sparsity.indexes eval).2 := by
  have hlen := Sparsity.indexesFrom_len 0 eval
  have hsz : (Sparsity.indexes eval).1.length = (Sparsity.indexes eval).2.length := by
    unfold Sparsity.indexes
    omega
  have hin : ∀ k i j, Requested (Sparsity.indexes eval).1 (Sparsity.indexes eval).2 k i j → InPattern eval i j := fun k i j hq =>
    requested_indexes.1 ⟨k, by simpa using requested_lt hq, hq⟩
  refine ⟨hsz, ?_, ?_, h.size, fun k i j hq => h.inside i j (hin k i j hq)⟩
  · intro i hi
    obtain ⟨k, hk, rfl⟩ := List.getElem_of_mem hi
    have hq := requested_of_lt hsz hk
    obtain ⟨s, h1, _⟩ := hin _ _ _ hq
    have := (List.getElem?_eq_some_iff.1 h1).1
    simp [List.getD_eq_getElem?_getD, hk] at this
    rw [h.evalSize] at this
    exact this
  · intro j hj
    obtain ⟨k, hk, rfl⟩ := List.getElem_of_mem hj
    have hq := requested_of_lt hsz (k := k) (by omega)
    have := h.cols _ _ (h.inside _ _ (hin _ _ _ hq))
    simpa [List.getD_eq_getElem?_getD, hk] using this

theorem resize_length {A : Type} {m : Nat} {e : A} {l : List A} : (resize m e l).length = m := by
  simp [resize]
  omega

theorem resize_get {A : Type} {m : Nat} {e : A} {l : List A} {i : Nat} (hi : i < m) : (resize m e l)[i]? = some (l.getD i e) := by
  unfold resize
  rw [List.getElem?_take_of_lt hi]
  by_cases h : i < l.length
  · rw [List.getElem?_append_left h]
    simp [List.getD_eq_getElem?_getD, h]
  · rw [List.getElem?_append_right (by omega)]
    rw [List.getElem?_replicate, if_pos (by omega)]
    simp [List.getD_eq_getElem?_getD, h]

end Verif.Colors
