import Verif.Dae.Spec
import Verif.Dae.Model
namespace Verif.Dae

/-! ### both strategies at once -/

/-- `pick`: look ahead, `cons`: variables to consider, `mark`: variables are coloured -/
def tryG (cons : VN → Bool) (mark : Bool) (rec : Nat → BG → Except Err (Bool × BG)) (i : Nat) :
    List Nat → BG → Except Err (Bool × BG)
  | [], g => .ok (false, g)
  | j :: js, g =>
    if (g.v j).colored || !cons (g.v j) then tryG cons mark rec i js g
    else
      let g1 := if mark then g.colorV j else g
      match (g.v j).assign with
      | none => .error .ub
      | some k =>
        if (g1.e k).colored then tryG cons mark rec i js g1
        else
          match rec k g1 with
          | .error x => .error x
          | .ok (true, g2) => .ok (true, g2.setAssign j i)
          | .ok (false, g2) => tryG cons mark rec i js g2

def augG (pick : BG → List Nat → Option Nat) (cons : VN → Bool) (mark : Bool) : Nat → Nat → BG → Except Err (Bool × BG)
  | 0, _, _ => .error .ub
  | fuel + 1, i, g =>
    let g := g.colorE i
    match pick g (g.e i).vars with
    | some j => .ok (true, g.setAssign j i)
    | none => tryG cons mark (augG pick cons mark fuel) i (g.e i).vars g

def pick1 (g : BG) (vs : List Nat) : Option Nat :=
  match vs.find? (fun j => (g.v j).anti.isSome && (g.v j).assign.isNone) with
  | some j => some j
  | none => vs.find? (fun j => (g.v j).anti.isNone && (g.v j).assign.isNone)

def pickA (g : BG) (vs : List Nat) : Option Nat :=
  vs.find? (fun j => (g.v j).deriv.isNone && (g.v j).anti.isSome && (g.v j).assign.isNone)

def consA (n : VN) : Bool := n.deriv.isNone && n.anti.isSome

theorem colorV_v {g : BG} {j k : Nat} : (g.colorV j).v k = if k = j then { g.v k with colored := true } else g.v k := rfl
theorem colorV_e {g : BG} {j k : Nat} : (g.colorV j).e k = g.e k := rfl
theorem colorE_e {g : BG} {j k : Nat} : (g.colorE j).e k = if k = j then { g.e k with colored := true } else g.e k := rfl
theorem colorE_v {g : BG} {j k : Nat} : (g.colorE j).v k = g.v k := rfl
theorem setAssign_v {g : BG} {j i k : Nat} :
    (g.setAssign j i).v k = if k = j then { g.v k with assign := some i } else g.v k := rfl
theorem setAssign_e {g : BG} {j i k : Nat} :
    (g.setAssign j i).e k = if k = i then { g.e k with assign := some j } else g.e k := rfl

theorem tryVars_eq {rec : Nat → BG → Except Err (Bool × BG)} {i : Nat} : ∀ (js : List Nat) (g : BG),
    tryVars rec i js g = tryG (fun _ => true) true rec i js g := by
  intro js
  induction js with
  | nil => intro g; rfl
  | cons j js ih =>
    intro g
    unfold tryVars tryG
    by_cases hc : (g.v j).colored = true
    · simp only [hc, if_true, Bool.true_or]; exact ih g
    · have ha : ((g.colorV j).v j).assign = (g.v j).assign := by rw [colorV_v, if_pos rfl]
      simp only [hc, Bool.not_true, Bool.or_false, if_true, ha]
      rw [if_neg (by simp), if_neg (by simp)]
      cases (g.v j).assign with
      | none => rfl
      | some k =>
        simp only
        split
        · exact ih _
        · cases rec k (g.colorV j) with
          | error x => rfl
          | ok q =>
            obtain ⟨b, g2⟩ := q
            cases b
            · exact ih _
            · rfl

theorem augmentPath_eq : ∀ (fuel i : Nat) (g : BG), augmentPath fuel i g = augG pick1 (fun _ => true) true fuel i g := by
  intro fuel
  induction fuel with
  | zero => intro i g; rfl
  | succ fuel ih =>
    intro i g
    have : augmentPath fuel = augG pick1 (fun _ => true) true fuel := by funext i g; exact ih i g
    unfold augmentPath augG pick1
    simp only
    cases h1 : ((g.colorE i).e i).vars.find? (fun j => ((g.colorE i).v j).anti.isSome && ((g.colorE i).v j).assign.isNone) with
    | some j => rfl
    | none =>
      simp only
      cases h2 : ((g.colorE i).e i).vars.find? (fun j => ((g.colorE i).v j).anti.isNone && ((g.colorE i).v j).assign.isNone) with
      | some j => rfl
      | none => simp only; rw [tryVars_eq, this]; rfl

theorem tryVarsA_eq {rec : Nat → BG → Except Err (Bool × BG)} {i : Nat} : ∀ (js : List Nat) (g : BG),
    tryVarsA rec i js g = tryG consA false rec i js g := by
  intro js
  induction js with
  | nil => intro g; rfl
  | cons j js ih =>
    intro g
    unfold tryVarsA tryG
    by_cases hc : ((g.v j).colored || !consA (g.v j)) = true
    · rw [if_pos hc, if_neg (by
        unfold consA at hc
        intro h
        simp only [Bool.and_eq_true, Bool.not_eq_true'] at h
        simp [h.1.1, h.1.2, h.2] at hc)]
      exact ih g
    · rw [if_neg hc, if_pos (by
        unfold consA at hc
        simp only [Bool.or_eq_true, not_or, Bool.not_eq_true, Bool.not_eq_false', Bool.and_eq_true] at hc
        simp [hc.1, hc.2.1, hc.2.2])]
      simp only [Bool.false_eq_true, if_false]
      cases (g.v j).assign with
      | none => rfl
      | some k =>
        simp only
        split
        · exact ih _
        · cases rec k g with
          | error x => rfl
          | ok q =>
            obtain ⟨b, g2⟩ := q
            cases b
            · exact ih _
            · rfl

theorem augmentPathA_eq : ∀ (fuel i : Nat) (g : BG), augmentPathA fuel i g = augG pickA consA false fuel i g := by
  intro fuel
  induction fuel with
  | zero => intro i g; rfl
  | succ fuel ih =>
    intro i g
    have : augmentPathA fuel = augG pickA consA false fuel := by funext i g; exact ih i g
    unfold augmentPathA augG pickA
    simp only
    cases h1 : ((g.colorE i).e i).vars.find? (fun j => ((g.colorE i).v j).deriv.isNone && ((g.colorE i).v j).anti.isSome &&
        ((g.colorE i).v j).assign.isNone) with
    | some j => rfl
    | none => simp only; rw [tryVarsA_eq, this]; rfl

/-! ### what does not change -/

structure Same (g g' : BG) : Prop where
  nv : g'.nv = g.nv
  ne : g'.ne = g.ne
  deleted : ∀ j, (g'.v j).deleted = (g.v j).deleted
  param : ∀ j, (g'.v j).param = (g.v j).param
  eqs : ∀ j, (g'.v j).eqs = (g.v j).eqs
  deriv : ∀ j, (g'.v j).deriv = (g.v j).deriv
  anti : ∀ j, (g'.v j).anti = (g.v j).anti
  orig : ∀ i, (g'.e i).orig = (g.e i).orig
  vars : ∀ i, (g'.e i).vars = (g.e i).vars
  diff : ∀ i, (g'.e i).diff = (g.e i).diff
  diffOf : ∀ i, (g'.e i).diffOf = (g.e i).diffOf

theorem Same.refl (g : BG) : Same g g := ⟨rfl, rfl, fun _ => rfl, fun _ => rfl, fun _ => rfl, fun _ => rfl, fun _ => rfl,
  fun _ => rfl, fun _ => rfl, fun _ => rfl, fun _ => rfl⟩

theorem Same.trans {a b c : BG} (h : Same a b) (h' : Same b c) : Same a c :=
  ⟨h'.nv.trans h.nv, h'.ne.trans h.ne, fun j => (h'.deleted j).trans (h.deleted j), fun j => (h'.param j).trans (h.param j),
    fun j => (h'.eqs j).trans (h.eqs j), fun j => (h'.deriv j).trans (h.deriv j), fun j => (h'.anti j).trans (h.anti j),
    fun i => (h'.orig i).trans (h.orig i), fun i => (h'.vars i).trans (h.vars i), fun i => (h'.diff i).trans (h.diff i),
    fun i => (h'.diffOf i).trans (h.diffOf i)⟩

theorem same_colorV (g : BG) (j : Nat) : Same g (g.colorV j) := by
  refine ⟨rfl, rfl, ?_, ?_, ?_, ?_, ?_, fun _ => rfl, fun _ => rfl, fun _ => rfl, fun _ => rfl⟩ <;>
    (intro k; rw [colorV_v]; split <;> rfl)

theorem same_colorE (g : BG) (j : Nat) : Same g (g.colorE j) := by
  refine ⟨rfl, rfl, fun _ => rfl, fun _ => rfl, fun _ => rfl, fun _ => rfl, fun _ => rfl, ?_, ?_, ?_, ?_⟩ <;>
    (intro k; rw [colorE_e]; split <;> rfl)

theorem same_setAssign (g : BG) (j i : Nat) : Same g (g.setAssign j i) := by
  refine ⟨rfl, rfl, ?_, ?_, ?_, ?_, ?_, ?_, ?_, ?_, ?_⟩ <;>
    (intro k; first | (rw [setAssign_v]; split <;> rfl) | (rw [setAssign_e]; split <;> rfl))

/-- considering a variable depends on its derivatives only -/
def Static (cons : VN → Bool) : Prop := ∀ n n' : VN, n'.deriv = n.deriv → n'.anti = n.anti → cons n' = cons n

theorem Same.cons {g g' : BG} (h : Same g g') {cons : VN → Bool} (hs : Static cons) (j : Nat) : cons (g'.v j) = cons (g.v j) :=
  hs _ _ (h.deriv j) (h.anti j)

/-! ### the search -/

/-- assignments of equations and variables agree -/
structure Mut (g : BG) : Prop where
  iff : ∀ k j, (g.e k).assign = some j ↔ (g.v j).assign = some k
  lt : ∀ j k, (g.v j).assign = some k → k < g.ne

/-- a failed search from `i` -/
structure Failed (cons : VN → Bool) (mark : Bool) (g : BG) (i : Nat) (g' : BG) : Prop where
  same : Same g g'
  av : ∀ j, (g'.v j).assign = (g.v j).assign
  ae : ∀ k, (g'.e k).assign = (g.e k).assign
  cv : ∀ j, (g.v j).colored = true → (g'.v j).colored = true
  ce : ∀ k, (g.e k).colored = true → (g'.e k).colored = true
  inv : ∀ j, (g'.v j).colored = true → cons (g.v j) = true → ∃ k, (g.v j).assign = some k ∧ (g'.e k).colored = true
  done : ∀ k, (g'.e k).colored = true → (g.e k).colored = false → ∀ j ∈ (g.e k).vars, cons (g.v j) = true →
    (mark = true → (g'.v j).colored = true) ∧ ∃ k', (g.v j).assign = some k' ∧ (g'.e k').colored = true
  reach : ∀ S : Nat → Prop, S i → (∀ k0 j k, S k0 → j ∈ (g.e k0).vars → cons (g.v j) = true → (g.v j).assign = some k → S k) →
    ∀ k, (g'.e k).colored = true → (g.e k).colored = false → S k

/-- a successful search from `i` -/
structure Found (cons : VN → Bool) (g : BG) (i : Nat) (g' : BG) : Prop where
  same : Same g g'
  e2v : ∀ k j, (g'.e k).assign = some j → (g'.v j).assign = some k
  v2e : ∀ j k, (g'.v j).assign = some k → (g'.e k).assign = some j ∨ (k = i ∧ (g.e i).assign = some j)
  keep : ∀ k, (g.e k).assign ≠ none → (g'.e k).assign ≠ none
  fresh : ∀ k, (g'.e k).assign ≠ none → (g.e k).assign ≠ none ∨ k = i
  self : ∃ j, (g'.e i).assign = some j ∧ (g.e i).assign ≠ some j
  keepV : ∀ j, (g.v j).assign ≠ none → (g'.v j).assign ≠ none
  inc : ∀ k j, (g'.e k).assign = some j → (g.e k).assign = some j ∨ (j ∈ (g.e k).vars ∧ cons (g.v j) = true)
  hole : ∀ j, (g.e i).assign = some j → (g'.v j).assign = some i
  keepVC : ∀ h k, (g.v h).assign = some k → (g.e k).colored = true → (g'.v h).assign = some k
  keepC : ∀ k, (g.e k).colored = true → (g'.e k).assign = (g.e k).assign
  lt : ∀ j k, (g'.v j).assign = some k → (g.v j).assign = some k ∨ k = i ∨ ∃ j', (g.v j').assign = some k

/-- assigning a free variable -/
theorem found_free {cons : VN → Bool} {g : BG} {i j : Nat} (hm : Mut g) (hi : (g.e i).colored = false)
    (hj : j ∈ (g.e i).vars) (hc : cons (g.v j) = true) (hf : (g.v j).assign = none) :
    Found cons g i ((g.colorE i).setAssign j i) := by
  have hold : ∀ h, (g.e i).assign = some h → h ≠ j := by
    rintro h hh rfl
    rw [(hm.iff i h).mp hh] at hf; cases hf
  have hv : ∀ k, ((g.colorE i).setAssign j i |>.v k).assign = if k = j then some i else (g.v k).assign := by
    intro k; rw [setAssign_v]; split <;> rfl
  have he : ∀ k, ((g.colorE i).setAssign j i |>.e k).assign = if k = i then some j else (g.e k).assign := by
    intro k; rw [setAssign_e]
    split
    · rfl
    · rename_i h; rw [colorE_e, if_neg h]
  refine ⟨(same_colorE g i).trans (same_setAssign _ _ _), ?_, ?_, ?_, ?_, ?_, ?_, ?_, ?_, ?_, ?_, ?_⟩
  · intro k j' h
    rw [he] at h
    rw [hv]
    split at h
    · rename_i hk; cases h; rw [if_pos rfl, hk]
    · have := (hm.iff k j').mp h
      rw [if_neg (by rintro rfl; rw [hf] at this; cases this)]
      exact this
  · intro j' k h
    rw [hv] at h
    rw [he]
    split at h
    · rename_i hj'; cases h; left; rw [if_pos rfl, hj']
    · have := (hm.iff k j').mpr h
      by_cases hk : k = i
      · subst hk; right; exact ⟨rfl, this⟩
      · left; rw [if_neg hk]; exact this
  · intro k h
    rw [he]; split
    · simp
    · exact h
  · intro k h
    rw [he] at h
    split at h
    · right; assumption
    · left; exact h
  · refine ⟨j, by rw [he, if_pos rfl], fun h => hold j h rfl⟩
  · intro j' h
    rw [hv]; split
    · simp
    · exact h
  · intro k j' h
    rw [he] at h
    split at h
    · rename_i hk; cases h; right; rw [hk]; exact ⟨hj, hc⟩
    · left; exact h
  · intro j' h
    rw [hv, if_neg (hold j' h)]
    exact (hm.iff i j').mp h
  · intro h k hk _
    rw [hv, if_neg (by rintro rfl; rw [hf] at hk; cases hk)]
    exact hk
  · intro k hk
    rw [he, if_neg (by rintro rfl; rw [hi] at hk; cases hk)]
  · intro j' k h
    rw [hv] at h
    split at h
    · cases h; right; left; rfl
    · left; exact h

/-- the number of equations which are not coloured -/
def unc (g : BG) : Nat := ((List.range g.ne).filter fun k => !(g.e k).colored).length

theorem filter_le {p q : Nat → Bool} : ∀ (l : List Nat), (∀ x ∈ l, p x = true → q x = true) →
    (l.filter p).length ≤ (l.filter q).length := by
  intro l
  induction l with
  | nil => intro _; simp
  | cons a l ih =>
    intro h
    have := ih fun x hx => h x (List.mem_cons_of_mem _ hx)
    have ha := h a List.mem_cons_self
    by_cases hp : p a = true
    · simp [hp, ha hp]; omega
    · by_cases hq : q a = true
      · simp [hp, hq]; omega
      · simp [hp, hq]; omega

theorem filter_lt {p q : Nat → Bool} : ∀ (l : List Nat), (∀ x ∈ l, p x = true → q x = true) →
    ∀ a ∈ l, p a = false → q a = true → (l.filter p).length < (l.filter q).length := by
  intro l
  induction l with
  | nil => intro _ a h; cases h
  | cons b l ih =>
    intro h a ha hp hq
    have hle := filter_le l fun x hx => h x (List.mem_cons_of_mem _ hx)
    rcases List.mem_cons.mp ha with rfl | ha
    · simp [hp, hq]; omega
    · have := ih (fun x hx => h x (List.mem_cons_of_mem _ hx)) a ha hp hq
      have hb := h b List.mem_cons_self
      by_cases hpb : p b = true
      · simp [hpb, hb hpb]; omega
      · by_cases hqb : q b = true
        · simp [hpb, hqb]; omega
        · simp [hpb, hqb]; omega

theorem unc_mono {g g' : BG} (hn : g'.ne = g.ne) (h : ∀ k, (g.e k).colored = true → (g'.e k).colored = true) : unc g' ≤ unc g := by
  unfold unc
  rw [hn]
  refine filter_le _ fun k _ hk => ?_
  have : (g'.e k).colored = false := by simpa using hk
  cases hc : (g.e k).colored with
  | false => rfl
  | true => rw [h k hc] at this; cases this

theorem unc_lt {g g' : BG} (hn : g'.ne = g.ne) (h : ∀ k, (g.e k).colored = true → (g'.e k).colored = true) {i : Nat} (hi : i < g.ne)
    (h1 : (g.e i).colored = false) (h2 : (g'.e i).colored = true) : unc g' < unc g := by
  unfold unc
  rw [hn]
  refine filter_lt _ (fun k _ hk => ?_) i (List.mem_range.mpr hi) (by simp [h2]) (by simp [h1])
  have : (g'.e k).colored = false := by simpa using hk
  cases hc : (g.e k).colored with
  | false => rfl
  | true => rw [h k hc] at this; cases this

/-- coloured variables are assigned to coloured equations, or to `i` -/
def Inv (cons : VN → Bool) (i : Option Nat) (g : BG) : Prop :=
  ∀ j, (g.v j).colored = true → cons (g.v j) = true →
    ∃ k, (g.v j).assign = some k ∧ ((g.e k).colored = true ∨ some k = i)

/-- what a search does -/
def Does (cons : VN → Bool) (mark : Bool) (rec : Nat → BG → Except Err (Bool × BG)) (n : Nat) : Prop :=
  ∀ i g, Mut g → (g.e i).colored = false → i < g.ne → Inv cons (some i) g → unc g ≤ n →
    (∃ g', rec i g = .ok (true, g') ∧ Found cons g i g') ∨
    (∃ g', rec i g = .ok (false, g') ∧ (g'.e i).colored = true ∧ Failed cons mark g i g')

/-- the loop over the variables: `g0` is the graph when the equation was entered -/
structure Loop (cons : VN → Bool) (mark : Bool) (i : Nat) (js : List Nat) (g g' : BG) : Prop where
  failed : Failed cons mark g i g'
  all : ∀ j ∈ js, cons (g.v j) = true →
    (mark = true → (g'.v j).colored = true) ∧ ∃ k', (g.v j).assign = some k' ∧ (g'.e k').colored = true

theorem tryG_does {cons : VN → Bool} (hst : Static cons) {mark : Bool} {rec : Nat → BG → Except Err (Bool × BG)} {n : Nat}
    (hrec : Does cons mark rec n) {i : Nat} : ∀ (js : List Nat) (g : BG), Mut g → (g.e i).colored = true → i < g.ne →
    Inv cons none g → unc g ≤ n → (∀ j ∈ js, j ∈ (g.e i).vars) → (∀ j ∈ js, cons (g.v j) = true → (g.v j).assign ≠ none) →
    (∃ g0 j k g2, tryG cons mark rec i js g = .ok (true, g2.setAssign j i) ∧ Same g g0 ∧
      (∀ j, (g0.v j).assign = (g.v j).assign) ∧ (∀ k, (g0.e k).assign = (g.e k).assign) ∧
      (∀ k, (g.e k).colored = true → (g0.e k).colored = true) ∧
      j ∈ js ∧ cons (g.v j) = true ∧ (g.v j).assign = some k ∧ (g0.e k).colored = false ∧ Found cons g0 k g2) ∨
    (∃ g', tryG cons mark rec i js g = .ok (false, g') ∧ Loop cons mark i js g g') := by
  intro js
  induction js with
  | nil =>
    intro g hm hi hlt hinv hn hin hf
    right
    refine ⟨g, rfl, ⟨Same.refl g, fun _ => rfl, fun _ => rfl, fun _ h => h, fun _ h => h, ?_, ?_, ?_⟩, ?_⟩
    · intro j hj hc
      obtain ⟨k, hk, h⟩ := hinv j hj hc
      exact ⟨k, hk, by rcases h with h | h; exact h; cases h⟩
    · intro k h1 h2; rw [h1] at h2; cases h2
    · intro S _ _ k h1 h2; rw [h1] at h2; cases h2
    · intro j hj; cases hj
  | cons j js ih =>
    intro g hm hi hlt hinv hn hin hf
    -- continuing with the remaining variables from a graph with the same assignments
    have cont : ∀ g1, Failed cons mark g i g1 →
        (cons (g.v j) = true → (mark = true → (g1.v j).colored = true) ∧
          ∃ k', (g.v j).assign = some k' ∧ (g1.e k').colored = true) →
        (∃ g0 j' k g2, tryG cons mark rec i js g1 = .ok (true, g2.setAssign j' i) ∧ Same g g0 ∧
          (∀ j, (g0.v j).assign = (g.v j).assign) ∧ (∀ k, (g0.e k).assign = (g.e k).assign) ∧
          (∀ k, (g.e k).colored = true → (g0.e k).colored = true) ∧
          j' ∈ j :: js ∧ cons (g.v j') = true ∧ (g.v j').assign = some k ∧ (g0.e k).colored = false ∧ Found cons g0 k g2) ∨
        (∃ g', tryG cons mark rec i js g1 = .ok (false, g') ∧ Loop cons mark i (j :: js) g g') := by
      intro g1 F hj
      have hs := F.same
      have hm1 : Mut g1 := ⟨fun k j => by rw [F.ae, F.av]; exact hm.iff k j, fun j k h => by
        rw [F.av] at h; rw [hs.ne]; exact hm.lt j k h⟩
      have hinv1 : Inv cons none g1 := by
        intro j' h1 h2
        rw [hs.cons hst] at h2
        obtain ⟨k, hk, hc⟩ := F.inv j' h1 h2
        exact ⟨k, by rw [F.av]; exact hk, .inl hc⟩
      rcases ih g1 hm1 (F.ce i hi) (by rw [hs.ne]; exact hlt) hinv1 (Nat.le_trans (unc_mono hs.ne F.ce) hn)
          (fun j' h => by rw [hs.vars]; exact hin j' (List.mem_cons_of_mem _ h))
          (fun j' h hc => by rw [F.av]; rw [hs.cons hst] at hc; exact hf j' (List.mem_cons_of_mem _ h) hc) with
        ⟨g0, j', k, g2, e, s, a1, a2, a3, a4, a5, a6, a7, a8⟩ | ⟨g', e, ⟨F', A'⟩⟩
      · left
        exact ⟨g0, j', k, g2, e, hs.trans s, fun j => (a1 j).trans (F.av j), fun k => (a2 k).trans (F.ae k),
          fun k h => a3 k (F.ce k h), List.mem_cons_of_mem _ a4, by rw [hs.cons hst] at a5; exact a5,
          by rw [F.av] at a6; exact a6, a7, a8⟩
      · right
        refine ⟨g', e, ⟨hs.trans F'.same, fun j => (F'.av j).trans (F.av j), fun k => (F'.ae k).trans (F.ae k),
          fun j h => F'.cv j (F.cv j h), fun k h => F'.ce k (F.ce k h), ?_, ?_, ?_⟩, ?_⟩
        · intro j' h1 h2
          obtain ⟨k, hk, hc⟩ := F'.inv j' h1 (by rw [hs.cons hst]; exact h2)
          exact ⟨k, by rw [F.av] at hk; exact hk, hc⟩
        · intro k h1 h2 j' hj' hc
          cases h3 : (g1.e k).colored with
          | true =>
            obtain ⟨b1, k', b2, b3⟩ := F.done k h3 h2 j' hj' hc
            exact ⟨fun hmk => F'.cv _ (b1 hmk), k', b2, F'.ce _ b3⟩
          | false =>
            have := F'.done k h1 h3 j' (by rw [hs.vars]; exact hj') (by rw [hs.cons hst]; exact hc)
            rw [F.av] at this
            exact this
        · intro S hS hcl k h1 h2
          cases h3 : (g1.e k).colored with
          | true => exact F.reach S hS hcl k h3 h2
          | false =>
            refine F'.reach S hS ?_ k h1 h3
            intro k0 j' k' a b c d
            rw [hs.vars] at b
            rw [hs.cons hst] at c
            rw [F.av] at d
            exact hcl k0 j' k' a b c d
        · intro j' hj' hc
          rcases List.mem_cons.mp hj' with rfl | hj'
          · obtain ⟨b1, k', b2, b3⟩ := hj hc
            exact ⟨fun hmk => F'.cv _ (b1 hmk), k', b2, F'.ce _ b3⟩
          · have := A' j' hj' (by rw [hs.cons hst]; exact hc)
            rw [F.av] at this
            exact this
    have refl_failed : Failed cons mark g i g := by
      refine ⟨Same.refl g, fun _ => rfl, fun _ => rfl, fun _ h => h, fun _ h => h, ?_, ?_, ?_⟩
      · intro j hj hc
        obtain ⟨k, hk, h⟩ := hinv j hj hc
        exact ⟨k, hk, by rcases h with h | h; exact h; cases h⟩
      · intro k h1 h2; rw [h1] at h2; cases h2
      · intro S _ _ k h1 h2; rw [h1] at h2; cases h2
    unfold tryG
    by_cases hskip : ((g.v j).colored || !cons (g.v j)) = true
    · simp only [hskip, if_true]
      refine cont g refl_failed ?_
      intro hc
      rw [hc] at hskip
      have hcol : (g.v j).colored = true := by simpa using hskip
      obtain ⟨k, hk, h⟩ := hinv j hcol hc
      exact ⟨fun _ => hcol, k, hk, by rcases h with h | h; exact h; cases h⟩
    · simp only [Bool.not_eq_true] at hskip
      have hcol : (g.v j).colored = false := by
        cases h : (g.v j).colored with
        | false => rfl
        | true => rw [h] at hskip; simp at hskip
      have hc : cons (g.v j) = true := by
        rw [hcol] at hskip; simpa using hskip
      rw [if_neg (by rw [hskip]; simp)]
      simp only
      obtain ⟨k, hk⟩ : ∃ k, (g.v j).assign = some k := Option.ne_none_iff_exists'.mp (hf j List.mem_cons_self hc)
      rw [hk]
      simp only
      -- the graph with the variable coloured
      obtain ⟨g1, hg1⟩ : ∃ g1, g1 = if mark then g.colorV j else g := ⟨_, rfl⟩
      rw [← hg1]
      have hs1 : Same g g1 := by rw [hg1]; split; exact same_colorV g j; exact Same.refl g
      have hv1 : ∀ j', (g1.v j').assign = (g.v j').assign := by
        intro j'; rw [hg1]; split
        · rw [colorV_v]; split <;> rfl
        · rfl
      have he1 : ∀ k, g1.e k = g.e k := by intro k; rw [hg1]; split <;> rfl
      have hcv1 : ∀ j', (g.v j').colored = true → (g1.v j').colored = true := by
        intro j' h; rw [hg1]; split
        · rw [colorV_v]; split
          · rfl
          · exact h
        · exact h
      have hcj1 : mark = true → (g1.v j).colored = true := by
        intro h; rw [hg1, if_pos h, colorV_v, if_pos rfl]
      have hcvn : ∀ j', j' ≠ j → (g1.v j').colored = (g.v j').colored := by
        intro j' h; rw [hg1]; split
        · rw [colorV_v, if_neg h]
        · rfl
      have hm1 : Mut g1 := ⟨fun k j => by rw [he1, hv1]; exact hm.iff k j, fun j k h => by
        rw [hv1] at h; rw [hs1.ne]; exact hm.lt j k h⟩
      by_cases hkc : (g1.e k).colored = true
      · rw [if_pos hkc]
        refine cont g1 ⟨hs1, hv1, fun k => by rw [he1], hcv1, fun k h => by rw [he1]; exact h, ?_, ?_, ?_⟩ ?_
        · intro j' h1 h2
          by_cases hj' : j' = j
          · subst hj'; exact ⟨k, hk, hkc⟩
          · rw [hcvn j' hj'] at h1
            obtain ⟨k', b1, b2⟩ := hinv j' h1 h2
            exact ⟨k', b1, by rw [he1]; rcases b2 with b2 | b2; exact b2; cases b2⟩
        · intro k' h1 h2; rw [he1, h2] at h1; cases h1
        · intro S _ _ k' h1 h2; rw [he1, h2] at h1; cases h1
        · intro _; exact ⟨hcj1, k, hk, hkc⟩
      · rw [if_neg hkc]
        have hkc' : (g1.e k).colored = false := by simpa using hkc
        have hinv1 : Inv cons (some k) g1 := by
          intro j' h1 h2
          rw [hs1.cons hst] at h2
          rw [hv1]
          by_cases hj' : j' = j
          · subst hj'; exact ⟨k, hk, .inr rfl⟩
          · rw [hcvn j' hj'] at h1
            obtain ⟨k', b1, b2⟩ := hinv j' h1 h2
            refine ⟨k', b1, .inl ?_⟩
            rw [he1]
            rcases b2 with b2 | b2
            · exact b2
            · cases b2
        rcases hrec k g1 hm1 hkc' (by rw [hs1.ne]; exact hm.lt j k hk) hinv1
            (Nat.le_trans (unc_mono hs1.ne fun k h => by rw [he1]; exact h) hn) with ⟨g2, e, F⟩ | ⟨g2, e, hk2, F⟩
        · left
          rw [e]
          exact ⟨g1, j, k, g2, rfl, hs1, hv1, fun k => by rw [he1], fun k h => by rw [he1]; exact h, List.mem_cons_self, hc,
            hk, hkc', F⟩
        · rw [e]
          simp only
          refine cont g2 ⟨hs1.trans F.same, fun j => (F.av j).trans (hv1 j), fun k => by rw [F.ae, he1],
            fun j h => F.cv j (hcv1 j h), fun k h => F.ce k (by rw [he1]; exact h), ?_, ?_, ?_⟩ ?_
          · intro j' h1 h2
            obtain ⟨k', b1, b2⟩ := F.inv j' h1 (by rw [hs1.cons hst]; exact h2)
            exact ⟨k', by rw [hv1] at b1; exact b1, b2⟩
          · intro k' h1 h2 j' hj' hc'
            have := F.done k' h1 (by rw [he1]; exact h2) j' (by rw [he1]; exact hj') (by rw [hs1.cons hst]; exact hc')
            rw [hv1] at this
            exact this
          · intro S hS hcl k' h1 h2
            refine F.reach S (hcl i j k hS (hin j List.mem_cons_self) hc hk) ?_ k' h1 (by rw [he1]; exact h2)
            intro k0 j' k'' a b c d
            rw [he1] at b
            rw [hs1.cons hst] at c
            rw [hv1] at d
            exact hcl k0 j' k'' a b c d
          · intro _; exact ⟨fun hmk => F.cv j (hcj1 hmk), k, hk, hk2⟩

/-- the requirements on the look ahead -/
structure Pick (pick : BG → List Nat → Option Nat) (cons : VN → Bool) : Prop where
  some : ∀ g vs j, pick g vs = Option.some j → j ∈ vs ∧ (g.v j).assign = Option.none ∧ cons (g.v j) = true
  none : ∀ g vs, pick g vs = Option.none → ∀ j ∈ vs, cons (g.v j) = true → (g.v j).assign ≠ Option.none

theorem augG_does {pick : BG → List Nat → Option Nat} {cons : VN → Bool} (hst : Static cons) (hp : Pick pick cons) {mark : Bool} :
    ∀ fuel, Does cons mark (augG pick cons mark fuel) fuel := by
  intro fuel
  induction fuel with
  | zero =>
    intro i g hm hi hlt hinv hn
    have : 0 < unc g := by
      unfold unc
      refine List.length_pos_of_mem (a := i) ?_
      rw [List.mem_filter]
      exact ⟨List.mem_range.mpr hlt, by simp [hi]⟩
    omega
  | succ fuel ih =>
    intro i g hm hi hlt hinv hn
    unfold augG
    simp only
    have hce : ((g.colorE i).e i).colored = true := by rw [colorE_e, if_pos rfl]
    have hmono : ∀ k, (g.e k).colored = true → ((g.colorE i).e k).colored = true := by
      intro k h; rw [colorE_e]; split
      · rfl
      · exact h
    have hae : ∀ k, ((g.colorE i).e k).assign = (g.e k).assign := by
      intro k; rw [colorE_e]; split <;> rfl
    have hs := same_colorE g i
    cases hpk : pick (g.colorE i) ((g.colorE i).e i).vars with
    | some j =>
      left
      obtain ⟨h1, h2, h3⟩ := hp.some _ _ _ hpk
      rw [hs.vars] at h1
      exact ⟨_, rfl, found_free hm hi h1 h3 h2⟩
    | none =>
      simp only
      have hfree := hp.none _ _ hpk
      have hm1 : Mut (g.colorE i) := ⟨fun k j => by rw [hae]; exact hm.iff k j, hm.lt⟩
      have hinv1 : Inv cons none (g.colorE i) := by
        intro j h1 h2
        obtain ⟨k, b1, b2⟩ := hinv j h1 h2
        refine ⟨k, b1, .inl ?_⟩
        rcases b2 with b2 | b2
        · exact hmono k b2
        · cases b2; exact hce
      have hlt' := unc_lt (g := g) (g' := g.colorE i) rfl hmono hlt hi hce
      rcases tryG_does hst ih ((g.colorE i).e i).vars (g.colorE i) hm1 hce hlt hinv1 (by omega) (fun _ h => h) hfree with
        ⟨g0, j, k, g2, e, s, a1, a2, a3, a4, a5, a6, a7, F⟩ | ⟨g', e, ⟨F, A⟩⟩
      · left
        refine ⟨_, e, ?_⟩
        -- `k ≠ i`
        have hki : k ≠ i := by rintro rfl; rw [a3 k hce] at a7; cases a7
        have hi0 : (g0.e i).colored = true := a3 i hce
        have hjk : (g.v j).assign = some k := a6
        have hv0 : ∀ j, (g0.v j).assign = (g.v j).assign := a1
        have he0 : ∀ k, (g0.e k).assign = (g.e k).assign := fun k => (a2 k).trans (hae k)
        have hek : (g0.e k).assign = some j := by rw [he0]; exact (hm.iff k j).mpr hjk
        obtain ⟨jn, hself, hselfne⟩ := F.self
        have hjn : jn ≠ j := by rintro rfl; exact hselfne hek
        have hvj : (g2.v j).assign = some k := F.hole j hek
        have hei : (g2.e i).assign = (g.e i).assign := (F.keepC i hi0).trans (he0 i)
        have hold : ∀ h, (g.e i).assign = some h → h ≠ j := by
          rintro h hh rfl
          rw [(hm.iff i h).mp hh] at hjk
          exact hki (Option.some.inj hjk).symm
        have hv : ∀ x, ((g2.setAssign j i).v x).assign = if x = j then some i else (g2.v x).assign := by
          intro x; rw [setAssign_v]; split <;> rfl
        have he : ∀ x, ((g2.setAssign j i).e x).assign = if x = i then some j else (g2.e x).assign := by
          intro x; rw [setAssign_e]; split <;> rfl
        have hnoj : ∀ x, (g2.e x).assign ≠ some j := by
          intro x hx
          have h1 := F.e2v x j hx
          rw [hvj] at h1
          cases h1
          rw [hself] at hx
          exact hjn (Option.some.inj hx)
        refine ⟨((hs.trans s).trans F.same).trans (same_setAssign _ _ _), ?_, ?_, ?_, ?_, ?_, ?_, ?_, ?_, ?_, ?_, ?_⟩
        · intro x y h
          rw [he] at h
          rw [hv]
          split at h
          · rename_i hx; cases h; rw [if_pos rfl, hx]
          · rw [if_neg (by rintro rfl; exact hnoj x h)]
            exact F.e2v x y h
        · intro y x h
          rw [hv] at h
          rw [he]
          split at h
          · rename_i hy; cases h; left; rw [if_pos rfl, hy]
          · rename_i hy
            rcases F.v2e y x h with h1 | ⟨h1, h2⟩
            · by_cases hx : x = i
              · subst hx; right; exact ⟨rfl, by rw [hei] at h1; exact h1⟩
              · left; rw [if_neg hx]; exact h1
            · rw [hek] at h2
              exact absurd (Option.some.inj h2).symm hy
        · intro x h
          rw [he]
          split
          · simp
          · exact F.keep x (by rw [he0]; exact h)
        · intro x h
          rw [he] at h
          split at h
          · right; assumption
          · rcases F.fresh x h with h1 | h1
            · left; rw [he0] at h1; exact h1
            · left; subst h1; rw [← he0, hek]; simp
        · exact ⟨j, by rw [he, if_pos rfl], fun h => hold j h rfl⟩
        · intro y h
          rw [hv]
          split
          · simp
          · exact F.keepV y (by rw [hv0]; exact h)
        · intro x y h
          rw [he] at h
          split at h
          · rename_i hx; cases h
            right
            rw [hx]
            rw [hs.vars] at a4
            exact ⟨a4, a5⟩
          · rcases F.inc x y h with h1 | ⟨h1, h2⟩
            · left; rw [he0] at h1; exact h1
            · right
              rw [s.vars, hs.vars] at h1
              rw [s.cons hst] at h2
              exact ⟨h1, h2⟩
        · intro y h
          rw [hv, if_neg (hold y h)]
          refine F.keepVC y i ?_ hi0
          rw [hv0]; exact (hm.iff i y).mp h
        · intro y x h1 h2
          rw [hv]
          rw [if_neg (by
            rintro rfl
            rw [hjk] at h1
            cases h1
            rw [a3 _ (hmono _ h2)] at a7; cases a7)]
          exact F.keepVC y x (by rw [hv0]; exact h1) (a3 _ (hmono _ h2))
        · intro x h
          rw [he, if_neg (by rintro rfl; rw [hi] at h; cases h)]
          rw [F.keepC x (a3 _ (hmono _ h)), he0]
        · intro y x h
          rw [hv] at h
          split at h
          · cases h; right; left; rfl
          · rcases F.lt y x h with h1 | h1 | ⟨y', h1⟩
            · left; rw [hv0] at h1; exact h1
            · right; right; exact ⟨j, by rw [h1]; exact hjk⟩
            · right; right; exact ⟨y', by rw [hv0] at h1; exact h1⟩
      · right
        refine ⟨g', e, F.ce i hce, ⟨hs.trans F.same, F.av, fun k => (F.ae k).trans (hae k), F.cv, fun k h => F.ce k (hmono k h),
          F.inv, ?_, ?_⟩⟩
        · intro k h1 h2 j hj hc
          by_cases hk : k = i
          · subst hk
            exact A j (by rw [hs.vars]; exact hj) hc
          · refine F.done k h1 ?_ j (by rw [hs.vars]; exact hj) hc
            rw [colorE_e, if_neg hk]; exact h2
        · intro S hS hcl k h1 h2
          by_cases hk : k = i
          · subst hk; exact hS
          · refine F.reach S hS ?_ k h1 (by rw [colorE_e, if_neg hk]; exact h2)
            intro k0 j k' a b c d
            rw [hs.vars] at b
            exact hcl k0 j k' a b c d

theorem static_true : Static fun _ => true := fun _ _ _ _ => rfl
theorem static_consA : Static consA := fun n n' h1 h2 => by unfold consA; rw [h1, h2]

theorem pick1_ok : Pick pick1 fun _ => true := by
  constructor
  · intro g vs j h
    unfold pick1 at h
    split at h
    · rename_i j' h1
      cases h
      have := List.find?_some h1
      simp only [Bool.and_eq_true, Option.isNone_iff_eq_none] at this
      exact ⟨List.mem_of_find?_eq_some h1, this.2, rfl⟩
    · have := List.find?_some h
      simp only [Bool.and_eq_true, Option.isNone_iff_eq_none] at this
      exact ⟨List.mem_of_find?_eq_some h, this.2, rfl⟩
  · intro g vs h j hj _ hn
    unfold pick1 at h
    split at h
    · cases h
    · rename_i h1
      have h2 := List.find?_eq_none.mp h1 j hj
      have h3 := List.find?_eq_none.mp h j hj
      rw [hn] at h2 h3
      cases ha : (g.v j).anti <;> rw [ha] at h2 h3 <;> simp at h2 h3

theorem pickA_ok : Pick pickA consA := by
  constructor
  · intro g vs j h
    unfold pickA at h
    have := List.find?_some h
    simp only [Bool.and_eq_true, Option.isNone_iff_eq_none] at this
    refine ⟨List.mem_of_find?_eq_some h, this.2, ?_⟩
    unfold consA
    simp [this.1.1, this.1.2]
  · intro g vs h j hj hc hn
    unfold pickA at h
    have h2 := List.find?_eq_none.mp h j hj
    unfold consA at hc
    rw [hn] at h2
    simp only [Bool.and_eq_true] at hc
    simp [hc.2] at h2
    simp [h2] at hc

end Verif.Dae
