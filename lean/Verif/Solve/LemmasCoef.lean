import Verif.Solve.LemmasReal
import Verif.Solve.SpecCollect
/- The coefficient of a variable along a route of additions, subtractions, products and quotients. -/
namespace Verif.Solve
open Verif.Codegen Verif.Cg Verif.Paths Verif.Eval

section
variable {α : Type} [DecidableEq α] {I : Interp α}

/-- what one step makes of the coefficient -/
def coefOp (I : Interp α) (op : Op) (prev : Option Nat) (first : Bool) (vs : List α) (c : α) : Option α :=
  match op with
  | .sub => some (if prev == some 1 then I.neg c else c)
  | .neg => some (I.neg c)
  | .mul => some (I.mul c (vs.getD (otherAt first) I.zero))
  | .div => Bin.div.direct I c (vs.getD 1 I.zero)
  | _ => some c

theorem coefStep_does (L : Laws I) {h0 : Nat} {av : Option Nat} {w : World α} {nd : Node α} {prev : Option Nat} {i : Nat} {c : Cg α}
    {f : (Nat → α) → Option α} (hs : Shaped nd) (hcol : collectable nd (some i) = true) (hw : OkW h0 av w)
    (hc : VaC av w c) (ho : ∀ a, nd.args[otherAt (i == 0)]? = some a → VaC av w (ofArg a)) (hf : Den I w c f) :
    Does I h0 av w (coefStep I w nd prev (some i) c)
      (fun val => (f val).bind fun p => coefOp I nd.op prev (i == 0) (nd.args.map (argVal val)) p) := by
  obtain ⟨op, args⟩ := nd
  unfold Shaped at hs
  simp only at hs ho ⊢
  have pass : Does I h0 av w (.ok (c, w)) (fun val => (f val).bind fun p => some p) := by
    refine (Does.pure hw hc hf).imp ?_
    intro val p hp
    cases h : f val with
    | none => rw [h] at hp; cases hp
    | some q => rw [h] at hp; exact hp
  have two : arity op = 2 → ∃ a b, args = [a, b] := by
    intro h
    rw [h] at hs
    match args, hs with
    | [a, b], _ => exact ⟨a, b, rfl⟩
  have flip : Does I h0 av w (unary .neg I.neg w c) (fun val => (f val).bind fun p => some (I.neg p)) := by
    refine (unary_does (op := .neg) (by simp) rfl (fun _ => rfl) hw hc hf).imp ?_
    intro val p hp
    rw [Option.map_eq_bind]; exact hp
  cases op with
  | add => exact pass
  | «alias» => exact pass
  | neg => exact flip
  | sub =>
    unfold coefStep
    simp only [coefOp]
    by_cases h : (prev == some 1) = true
    · rw [if_pos h]
      simp only [h, if_true]
      exact flip
    · rw [if_neg h]
      simp only [h]
      exact pass
  | mul =>
    obtain ⟨a, b, rfl⟩ := two rfl
    unfold coefStep
    simp only [coefOp, some_beq_zero]
    by_cases h : (i == 0) = true
    · rw [if_pos h]
      rw [h] at ho
      refine Does.bindArg (a := b) rfl ?_
      refine (compound_does L (by simp) hw hc (ho b rfl) hf (den_arg I w b)).imp ?_
      intro val p hp
      simp only [h] at hp
      exact hp
    · rw [if_neg h]
      rw [Bool.not_eq_true] at h
      rw [h] at ho
      refine Does.bindArg (a := a) rfl ?_
      refine (compound_does L (by simp) hw hc (ho a rfl) hf (den_arg I w a)).imp ?_
      intro val p hp
      simp only [h] at hp
      exact hp
  | div =>
    obtain ⟨a, b, rfl⟩ := two rfl
    have h : (i == 0) = true := by rw [← some_beq_zero]; exact hcol
    unfold coefStep
    simp only [coefOp]
    rw [h] at ho
    refine Does.bindArg (a := b) rfl ?_
    exact (compound_does L (by simp) hw hc (ho b rfl) hf (den_arg I w b)).imp fun val p hp => hp
  | inv => cases hcol
  | assign => cases hcol
  | un f => cases hcol
  | pow => cases hcol
  | sign => cases hcol
  | cond c => cases hcol

/-- the coefficient found along a route -/
def coefAlong (I : Interp α) (G : Graph α) (val : Nat → α) : Option Nat → Nat → List Nat → α → Option α
  | _, _, [], c => some c
  | prev, n, i :: is, c =>
    match (G n).args[i]? with
    | some (.node m) =>
      (coefOp I (G n).op prev (i == 0) ((G n).args.map (argVal val)) c).bind fun c' => coefAlong I G val (some i) m is c'
    | _ => none

omit [DecidableEq α] in
theorem coefPath_cons {G : Graph α} {prev : Option Nat} {n : Nat} {i : Option Nat} {rest : UPath} {w : World α} {c : Cg α}
    (h : rest ≠ []) : coefPath I G prev ((n, i) :: rest) w c =
      match coefStep I w (G n) prev i c with
      | .error e => .error e
      | .ok (c', w') => coefPath I G i rest w' c' := by
  cases rest with
  | nil => exact absurd rfl h
  | cons a b => rfl

omit [DecidableEq α] in
theorem collectablePath_cons {G : Graph α} {n : Nat} {i : Option Nat} {rest : UPath} (h : rest ≠ []) :
    collectablePath G ((n, i) :: rest) = (collectable (G n) i && collectablePath G rest) := by
  cases rest with
  | nil => exact absurd rfl h
  | cons a b => rfl

theorem coefPath_does (L : Laws I) {h0 : Nat} {av : Option Nat} {w0 : World α} (hw0 : OkW h0 av w0) (hs : ShapedG w0.graph) {v : Nat} :
    ∀ (is : List Nat) (n : Nat) (prev : Option Nat) (w : World α) (c : Cg α) (f : (Nat → α) → Option α),
    Route w0.graph n is v → (∀ u, av = some u → u = v ∧ ∀ is', Route w0.graph n is' v → is' = is) →
    collectablePath w0.graph (stepsUp w0.graph n is) = true → Grow w0 w → OkW h0 av w → VaC av w c → Den I w c f →
    Does I h0 av w (coefPath I w0.graph prev (stepsUp w0.graph n is) w c)
      (fun val => (f val).bind (coefAlong I w0.graph val prev n is)) := by
  intro is
  induction is with
  | nil =>
    intro n prev w c f hr _ _ hg hw hva hd
    refine (Does.pure hw hva hd).imp ?_
    intro val p hp
    simp only [Option.bind_eq_some_iff, coefAlong] at hp
    obtain ⟨q, h1, h2⟩ := hp
    cases h2; exact h1
  | cons i is ih =>
    intro n prev w c f hr hun hcol hg hw hva hd
    obtain ⟨m, hi, hr'⟩ := route_cons.mp hr
    rw [stepsUp_cons hi, collectablePath_cons (stepsUp_ne hr'), Bool.and_eq_true] at hcol
    rw [stepsUp_cons hi, coefPath_cons (stepsUp_ne hr')]
    obtain ⟨r', w', e, hg', hw', hva', hd'⟩ := (coefStep_does L (prev := prev) (hs n) hcol.1 hw hva
      (fun a ha => (other_ok hw0 hi hr' hun ha).mono hg.ext hw0) hd).ex
    rw [e]
    simp only
    have hun' : ∀ u, av = some u → u = v ∧ ∀ is', Route w0.graph m is' v → is' = is := by
      intro u hu
      refine ⟨(hun u hu).1, fun is' his' => ?_⟩
      exact (List.cons.inj ((hun u hu).2 (i :: is') (route_cons.mpr ⟨m, hi, his'⟩))).2
    obtain ⟨r2, w2, e2, g2, hw2, hva2, hd2⟩ := (ih m (some i) w' r' _ hr' hun' hcol.2 (hg.trans hg') hw' hva' hd').ex
    refine ⟨r2, w2, e2, hg'.trans g2, hw2, hva2, hd2.imp ?_⟩
    intro val p hp
    simp only [coefAlong, hi] at hp
    simpa only [Option.bind_assoc] using hp

end

/-! ### over the real numbers -/

theorem coefAlong_slope {I : Interp ℝ} (R : RealI I) (dec : DecidableEq ℝ) {G : Graph ℝ} (hs : ShapedG G) {v : Nat} {val : Nat → ℝ} :
    ∀ (is : List Nat) (n prev : Nat) (c : ℝ), Route G n is v →
      collectablePath G (stepsUp G n is) = true → Divisible G val n is → SameSides G prev n is →
      coefAlong I G val (some prev) n is c = some (c * coefficient G val n is) := by
  intro is
  induction is with
  | nil => intro n prev c _ _ _ _; simp [coefAlong, coefficient]
  | cons i is ih =>
    intro n prev c hr hcol hdiv hsub
    obtain ⟨m, hi, hr'⟩ := route_cons.mp hr
    rw [stepsUp_cons hi, collectablePath_cons (stepsUp_ne hr'), Bool.and_eq_true] at hcol
    simp only [Divisible, hi] at hdiv
    simp only [SameSides, hi] at hsub
    have key : coefOp I (G n).op (some prev) (i == 0) ((G n).args.map (argVal val)) c =
        some (c * passes (G n).op i ((G n).args.map (argVal val))) := by
      have hsn := hs n
      unfold Shaped at hsn
      obtain ⟨hcol, _⟩ := hcol
      obtain ⟨hdiv, _⟩ := hdiv
      obtain ⟨hsub, _⟩ := hsub
      have hlt := (List.getElem?_eq_some_iff.mp hi).1
      unfold collectable at hcol
      generalize (G n).args.map (argVal val) = vs at hdiv ⊢
      cases ho : (G n).op <;> rw [ho] at hcol hdiv hsub hsn <;> simp only [arity] at hsn
      case add => simp [coefOp, passes]
      case «alias» => simp [coefOp, passes]
      case neg => simp [coefOp, passes, R.neg]
      case sub =>
        have := hsub rfl
        have hi2 : i = 0 ∨ i = 1 := by omega
        rcases hi2 with rfl | rfl
        · have h : prev ≠ 1 := fun h => by have := this.mp h; omega
          have : (some prev == some 1) = false := by simpa using h
          simp [coefOp, passes, this]
        · have h := this.mpr rfl
          subst h
          simp [coefOp, passes, R.neg]
      case mul =>
        have hi2 : i = 0 ∨ i = 1 := by omega
        rcases hi2 with rfl | rfl
        · simp [coefOp, passes, R.mul, R.zero, otherAt]
        · simp [coefOp, passes, R.mul, R.zero, otherAt]
      case div =>
        have hi2 : i = 0 := by simpa using hcol
        subst hi2
        have := hdiv rfl
        simp only [coefOp, passes, R.zero]
        rw [direct_div R dec this]
        congr 1
      all_goals simp at hcol
    simp only [coefAlong, coefficient, hi, key, Option.bind_some]
    rw [ih m i _ hr' hcol.2 hdiv.2 hsub.2, mul_assoc]

end Verif.Solve
