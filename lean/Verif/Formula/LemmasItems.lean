import Verif.Formula.Model
import Verif.Formula.LemmasRead

/-
What the printed formulas show, and that it is read as the recorded expression.
-/
namespace Verif.Formula

variable {α : Type} [CommRing α]

/-- exponents: LaTeX keeps the `+` -/
def expoItems (mm : Bool) (s : Bool) (e : α) : List (Item α) :=
  if s then [.minus, .num e] else if mm then [.num e] else [.plus, .num e]

/-- digits -/
def digItems (F : Format α) (mm : Bool) (v : α) : List (Item α) :=
  match F.digits v with
  | (m, none) => [.num m]
  | (m, some (s, e)) => [.num m, .times, .num 10, .sup (expoItems mm s (e : α))]

/-- parameters -/
def parItems (F : Format α) (mm : Bool) (v : α) : List (Item α) :=
  if F.negative v then .minus :: digItems F mm (-v) else digItems F mm v

def encItems (b : Bool) (is : List (Item α)) : List (Item α) := if b then [.group is] else is

def unItems (mm : Bool) (f : Fn) (is : List (Item α)) : List (Item α) :=
  match f with
  | .sqrt => [.sqrt is]
  | .abs => if mm then [.fn "abs", .group is] else [.bars is]
  | f => [.fn (if mm then mmlName f else texName f), .group is]

def mulItems (O : Opts) (a b : Expr α) : List (Item α) :=
  if isNumber true a && isNumber false b then [.times] else if O.visible then [.times] else []

/-- what is shown -/
def items (F : Format α) (O : Opts) (mm : Bool) : Expr α → List (Item α)
  | .const v => parItems F mm v
  | .var n => [.sym n]
  | .un f a => unItems mm f (items F O mm a)
  | .pow a b => encItems (O.enclose || enclosePow a) (items F O mm a) ++ [.sup (encItems (enclosePow b) (items F O mm b))]
  | .add a b => match negParam F b with
    | none => items F O mm a ++ .plus :: items F O mm b
    | some v => items F O mm a ++ .minus :: parItems F mm (-v)
  | .sub a b => match negParam F b with
    | none => items F O mm a ++ .minus :: encItems (encloseMul F b) (items F O mm b)
    | some v => items F O mm a ++ .plus :: parItems F mm (-v)
  | .div a b => [.frac (items F O mm a) (items F O mm b)]
  | .mul a b => encItems (encloseMul F a) (items F O mm a) ++ mulItems O a b ++ encItems (encloseMul F b) (items F O mm b)
  | .neg a => .minus :: encItems (encloseMul F a) (items F O mm a)
  | .ali a => items F O mm a
  | .asg a => items F O mm a

variable {I : Interp α} {F : Format α} {O : Opts} {mm : Bool}

theorem encItems_group {is : List (Item α)} {v : α} {b : Bool} (h : Sum' I is v) : Sum' I (encItems b is) v := by
  cases b
  · exact h
  · exact .one (.prod (.fac (.base (.group h.means))))

/-- digits of a number which is not negative -/
theorem digItems_prod (hF : F.Right I) {v : α} (hv : F.negative v = false) : Prod' I (digItems F mm v) v := by
  unfold digItems
  rcases hd : F.digits v with ⟨m, _ | ⟨s, e⟩⟩
  · rw [hF.plain v m hv hd]
    exact .fac (.base (.num v))
  · have he : Means I (expoItems mm s (e : α)) (if s then -(e : α) else (e : α)) := by
      apply Sum'.means
      unfold expoItems
      cases s <;> cases mm
      · exact .one (.pos (.fac (.base (.num _))))
      · exact .one (.prod (.fac (.base (.num _))))
      · exact .one (.neg (.fac (.base (.num _))))
      · exact .one (.neg (.fac (.base (.num _))))
    have := Prod'.times (.fac (.base (.num m))) (.fac (.pow (.num (10 : α)) he))
    rw [hF.expo v m s e hv hd] at this
    exact this

theorem parItems_signed (hF : F.Right I) (v : α) : Signed I (parItems F mm v) v := by
  unfold parItems
  rcases hv : F.negative v with _ | _
  · exact .prod (digItems_prod hF hv)
  · have := Signed.neg (digItems_prod (mm := mm) hF (hF.neg v hv))
    rwa [neg_neg] at this

theorem items_strip (e : Expr α) : items F O mm (strip e) = items F O mm e := by
  induction e <;> simp_all [strip, items]

theorem value_strip (e : Expr α) : (strip e).value I = e.value I := by
  induction e <;> simp_all [strip, Expr.value]

theorem target_eq (e : Expr α) : e.target = strip e := by
  induction e <;> simp_all [strip, Expr.target]

theorem strip_isNumber (b : Bool) (e : Expr α) : isNumber b (strip e) = isNumber b e := by
  induction e <;> simp_all [strip, isNumber]

/-- settings or shapes for which bases of powers can be read -/
def PowRight (F : Format α) (O : Opts) (e : Expr α) : Prop := O.enclose = true ∨ BasesRight F e

theorem unItems_base {is : List (Item α)} {v : α} (f : Fn) (h : Means I is v) : Base I (unItems mm f is) (I.un f v) := by
  cases f <;> cases mm <;> first | exact .sqrt h | exact .bars h | exact .app rfl h

theorem isNumber_un (b : Bool) (f : Fn) (is : List (Item α)) : startsNum (unItems mm f is) = false ∧ endsNum (unItems mm f is) = false := by
  unfold unItems
  split
  · exact ⟨rfl, rfl⟩
  · split <;> exact ⟨rfl, rfl⟩
  · exact ⟨rfl, rfl⟩

/-- what the operand of a product shows -/
structure Operand (I : Interp α) (F : Format α) (O : Opts) (mm : Bool) (e : Expr α) : Prop where
  prod : Prod' I (encItems (encloseMul F e) (items F O mm e)) (e.value I)
  starts : startsNum (encItems (encloseMul F e) (items F O mm e)) = true → isNumber false e = true
  ends : endsNum (encItems (encloseMul F e) (items F O mm e)) = true → isNumber true e = true

/-- what is proved of an expression by induction -/
structure Good (I : Interp α) (F : Format α) (O : Opts) (mm : Bool) (e : Expr α) : Prop where
  sum : Sum' I (items F O mm e) (e.value I)
  operand : Operand I F O mm e

theorem operand_group {e : Expr α} (h : Sum' I (items F O mm e) (e.value I)) (he : encloseMul F e = true) : Operand I F O mm e := by
  constructor
  · simp only [he, encItems, if_true]; exact .fac (.base (.group h.means))
  · simp [he, encItems, startsNum]
  · simp [he, encItems, endsNum]

theorem powBase {a : Expr α} (hF : F.Right I) (iha : Good I F O mm a)
    (hb : O.enclose = true ∨ ((∀ c d, a.target ≠ .pow c d) ∧
      ∀ v, a.target = .const v → F.negative v = false ∧ (F.digits v).2 = none)) (hgood : ∀ f b, strip a = .un f b → Means I (items F O mm b) (b.value I)) :
    Base I (encItems (O.enclose || enclosePow a) (items F O mm a)) (a.value I) := by
  rcases h : (O.enclose || enclosePow a) with _ | _
  · simp only [Bool.or_eq_false_iff] at h
    rcases hb with hb | ⟨hpow, hconst⟩
    · simp [hb] at h
    · rw [target_eq] at hpow hconst
      show Base I (items F O mm a) _
      rw [← items_strip, ← value_strip]
      have he := h.2
      unfold enclosePow at he
      rcases hs : strip a with v | n | ⟨f, b⟩ | _ | _ | _ | _ | ⟨c, d⟩ | _ | _ | _ <;> rw [hs] at he <;> simp at he
      · obtain ⟨h1, h2⟩ := hconst v hs
        have hd : F.digits v = ((F.digits v).1, none) := Prod.ext rfl h2
        simp only [items, parItems, h1, Bool.false_eq_true, if_false, digItems, Expr.value]
        rw [hd]
        have := hF.plain v _ h1 hd
        show Base I [.num (F.digits v).1] v
        rw [this]
        exact .num v
      · exact .sym n
      · exact unItems_base f (hgood f b hs)
      · exact absurd hs (hpow c d)
  · exact .group iha.sum.means

theorem negParam_some {b : Expr α} {v : α} (h : negParam F b = some v) : b = .const v ∧ F.negative v = true := by
  cases b <;> simp [negParam] at h
  exact ⟨by rw [h.2], by rw [← h.2]; exact h.1⟩

theorem good_fac {e : Expr α} (he : encloseMul F e = false) (h : Fac I (items F O mm e) (e.value I))
    (hs : startsNum (items F O mm e) = true → isNumber false e = true)
    (hn : endsNum (items F O mm e) = true → isNumber true e = true) : Good I F O mm e :=
  ⟨.one (.prod (.fac h)), by rw [he]; exact .fac h, by rw [he]; exact hs, by rw [he]; exact hn⟩

theorem good_ali {a : Expr α} (ih : Good I F O mm a) (h : AliasesRight F (.ali a)) : Good I F O mm (.ali a) := by
  have henc : encloseMul F (.ali a) = encloseMul F a := by
    cases a with
    | const v =>
      have := h.2 v rfl
      simp [encloseMul, encloseMulNode, strip, this]
    | _ => simp [encloseMul, encloseMulNode, strip]
  exact ⟨ih.sum, by rw [henc]; exact ih.operand.prod, by rw [henc]; exact ih.operand.starts, by rw [henc]; exact ih.operand.ends⟩

/-- everything shown is read as the value recorded -/
theorem good (hF : F.Right I) (e : Expr α) (hA : AliasesRight F e) (hP : PowRight F O e) :
    Good I F O mm e ∧ ∀ f b, strip e = .un f b → Means I (items F O mm b) (b.value I) := by
  induction e with
  | const v =>
    refine ⟨⟨.one (parItems_signed hF v), ?_, ?_, ?_⟩, fun f b h => by simp [strip] at h⟩
    · show Prod' I (encItems (F.negative v) _) v
      rcases hv : F.negative v with _ | _
      · simp only [encItems, items, parItems, hv, Bool.false_eq_true, if_false]
        exact digItems_prod hF hv
      · exact .fac (.base (.group (Sum'.one (parItems_signed hF v)).means))
    · exact fun _ => rfl
    · exact fun _ => rfl
  | var n => exact ⟨good_fac rfl (.base (.sym n)) (by simp [items, startsNum]) (by simp [items, endsNum]), fun f b h => by simp [strip] at h⟩
  | un f a ih =>
    have iha := (ih hA hP).1
    refine ⟨good_fac rfl (.base (unItems_base f iha.sum.means)) ?_ ?_, ?_⟩
    · simp [items, (isNumber_un (mm := mm) true f (items F O mm a)).1]
    · simp [items, (isNumber_un (mm := mm) true f (items F O mm a)).2]
    · intro f' b h; cases h; exact iha.sum.means
  | add a b iha ihb =>
    have hP' : PowRight F O a ∧ PowRight F O b := by
      rcases hP with h | h
      · exact ⟨.inl h, .inl h⟩
      · exact ⟨.inr h.1, .inr h.2⟩
    have iha := (iha hA.1 hP'.1).1
    have ihb := (ihb hA.2 hP'.2).1
    have hsum : Sum' I (items F O mm (.add a b)) (Expr.value I (.add a b)) := by
      simp only [items, Expr.value]
      rcases hn : negParam F b with _ | v
      · exact .add iha.sum ihb.sum
      · obtain ⟨rfl, hv⟩ := negParam_some hn
        have := Sum'.sub iha.sum (parItems_signed (mm := mm) hF (-v))
        rwa [sub_neg_eq_add] at this
    exact ⟨⟨hsum, operand_group hsum rfl⟩, fun f b h => by simp [strip] at h⟩
  | sub a b iha ihb =>
    have hP' : PowRight F O a ∧ PowRight F O b := by
      rcases hP with h | h
      · exact ⟨.inl h, .inl h⟩
      · exact ⟨.inr h.1, .inr h.2⟩
    have iha := (iha hA.1 hP'.1).1
    have ihb := (ihb hA.2 hP'.2).1
    have hsum : Sum' I (items F O mm (.sub a b)) (Expr.value I (.sub a b)) := by
      simp only [items, Expr.value]
      rcases hn : negParam F b with _ | v
      · exact .sub iha.sum (.prod ihb.operand.prod)
      · obtain ⟨rfl, hv⟩ := negParam_some hn
        have := Sum'.add iha.sum (.one (parItems_signed (mm := mm) hF (-v)))
        rwa [← sub_eq_add_neg] at this
    exact ⟨⟨hsum, operand_group hsum rfl⟩, fun f b h => by simp [strip] at h⟩
  | neg a ih =>
    have iha := (ih hA hP).1
    have hsum : Sum' I (items F O mm (.neg a)) (Expr.value I (.neg a)) := .one (.neg iha.operand.prod)
    exact ⟨⟨hsum, operand_group hsum rfl⟩, fun f b h => by simp [strip] at h⟩
  | asg a ih =>
    have iha := (ih hA hP).1
    have hsum : Sum' I (items F O mm (.asg a)) (Expr.value I (.asg a)) := iha.sum
    exact ⟨⟨hsum, operand_group hsum rfl⟩, fun f b h => by simp [strip] at h⟩
  | ali a ih =>
    have iha := ih hA.1 hP
    exact ⟨good_ali iha.1 hA, iha.2⟩
  | div a b iha ihb =>
    have hP' : PowRight F O a ∧ PowRight F O b := by
      rcases hP with h | h
      · exact ⟨.inl h, .inl h⟩
      · exact ⟨.inr h.1, .inr h.2⟩
    have iha := (iha hA.1 hP'.1).1
    have ihb := (ihb hA.2 hP'.2).1
    exact ⟨good_fac rfl (.frac iha.sum.means ihb.sum.means) (by simp [items, startsNum]) (by simp [items, endsNum]),
      fun f b h => by simp [strip] at h⟩
  | pow a b iha ihb =>
    have hP' : PowRight F O a ∧ PowRight F O b := by
      rcases hP with h | h
      · exact ⟨.inl h, .inl h⟩
      · exact ⟨.inr h.1, .inr h.2.1⟩
    have iha := iha hA.1 hP'.1
    have ihb := (ihb hA.2 hP'.2).1
    have hbase := powBase hF iha.1 (by
      rcases hP with h | h
      · exact .inl h
      · exact .inr h.2.2) iha.2
    refine ⟨good_fac rfl (.pow hbase (encItems_group ihb.sum).means) ?_ ?_, fun f b h => by simp [strip] at h⟩
    · simp only [items, isNumber, Bool.false_eq_true, if_false]
      rw [startsNum_append _ ((Fac.base hbase).begins []).1]
      rcases h : (O.enclose || enclosePow a) with _ | _
      · simp only [encItems, Bool.false_eq_true, if_false]
        intro hs
        simp only [Bool.or_eq_false_iff] at h
        have he := h.2
        unfold enclosePow at he
        rw [← items_strip] at hs
        rw [← strip_isNumber]
        rcases hst : strip a with v | n | ⟨f, b⟩ | _ | _ | _ | _ | ⟨c, d⟩ | _ | _ | _ <;> rw [hst] at he hs <;> simp at he
        · rfl
        · simp [items, startsNum] at hs
        · rw [items, (isNumber_un (mm := mm) true f _).1] at hs; simp at hs
        · have hop := iha.1.operand
          have hmul : encloseMul F a = false := by
            cases a with
            | const v => simp [strip] at hst
            | _ => simp [encloseMul, encloseMulNode, hst]
          have := hop.starts
          rw [hmul, ← items_strip, hst] at this
          rw [← hst, strip_isNumber]
          exact this hs
      · simp [encItems, startsNum]
    · simp only [items]
      rw [endsNum_append _ (by simp)]
      simp [endsNum]
  | mul a b iha ihb =>
    have hP' : PowRight F O a ∧ PowRight F O b := by
      rcases hP with h | h
      · exact ⟨.inl h, .inl h⟩
      · exact ⟨.inr h.1, .inr h.2⟩
    have iha := (iha hA.1 hP'.1).1.operand
    have ihb := (ihb hA.2 hP'.2).1.operand
    have hprod : Prod' I (items F O mm (.mul a b)) (Expr.value I (.mul a b)) := by
      simp only [items, Expr.value, mulItems]
      rcases hn : (isNumber true a && isNumber false b) with _ | _
      · simp only [Bool.false_eq_true, if_false]
        rcases O.visible with _ | _
        · simp only [Bool.false_eq_true, if_false, List.append_nil]
          refine .juxt iha.prod ihb.prod fun h => ?_
          have h1 := iha.ends h
          rcases h2 : startsNum (encItems (encloseMul F b) (items F O mm b)) with _ | _
          · rfl
          · simp [h1, ihb.starts h2] at hn
        · simp only [if_true, List.append_assoc]
          exact .times iha.prod ihb.prod
      · simp only [if_true, List.append_assoc]
        exact .times iha.prod ihb.prod
    refine ⟨⟨.one (.prod hprod), hprod, ?_, ?_⟩, fun f b h => by simp [strip] at h⟩
    · show startsNum (items F O mm (.mul a b)) = true → _
      simp only [items, isNumber, Bool.false_eq_true, if_false, List.append_assoc]
      rw [startsNum_append _ iha.prod.ne_nil]
      exact iha.starts
    · show endsNum (items F O mm (.mul a b)) = true → _
      simp only [items, isNumber, if_true, List.append_assoc]
      rw [← List.append_assoc, endsNum_append _ ihb.prod.ne_nil]
      exact ihb.ends

end Verif.Formula
