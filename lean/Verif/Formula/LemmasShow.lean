import Verif.Formula.LemmasItems

/-
What LaTeX and MathML show of the printed text.
-/
namespace Verif.Formula

variable {α : Type} [CommRing α]

/-! ### LaTeX -/

def TRuns (one : Bool) (ts : List (Tex α)) (is : List (Item α)) (r : List (Tex α)) : Prop :=
  ∃ n, ∀ m, n ≤ m → tex m one ts = some (is, r)

theorem TRuns.seq {ts r r' : List (Tex α)} {a b : List (Item α)} (h : TRuns false ts a r) (h' : TRuns true r b r') :
    TRuns true ts (a ++ b) r' := by
  obtain ⟨n, hn⟩ := h
  obtain ⟨n', hn'⟩ := h'
  refine ⟨max n n' + 1, fun m hm => ?_⟩
  obtain ⟨k, rfl⟩ : ∃ k, m = k + 1 := ⟨m - 1, by omega⟩
  have h1 := hn k (by omega)
  have h2 := hn' k (by omega)
  rcases ts with _ | ⟨t, ts⟩
  · have := hn (k + 1) (by omega)
    simp [tex] at this
  · cases t
    case rbrace => have := hn (k + 1) (by omega); simp [tex] at this
    case rpar => have := hn (k + 1) (by omega); simp [tex] at this
    all_goals
      rw [tex]
      · simp only [h1, h2]
      all_goals simp

/-- the text shows the items, whatever follows -/
def Emits (ts : List (Tex α)) (is : List (Item α)) : Prop :=
  ∀ rest js r, TRuns true rest js r → TRuns true (ts ++ rest) (is ++ js) r

theorem Emits.nil : Emits ([] : List (Tex α)) [] := fun _ _ _ h => h

theorem Emits.append {a b : List (Tex α)} {is js : List (Item α)} (ha : Emits a is) (hb : Emits b js) : Emits (a ++ b) (is ++ js) := by
  intro rest ks r h
  rw [List.append_assoc, List.append_assoc]
  exact ha _ _ _ (hb _ _ _ h)

theorem Emits.elem {ts : List (Tex α)} {is : List (Item α)} (h : ∀ rest, TRuns false (ts ++ rest) is rest) : Emits ts is :=
  fun rest _ _ hr => (h rest).seq hr

theorem Emits.tok {t : Tex α} {i : Item α} (h : ∀ n r, tex (n + 1) false (t :: r) = some ([i], r)) : Emits [t] [i] :=
  Emits.elem fun rest => ⟨1, fun m hm => by obtain ⟨k, rfl⟩ : ∃ k, m = k + 1 := ⟨m - 1, by omega⟩; exact h k rest⟩

theorem Emits.cons {t : Tex α} {i : Item α} {ts : List (Tex α)} {is : List (Item α)} (h : Emits [t] [i]) (h' : Emits ts is) :
    Emits (t :: ts) (i :: is) := h.append h'

/-- up to a closing brace -/
theorem Emits.brace {ts : List (Tex α)} {is : List (Item α)} (h : Emits ts is) (rest : List (Tex α)) :
    TRuns true (ts ++ .rbrace :: rest) is (.rbrace :: rest) := by
  have := h (.rbrace :: rest) [] (.rbrace :: rest)
    ⟨1, fun m hm => by obtain ⟨k, rfl⟩ : ∃ k, m = k + 1 := ⟨m - 1, by omega⟩; rfl⟩
  rwa [List.append_nil] at this

/-- up to a closing parenthesis -/
theorem Emits.par {ts : List (Tex α)} {is : List (Item α)} (h : Emits ts is) (rest : List (Tex α)) :
    TRuns true (ts ++ .rpar :: rest) is (.rpar :: rest) := by
  have := h (.rpar :: rest) [] (.rpar :: rest)
    ⟨1, fun m hm => by obtain ⟨k, rfl⟩ : ∃ k, m = k + 1 := ⟨m - 1, by omega⟩; rfl⟩
  rwa [List.append_nil] at this

theorem TRuns.step {ts ts' r r' : List (Tex α)} {a is : List (Item α)} (h : TRuns true ts' a r')
    (hs : ∀ n, tex n true ts' = some (a, r') → tex (n + 1) false ts = some (is, r)) : TRuns false ts is r := by
  obtain ⟨n, hn⟩ := h
  refine ⟨n + 1, fun m hm => ?_⟩
  obtain ⟨k, rfl⟩ : ∃ k, m = k + 1 := ⟨m - 1, by omega⟩
  exact hs k (hn k (by omega))

theorem Emits.braces {ts : List (Tex α)} {is : List (Item α)} (h : Emits ts is) : Emits (.lbrace :: ts ++ [.rbrace]) is :=
  Emits.elem fun rest => (h.brace rest).step fun n hn => by
    simp only [List.cons_append, List.append_assoc, List.nil_append, tex, hn]

theorem Emits.parens {ts : List (Tex α)} {is : List (Item α)} (h : Emits ts is) : Emits (.lpar :: ts ++ [.rpar]) [.group is] :=
  Emits.elem fun rest => (h.par rest).step fun n hn => by
    simp only [List.cons_append, List.append_assoc, List.nil_append, tex, hn]

theorem Emits.hat {ts : List (Tex α)} {is : List (Item α)} (h : Emits ts is) : Emits (.hat :: .lbrace :: ts ++ [.rbrace]) [.sup is] :=
  Emits.elem fun rest => (h.brace rest).step fun n hn => by
    simp only [List.cons_append, List.append_assoc, List.nil_append, tex, hn]

theorem Emits.sqrt {ts : List (Tex α)} {is : List (Item α)} (h : Emits ts is) : Emits (.sqrt :: .lbrace :: ts ++ [.rbrace]) [.sqrt is] :=
  Emits.elem fun rest => (h.brace rest).step fun n hn => by
    simp only [List.cons_append, List.append_assoc, List.nil_append, tex, hn]

theorem Emits.abs {ts : List (Tex α)} {is : List (Item α)} (h : Emits ts is) : Emits (.abs :: .lbrace :: ts ++ [.rbrace]) [.bars is] :=
  Emits.elem fun rest => (h.brace rest).step fun n hn => by
    simp only [List.cons_append, List.append_assoc, List.nil_append, tex, hn]

theorem Emits.frac {ts us : List (Tex α)} {is js : List (Item α)} (h : Emits ts is) (h' : Emits us js) :
    Emits (.frac :: .lbrace :: ts ++ .rbrace :: .lbrace :: us ++ [.rbrace]) [.frac is js] := by
  refine Emits.elem fun rest => ?_
  obtain ⟨n, hn⟩ := h.brace (.lbrace :: (us ++ .rbrace :: rest))
  obtain ⟨n', hn'⟩ := h'.brace rest
  refine ⟨max n n' + 1, fun m hm => ?_⟩
  obtain ⟨k, rfl⟩ : ∃ k, m = k + 1 := ⟨m - 1, by omega⟩
  simp only [List.cons_append, List.append_assoc, List.nil_append, tex, hn k (by omega), hn' k (by omega)]

theorem Emits.plus : Emits [(.plus : Tex α)] [.plus] := Emits.tok fun _ _ => rfl
theorem Emits.minus : Emits [(.minus : Tex α)] [.minus] := Emits.tok fun _ _ => rfl
theorem Emits.times : Emits [(.times : Tex α)] [.times] := Emits.tok fun _ _ => rfl
theorem Emits.num (v : α) : Emits [.num v] [.num v] := Emits.tok fun _ _ => rfl
theorem Emits.fn (s : String) : Emits [(.fn s : Tex α)] [.fn s] := Emits.tok fun _ _ => rfl

variable {F : Format α} {O : Opts}

theorem texDigits_emits (v : α) : Emits (texDigits F v) (digItems F false v) := by
  unfold texDigits digItems
  rcases F.digits v with ⟨m, _ | ⟨s, e⟩⟩
  · exact .num m
  · refine (Emits.num m).cons (Emits.times.cons ((Emits.num 10).cons ?_))
    cases s
    · exact (Emits.plus.cons (Emits.num (e : α))).hat
    · exact (Emits.minus.cons (Emits.num (e : α))).hat

theorem texParam_emits (v : α) : Emits (texParam F v) (parItems F false v) := by
  unfold texParam parItems
  split
  · exact Emits.minus.cons (texDigits_emits _)
  · exact texDigits_emits _

theorem texEnclosed_emits {ts : List (Tex α)} {is : List (Item α)} (b : Bool) (h : Emits ts is) : Emits (texEnclosed b ts) (encItems b is) := by
  cases b
  · exact h
  · exact h.parens

theorem texUn_emits {ts : List (Tex α)} {is : List (Item α)} (f : Fn) (h : Emits ts is) : Emits (texUn f ts) (unItems false f is) := by
  cases f
  case abs => exact h.abs
  case sqrt => exact h.sqrt
  all_goals exact (Emits.fn _).cons h.parens

theorem texMul_emits (a b : Expr α) : Emits (texMul O a b) (mulItems O a b) := by
  unfold texMul mulItems
  split
  · exact .times
  · split
    · exact .times
    · exact .nil

/-- the LaTeX text shows the items -/
theorem latex_emits (e : Expr α) : Emits (latex F O e) (items F O false e) := by
  induction e with
  | const v => exact texParam_emits v
  | var n => exact Emits.tok fun _ _ => rfl
  | un f a ih => exact texUn_emits f ih
  | pow a b iha ihb =>
    have := (texEnclosed_emits (O.enclose || enclosePow a) iha).braces.append (texEnclosed_emits (enclosePow b) ihb).hat
    simpa [latex, items] using this
  | add a b iha ihb =>
    simp only [latex, items]
    rcases negParam F b with _ | v
    · exact iha.append (Emits.plus.cons ihb)
    · exact iha.append (Emits.minus.cons (texParam_emits _))
  | sub a b iha ihb =>
    simp only [latex, items]
    rcases negParam F b with _ | v
    · exact iha.append (Emits.minus.cons (texEnclosed_emits _ ihb))
    · exact iha.append (Emits.plus.cons (texParam_emits _))
  | div a b iha ihb => exact iha.frac ihb
  | mul a b iha ihb => exact ((texEnclosed_emits _ iha).append (texMul_emits a b)).append (texEnclosed_emits _ ihb)
  | neg a ih => exact Emits.minus.cons (texEnclosed_emits _ ih)
  | ali a ih => exact ih
  | asg a ih => exact ih

theorem Emits.shows {ts : List (Tex α)} {is : List (Item α)} (h : Emits ts is) : TexShows ts is := by
  have := h [] [] [] ⟨1, fun m hm => by obtain ⟨k, rfl⟩ : ∃ k, m = k + 1 := ⟨m - 1, by omega⟩; rfl⟩
  rw [List.append_nil, List.append_nil] at this
  exact this

theorem TexShows.unique {ts : List (Tex α)} {is js : List (Item α)} (h : TexShows ts is) (h' : TexShows ts js) : is = js := by
  obtain ⟨n, hn⟩ := h
  obtain ⟨n', hn'⟩ := h'
  have h1 := hn (max n n') (Nat.le_max_left ..)
  rw [hn' (max n n') (Nat.le_max_right ..)] at h1
  simp only [Option.some.injEq, Prod.mk.injEq, and_true] at h1
  exact h1.symm

/-! ### MathML -/

def MRuns (one : Bool) (ts : List (Mml α)) (is : List (Item α)) (r : List (Mml α)) : Prop :=
  ∃ n, ∀ m, n ≤ m → mml m one ts = some (is, r)

theorem MRuns.seq {ts r r' : List (Mml α)} {a b : List (Item α)} (h : MRuns false ts a r) (h' : MRuns true r b r') :
    MRuns true ts (a ++ b) r' := by
  obtain ⟨n, hn⟩ := h
  obtain ⟨n', hn'⟩ := h'
  refine ⟨max n n' + 1, fun m hm => ?_⟩
  obtain ⟨k, rfl⟩ : ∃ k, m = k + 1 := ⟨m - 1, by omega⟩
  have h1 := hn k (by omega)
  have h2 := hn' k (by omega)
  rcases ts with _ | ⟨t, ts⟩
  · have := hn (k + 1) (by omega)
    simp [mml] at this
  · cases t
    case stop => have := hn (k + 1) (by omega); simp [mml] at this
    all_goals
      rw [mml]
      · simp only [h1, h2]
      all_goals simp

/-- one element shows the items -/
def MElem (ts : List (Mml α)) (is : List (Item α)) : Prop := ∀ rest, MRuns false (ts ++ rest) is rest

/-- the text shows the items, whatever follows -/
def MEmits (ts : List (Mml α)) (is : List (Item α)) : Prop :=
  ∀ rest js r, MRuns true rest js r → MRuns true (ts ++ rest) (is ++ js) r

theorem MEmits.nil : MEmits ([] : List (Mml α)) [] := fun _ _ _ h => h

theorem MEmits.append {a b : List (Mml α)} {is js : List (Item α)} (ha : MEmits a is) (hb : MEmits b js) : MEmits (a ++ b) (is ++ js) := by
  intro rest ks r h
  rw [List.append_assoc, List.append_assoc]
  exact ha _ _ _ (hb _ _ _ h)

theorem MElem.emits {ts : List (Mml α)} {is : List (Item α)} (h : MElem ts is) : MEmits ts is :=
  fun rest _ _ hr => (h rest).seq hr

theorem MElem.tok {t : Mml α} {is : List (Item α)} (h : ∀ n r, mml (n + 1) false (t :: r) = some (is, r)) : MElem [t] is :=
  fun rest => ⟨1, fun m hm => by obtain ⟨k, rfl⟩ : ∃ k, m = k + 1 := ⟨m - 1, by omega⟩; exact h k rest⟩

theorem MEmits.cons {t : Mml α} {i : Item α} {ts : List (Mml α)} {is : List (Item α)} (h : MEmits [t] [i]) (h' : MEmits ts is) :
    MEmits (t :: ts) (i :: is) := h.append h'

/-- up to the end of the element -/
theorem MEmits.stop {ts : List (Mml α)} {is : List (Item α)} (h : MEmits ts is) (t : Tag) (rest : List (Mml α)) :
    MRuns true (ts ++ .stop t :: rest) is (.stop t :: rest) := by
  have := h (.stop t :: rest) [] (.stop t :: rest)
    ⟨1, fun m hm => by obtain ⟨k, rfl⟩ : ∃ k, m = k + 1 := ⟨m - 1, by omega⟩; rfl⟩
  rwa [List.append_nil] at this

theorem MRuns.step {ts ts' r r' : List (Mml α)} {a is : List (Item α)} (h : MRuns true ts' a r')
    (hs : ∀ n, mml n true ts' = some (a, r') → mml (n + 1) false ts = some (is, r)) : MRuns false ts is r := by
  obtain ⟨n, hn⟩ := h
  refine ⟨n + 1, fun m hm => ?_⟩
  obtain ⟨k, rfl⟩ : ∃ k, m = k + 1 := ⟨m - 1, by omega⟩
  exact hs k (hn k (by omega))

theorem MEmits.mrow {ts : List (Mml α)} {is : List (Item α)} (h : MEmits ts is) : MElem (.start .mrow :: ts ++ [.stop .mrow]) is :=
  fun rest => (h.stop .mrow rest).step fun n hn => by
    simp only [List.cons_append, List.append_assoc, List.nil_append, mml, hn]

theorem MEmits.mfenced {ts : List (Mml α)} {is : List (Item α)} (h : MEmits ts is) :
    MElem (.start .mfenced :: ts ++ [.stop .mfenced]) [.group is] :=
  fun rest => (h.stop .mfenced rest).step fun n hn => by
    simp only [List.cons_append, List.append_assoc, List.nil_append, mml, hn]

theorem MEmits.msqrt {ts : List (Mml α)} {is : List (Item α)} (h : MEmits ts is) :
    MElem (.start .msqrt :: ts ++ [.stop .msqrt]) [.sqrt is] :=
  fun rest => (h.stop .msqrt rest).step fun n hn => by
    simp only [List.cons_append, List.append_assoc, List.nil_append, mml, hn]

theorem MElem.msup {ts us : List (Mml α)} {is js : List (Item α)} (h : MElem ts is) (h' : MElem us js) :
    MElem (.start .msup :: ts ++ us ++ [.stop .msup]) (is ++ [.sup js]) := by
  intro rest
  obtain ⟨n, hn⟩ := h (us ++ .stop .msup :: rest)
  obtain ⟨n', hn'⟩ := h' (.stop .msup :: rest)
  refine ⟨max n n' + 1, fun m hm => ?_⟩
  obtain ⟨k, rfl⟩ : ∃ k, m = k + 1 := ⟨m - 1, by omega⟩
  simp only [List.cons_append, List.append_assoc, List.nil_append, mml, hn k (by omega), hn' k (by omega)]

theorem MElem.mfrac {ts us : List (Mml α)} {is js : List (Item α)} (h : MElem ts is) (h' : MElem us js) :
    MElem (.start .mfrac :: ts ++ us ++ [.stop .mfrac]) [.frac is js] := by
  intro rest
  obtain ⟨n, hn⟩ := h (us ++ .stop .mfrac :: rest)
  obtain ⟨n', hn'⟩ := h' (.stop .mfrac :: rest)
  refine ⟨max n n' + 1, fun m hm => ?_⟩
  obtain ⟨k, rfl⟩ : ∃ k, m = k + 1 := ⟨m - 1, by omega⟩
  simp only [List.cons_append, List.append_assoc, List.nil_append, mml, hn k (by omega), hn' k (by omega)]

theorem MEmits.plus : MEmits [(.plus : Mml α)] [.plus] := (MElem.tok fun _ _ => rfl).emits
theorem MEmits.minus : MEmits [(.minus : Mml α)] [.minus] := (MElem.tok fun _ _ => rfl).emits
theorem MEmits.times : MEmits [(.times : Mml α)] [.times] := (MElem.tok fun _ _ => rfl).emits
theorem MElem.mn (b : Bool) (v : α) : MElem [.mn b v] (if b then [.minus, .num v] else [.num v]) := MElem.tok fun _ _ => rfl

theorem mmlParam_emits (v : α) : MEmits (mmlParam F v) (parItems F true v) := by
  unfold mmlParam parItems digItems
  rcases F.negative v with _ | _
  · simp only [Bool.false_eq_true, if_false]
    rcases F.digits v with ⟨m, _ | ⟨s, e⟩⟩
    · exact (MElem.mn false m).emits
    · have := (MElem.mn false (10 : α)).msup (MElem.mn s (e : α))
      refine (MElem.mn false m).emits.append (MEmits.times.append ?_)
      cases s <;> simpa [expoItems] using this.emits
  · simp only [if_true]
    rcases F.digits (-v) with ⟨m, _ | ⟨s, e⟩⟩
    · exact (MElem.mn true m).emits
    · have := (MElem.mn false (10 : α)).msup (MElem.mn s (e : α))
      refine (MElem.mn true m).emits.append (MEmits.times.append ?_)
      cases s <;> simpa [expoItems] using this.emits

theorem mmlEnclosed_emits {ts : List (Mml α)} {is : List (Item α)} (b : Bool) (h : MEmits ts is) : MEmits (mmlEnclosed b ts) (encItems b is) := by
  cases b
  · exact h
  · have := h.mrow.emits.mfenced.emits
    simpa [mmlEnclosed, encItems] using this

theorem mmlPart_elem {ts : List (Mml α)} {is : List (Item α)} (b : Bool) (h : MEmits ts is) : MElem (mmlPart b ts) (encItems b is) := by
  cases b
  · exact h.mrow
  · have := h.mrow.emits.mfenced
    simpa [mmlPart, encItems] using this

theorem mmlUn_emits {ts : List (Mml α)} {is : List (Item α)} (f : Fn) (h : MEmits ts is) : MEmits (mmlUn f ts) (unItems true f is) := by
  have happ : ∀ f : String, MEmits (.fn f :: .apply :: .start .mfenced :: .start .mrow :: ts ++ [.stop .mrow, .stop .mfenced]) [.fn f, .group is] := by
    intro f
    have h1 : MEmits [(.fn f : Mml α)] [.fn f] := (MElem.tok fun _ _ => rfl).emits
    have h2 : MEmits [(.apply : Mml α)] [] := (MElem.tok fun _ _ => rfl).emits
    have := h1.append (h2.append h.mrow.emits.mfenced.emits)
    simpa using this
  cases f
  case sqrt =>
    have := h.mrow.emits.msqrt.emits
    simpa [mmlUn, unItems] using this
  all_goals exact happ _

theorem mmlMul_emits (a b : Expr α) : MEmits (mmlMul O a b) (mulItems O a b) := by
  unfold mmlMul mulItems
  split
  · exact .times
  · split
    · exact .times
    · exact (MElem.tok fun _ _ => rfl).emits

/-- the MathML text shows the items -/
theorem mathml_emits (e : Expr α) : MEmits (mathml F O e) (items F O true e) := by
  induction e with
  | const v => exact mmlParam_emits v
  | var n => exact (MElem.tok fun _ _ => rfl).emits
  | un f a ih => exact mmlUn_emits f ih
  | pow a b iha ihb => exact ((mmlPart_elem (O.enclose || enclosePow a) iha).msup (mmlPart_elem (enclosePow b) ihb)).emits
  | add a b iha ihb =>
    simp only [mathml, items]
    rcases negParam F b with _ | v
    · exact iha.append (MEmits.plus.cons ihb)
    · exact iha.append (MEmits.minus.cons (mmlParam_emits _))
  | sub a b iha ihb =>
    simp only [mathml, items]
    rcases negParam F b with _ | v
    · exact iha.append (MEmits.minus.cons (mmlEnclosed_emits _ ihb))
    · exact iha.append (MEmits.plus.cons (mmlParam_emits _))
  | div a b iha ihb =>
    have := (iha.mrow.mfrac ihb.mrow).emits
    simpa [mathml, items] using this
  | mul a b iha ihb => exact ((mmlEnclosed_emits _ iha).append (mmlMul_emits a b)).append (mmlEnclosed_emits _ ihb)
  | neg a ih => exact MEmits.minus.cons (mmlEnclosed_emits _ ih)
  | ali a ih => exact ih
  | asg a ih => exact ih

theorem MEmits.shows {ts : List (Mml α)} {is : List (Item α)} (h : MEmits ts is) : MmlShows ts is := by
  have := h [] [] [] ⟨1, fun m hm => by obtain ⟨k, rfl⟩ : ∃ k, m = k + 1 := ⟨m - 1, by omega⟩; rfl⟩
  rw [List.append_nil, List.append_nil] at this
  exact this

theorem MmlShows.unique {ts : List (Mml α)} {is js : List (Item α)} (h : MmlShows ts is) (h' : MmlShows ts js) : is = js := by
  obtain ⟨n, hn⟩ := h
  obtain ⟨n', hn'⟩ := h'
  have h1 := hn (max n n') (Nat.le_max_left ..)
  rw [hn' (max n n') (Nat.le_max_right ..)] at h1
  simp only [Option.some.injEq, Prod.mk.injEq, and_true] at h1
  exact h1.symm

end Verif.Formula
