import Verif.Strings.Lemmas
/-
C38: string helpers.  C41: text of print operations.
-/
namespace Verif.Strings

/-- Every text has a decomposition at the occurrences of a non-empty pattern, and joining the pieces
with the pattern restores the text. -/
theorem pieces_total (pat text : Str) (hp : pat ≠ []) :
    ∃ ps, Pieces pat text ps ∧ join pat ps = text := by
  obtain ⟨ps, h, _⟩ := pieces_exist hp text
  exact ⟨ps, h, pieces_join h⟩

/-- C38: `replaceString` with a non-empty pattern terminates and puts the replacement at the leftmost
non-overlapping occurrences. -/
theorem replaceString_spec (pat r text : Str) (hp : pat ≠ []) :
    ∃ ps, Pieces pat text ps ∧ ∀ fuel, text.length + 1 ≤ fuel →
      replaceString fuel text pat r = some (join r ps) := by
  obtain ⟨ps, h, hl⟩ := pieces_exist hp text
  refine ⟨ps, h, fun fuel hf => ?_⟩
  have := replaceLoop_pieces (r := r) h [] fuel (by omega)
  simpa [replaceString] using this

example : replaceString 9 "abcab".toList "ab".toList "x".toList = some "xcx".toList := by decide

/-- one character replaced everywhere -/
theorem replaceString_char (c : Char) (r text : Str) (fuel : Nat) (hf : text.length + 1 ≤ fuel) :
    replaceString fuel text [c] r = some (text.flatMap fun x => if x = c then r else [x]) := by
  obtain ⟨ps, h, g⟩ := replaceString_spec [c] r text (by simp)
  rw [g fuel hf, pieces_char c r text ps h]

/-- C38 counterexample: with an empty pattern the loop never ends, whatever the text. -/
theorem replaceString_empty_counterexample (text r : Str) (fuel : Nat) :
    replaceString fuel text [] r = none := by
  have : ∀ (fuel : Nat) (t : Str) (pos : Nat), pos ≤ t.length → replaceLoop [] r fuel t pos = none := by
    intro fuel
    induction fuel with
    | zero => intros; rfl
    | succ fuel ih =>
      intro t pos hpos
      have hf : find t [] pos = some pos :=
        find_eq_some (Nat.le_refl _) ⟨hpos, by simp⟩ (fun q h1 h2 => by omega)
      unfold replaceLoop
      rw [hf]
      apply ih
      simp [List.length_take]
      omega
  exact this fuel text 0 (by omega)

/-- C38 counterexample: the replacement does not contain the pattern but the result does. -/
theorem replaceString_leaves_counterexample :
    replaceString 9 "aabb".toList "ab".toList [] = some "ab".toList := by decide

/-- C38: no occurrence is left when the replacement is not empty and shares no character with the
pattern. (Missing for the full claim: false in general, see the counterexample.) -/
theorem replaceString_no_occurrence_partial (pat r text : Str) (hp : pat ≠ []) (hr : r ≠ [])
    (hd : ∀ c ∈ pat, c ∉ r) : ∃ out, (∀ fuel, text.length + 1 ≤ fuel →
      replaceString fuel text pat r = some out) ∧ ¬ pat <:+: out := by
  obtain ⟨ps, h, g⟩ := replaceString_spec pat r text hp
  exact ⟨join r ps, g, join_no_occ hp hr hd ps (pieces_no_occ h hp)⟩

example : ¬ "ab".toList <:+: "xcx".toList ∧ (∀ c ∈ "ab".toList, c ∉ "x".toList) := by decide

/-- no occurrence of a replaced character is left if the replacement does not contain it -/
theorem replaceString_char_no_occurrence (c : Char) (r text : Str) (hc : c ∉ r) :
    ∃ out, replaceString (text.length + 1) text [c] r = some out ∧ c ∉ out := by
  refine ⟨_, replaceString_char c r text _ (Nat.le_refl _), ?_⟩
  intro hm
  obtain ⟨x, _, hx⟩ := List.mem_flatMap.1 hm
  split at hx
  · exact hc hx
  · rename_i hne
    exact hne (List.mem_singleton.1 hx).symm

/-- C38: `explode` returns the pieces, without the last one if that is empty. -/
theorem explode_spec (d text : Str) (hd : d ≠ []) :
    ∃ ps, Pieces d text ps ∧ ∀ fuel, text.length + 1 ≤ fuel →
      explode fuel text d = some (if ps.getLast? = some [] then ps.dropLast else ps) := by
  obtain ⟨ps, h, hl⟩ := pieces_exist hd text
  refine ⟨ps, h, fun fuel hf => ?_⟩
  obtain ⟨start, last, g1, g2, g3, g4⟩ := explodeLoop_pieces h [] fuel [] (by omega)
  simp only [List.nil_append, List.length_nil] at g1 g3 g4
  unfold explode
  rw [if_neg (by simpa using hd), g1]
  simp only
  have hlen : last.length = text.length - start := by rw [← g4]; simp
  have hps : ps = ps.dropLast ++ [last] := by
    exact (dropLast_getLast g2).symm
  by_cases hs : start < text.length
  · rw [if_pos hs, g4, List.take_of_length_le (by omega), ← hps, if_neg]
    rw [g2]
    intro hx
    have : last = [] := by simpa using hx
    rw [this] at hlen
    simp at hlen
    omega
  · have : last = [] := by
      apply List.length_eq_zero_iff.1
      omega
    rw [if_neg hs, if_pos (by rw [g2, this])]

example : explode 9 "a,,b".toList ",".toList = some ["a".toList, [], "b".toList] := by decide

/-- `implode` joins with the delimiter between the elements -/
theorem implode_spec (ps : List Str) (d : Str) : implode ps d = join d ps := implode_eq_join ps d

/-- C38: `implode` after `explode` restores the text, except that a delimiter at its end is lost. -/
theorem implode_explode (d text : Str) (hd : d ≠ []) :
    ∃ es, (∀ fuel, text.length + 1 ≤ fuel → explode fuel text d = some es) ∧
      (text = implode es d ∨ text = implode es d ++ d) := by
  obtain ⟨ps, h, g⟩ := explode_spec d text hd
  refine ⟨_, g, ?_⟩
  rw [implode_eq_join]
  have hj := pieces_join h
  by_cases hl : ps.getLast? = some []
  · rw [if_pos hl]
    have hps : ps = ps.dropLast ++ [[]] := (dropLast_getLast hl).symm
    have aux : ∀ l : List Str, l ≠ [] → join d (l ++ [[]]) = join d l ++ d := by
      intro l
      induction l with
      | nil => intro h; exact absurd rfl h
      | cons a l ih =>
        intro _
        cases l with
        | nil => simp [join]
        | cons b l =>
          rw [List.cons_append, join_cons (by simp), join_cons (by simp), ih (by simp)]
          simp
    by_cases he : ps.dropLast = []
    · left
      rw [he] at hps
      rw [← hj, hps]; rfl
    · right
      rw [← aux _ he, ← hps, hj]
  · left
    rw [if_neg hl, hj]

/-- C38: the text is restored when it does not end with the delimiter. -/
theorem implode_explode_partial (d text : Str) (hd : d ≠ []) (ht : ¬ d <:+ text) (fuel : Nat)
    (hf : text.length + 1 ≤ fuel) : (explode fuel text d).map (implode · d) = some text := by
  obtain ⟨es, g, h⟩ := implode_explode d text hd
  rw [g fuel hf]
  rcases h with h | h
  · simp [← h]
  · exact absurd ⟨implode es d, h.symm⟩ ht

example : ¬ ",".toList <:+ "a,,b".toList := by decide

/-- C38 counterexample: a delimiter at the end is lost -/
theorem implode_explode_counterexample :
    (explode 9 "a,b,".toList ",".toList).map (implode · ",".toList) = some "a,b".toList := by decide

/-- C38 counterexample: with an empty delimiter the text is lost -/
theorem explode_empty_counterexample (text : Str) (fuel : Nat) :
    (explode fuel text []).map (implode · []) = some [] := by rfl

/-- `explode` after `implode` restores a list of elements in which no character of the delimiter occurs
and whose last element is not empty -/
theorem explode_implode (d : Str) (ps : List Str) (hd : d ≠ []) (hne : ps ≠ [])
    (hc : ∀ p ∈ ps, ∀ c ∈ d, c ∉ p) (hl : ps.getLast? ≠ some []) (fuel : Nat)
    (hf : (implode ps d).length + ps.length ≤ fuel) : explode fuel (implode ps d) d = some ps := by
  have h := pieces_of_join hd ps hne hc
  rw [← implode_eq_join] at h
  obtain ⟨start, last, g1, g2, g3, g4⟩ := explodeLoop_pieces h [] fuel [] (by omega)
  simp only [List.nil_append, List.length_nil] at g1 g3 g4
  unfold explode
  rw [if_neg (by simpa using hd), g1]
  simp only
  have hps : ps = ps.dropLast ++ [last] := (dropLast_getLast g2).symm
  have hlast : last ≠ [] := fun h0 => hl (by rw [g2, h0])
  have hs : start < (implode ps d).length := by
    rcases Nat.lt_or_ge start (implode ps d).length with h | h
    · exact h
    · exact absurd (by rw [← g4, List.drop_eq_nil_of_le h]) hlast
  rw [if_pos hs, g4, List.take_of_length_le (by rw [← g4]; simp), ← hps]

example : explode 20 (implode ["ab".toList, [], "c".toList] ", ".toList) ", ".toList
    = some ["ab".toList, [], "c".toList] := by decide

/-! ### C41 -/

theorem escape_eq (t : Str) (fuel : Nat) (hf : 2 * t.length + 1 ≤ fuel) : escape fuel t = some
    (t.flatMap fun x => if x = '\n' then ['\\', 'n'] else if x = '"' then ['\\', '"'] else [x]) := by
  unfold escape
  rw [replaceString_char '\n' ['\\', 'n'] t fuel (by omega)]
  simp only
  rw [replaceString_char]
  · rw [List.flatMap_assoc]
    congr 2
    funext x
    by_cases h : x = '\n'
    · subst h; decide
    · simp [h]
  · have : ∀ l : Str, (l.flatMap fun x => if x = '\n' then ['\\', 'n'] else [x]).length ≤ 2 * l.length := by
      intro l
      induction l with
      | nil => simp
      | cons x l ih =>
        rw [List.flatMap_cons, List.length_append, List.length_cons]
        have e : (if x = '\n' then ['\\', 'n'] else [x]).length ≤ 2 := by split <;> simp
        omega
    have := this t
    omega

theorem readLiteral_escaped (t rest : Str) (h : '\\' ∉ t) :
    readLiteral ((t.flatMap fun x => if x = '\n' then ['\\', 'n'] else if x = '"' then ['\\', '"'] else [x]) ++ rest)
      = (readLiteral rest).map fun x => (t ++ x.1, x.2) := by
  induction t with
  | nil => simp
  | cons c t ih =>
    simp only [List.mem_cons, not_or] at h
    have ih' := ih h.2
    rw [List.flatMap_cons, List.append_assoc]
    by_cases h1 : c = '\n'
    · subst h1
      simp only [if_true, List.cons_append, List.nil_append]
      rw [readLiteral, ih']
      cases readLiteral rest <;> rfl
    · by_cases h2 : c = '"'
      · subst h2
        rw [if_neg h1, if_pos rfl]
        simp only [List.cons_append, List.nil_append]
        rw [readLiteral, ih']
        cases readLiteral rest <;> rfl
      · rw [if_neg h1, if_neg h2]
        simp only [List.cons_append, List.nil_append]
        rw [readLiteral.eq_8, ih']
        · cases readLiteral rest <;> rfl
        all_goals (intros; simp_all)

theorem printf_text (t r : Str) (as : List Str) (h : '%' ∉ t) :
    printf (t ++ r) as = (printf r as).map fun o => t ++ o := by
  induction t with
  | nil => simp
  | cons c t ih =>
    simp only [List.mem_cons, not_or] at h
    rw [List.cons_append, printf.eq_5, ih h.2]
    · cases printf r as <;> rfl
    all_goals (intros; simp_all)

/-- C41: the string literal of a print operation denotes the texts around the conversion, and printing
it gives the texts around the value, for all texts without backslash and percent sign. (Missing: false
for other texts, see the counterexamples.) -/
theorem printed_text_partial (before after v : Str) (k : Char) (fuel : Nat)
    (hf : 2 * (before.length + after.length) + 1 ≤ fuel)
    (hb : '\\' ∉ before ∧ '%' ∉ before) (ha : '\\' ∉ after ∧ '%' ∉ after)
    (hk : k ≠ '%' ∧ k ≠ '\\' ∧ k ≠ '"' ∧ k ≠ '\n') :
    ∃ lit content, printLiteral fuel before ['%', k] after = some lit ∧
      readLiteral lit = some (content, []) ∧ content = before ++ ['%', k] ++ after ∧
      printf content [v] = some (before ++ v ++ after) := by
  unfold printLiteral
  rw [escape_eq before fuel (by omega), escape_eq after fuel (by omega)]
  refine ⟨_, before ++ ['%', k] ++ after, rfl, ?_, rfl, ?_⟩
  · rw [List.append_assoc, List.append_assoc, readLiteral_escaped _ _ hb.1]
    have : readLiteral (['%', k] ++ ((after.flatMap fun x => if x = '\n' then ['\\', 'n'] else if x = '"' then ['\\', '"'] else [x]) ++ ['"']))
        = some ('%' :: k :: after, []) := by
      simp only [List.cons_append, List.nil_append]
      rw [readLiteral.eq_8, readLiteral.eq_8, readLiteral_escaped _ _ ha.1]
      · simp [readLiteral]
      all_goals (intros; simp_all)
    rw [this]
    simp
  · rw [List.append_assoc, printf_text _ _ _ hb.2]
    simp only [List.cons_append, List.nil_append]
    rw [printf.eq_3]
    · have := printf_text after [] [] ha.2
      rw [List.append_nil] at this
      rw [this]
      simp [printf]
    · exact hk.1

example : ∃ lit, printLiteral 40 "x = \"".toList ['%', 'f'] "\"\n".toList = some lit ∧
    lit = "x = \\\"%f\\\"\\n\"".toList := ⟨_, by decide, rfl⟩

/-- C41 counterexample: a backslash at the end of the text after the value swallows the closing quote. -/
theorem print_backslash_counterexample : ∃ lit,
    printLiteral 40 "x".toList ['%', 'f'] "\\".toList = some lit ∧ readLiteral lit = none :=
  ⟨_, rfl, by decide⟩

/-- C41 counterexample: a backslash before `n` becomes a line break. -/
theorem print_backslash_n_counterexample : ∃ lit,
    printLiteral 40 "\\n".toList ['%', 'f'] [] = some lit ∧ readLiteral lit = some ("\n%f".toList, []) :=
  ⟨_, rfl, by decide⟩

/-- C41 counterexample: a percent sign in the text is taken as a conversion, for which there is no
argument. -/
theorem print_percent_counterexample : ∃ lit content,
    printLiteral 40 "100% of ".toList ['%', 'f'] [] = some lit ∧ readLiteral lit = some (content, []) ∧
    printf content ["1.5".toList] = none :=
  ⟨_, _, rfl, rfl, by decide⟩

end Verif.Strings
