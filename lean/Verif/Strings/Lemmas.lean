import Verif.Strings.Model
namespace Verif.Strings

theorem dropLast_getLast {l : List Str} {a : Str} (h : l.getLast? = some a) : l.dropLast ++ [a] = l := by
  have hne : l ≠ [] := by rintro rfl; simp at h
  rw [List.getLast?_eq_some_getLast hne] at h
  have := List.dropLast_concat_getLast hne
  simp at h
  rwa [h] at this

theorem find_eq_some {text pat : Str} {pos p : Nat} (h1 : pos ≤ p) (h2 : OccursAt pat text p)
    (h3 : ∀ q, pos ≤ q → q < p → ¬ OccursAt pat text q) : find text pat pos = some p := by
  unfold find
  rw [List.find?_range'_eq_some]
  refine ⟨by simpa using h2.2, ?_, ?_⟩
  · rw [List.mem_range'_1]; have := h2.1; omega
  · intro j hj hjp
    have := h3 j hj hjp
    unfold OccursAt at this
    have h2' := h2.1
    simpa [← Bool.not_eq_true] using fun h => this ⟨by omega, h⟩

theorem find_eq_none {text pat : Str} {pos : Nat} (h : ∀ q, pos ≤ q → ¬ OccursAt pat text q) :
    find text pat pos = none := by
  unfold find
  rw [List.find?_range'_eq_none]
  intro i h1 h2
  have := h i h1
  unfold OccursAt at this
  simpa [← Bool.not_eq_true] using fun h => this ⟨by omega, h⟩

theorem find_some {text pat : Str} {pos p : Nat} (h : find text pat pos = some p) :
    pos ≤ p ∧ OccursAt pat text p ∧ ∀ q, pos ≤ q → q < p → ¬ OccursAt pat text q := by
  unfold find at h
  rw [List.find?_range'_eq_some] at h
  obtain ⟨h1, h2, h3⟩ := h
  rw [List.mem_range'_1] at h2
  refine ⟨h2.1, ⟨by omega, by simpa using h1⟩, ?_⟩
  intro q hq1 hq2 ho
  have := h3 q hq1 hq2
  simp [← Bool.not_eq_true] at this
  exact this ho.2

theorem find_none {text pat : Str} {pos : Nat} (h : find text pat pos = none) :
    ∀ q, pos ≤ q → ¬ OccursAt pat text q := by
  unfold find at h
  rw [List.find?_range'_eq_none] at h
  intro q hq ho
  have := h q hq (by have := ho.1; omega)
  simp [← Bool.not_eq_true] at this
  exact this ho.2

theorem occursAt_shift {pat pre t : Str} {p : Nat} :
    OccursAt pat (pre ++ t) (pre.length + p) ↔ OccursAt pat t p := by
  unfold OccursAt
  simp

theorem occursAt_shift' {pat pre t : Str} {p : Nat} (h : pre.length ≤ p) :
    OccursAt pat (pre ++ t) p ↔ OccursAt pat t (p - pre.length) := by
  obtain ⟨q, rfl⟩ := Nat.exists_eq_add_of_le h
  rw [occursAt_shift, Nat.add_sub_cancel_left]

theorem find_last {pat pre t : Str} (h : ∀ p, ¬ OccursAt pat t p) : find (pre ++ t) pat pre.length = none :=
  find_eq_none fun q hq => by rw [occursAt_shift' hq]; exact h _

theorem find_cons {pat pre a rest : Str} (h : ∀ p, p < a.length → ¬ OccursAt pat (a ++ pat ++ rest) p) :
    find (pre ++ (a ++ pat ++ rest)) pat pre.length = some (pre.length + a.length) := by
  apply find_eq_some
  · omega
  · rw [occursAt_shift]
    exact ⟨by simp, by simp⟩
  · intro q h1 h2
    rw [occursAt_shift' h1]
    exact h _ (by omega)

theorem Pieces.ne_nil {pat t : Str} {ps : List Str} (h : Pieces pat t ps) : ps ≠ [] := by
  cases h <;> simp

theorem join_cons {sep a : Str} {ps : List Str} (h : ps ≠ []) : join sep (a :: ps) = a ++ sep ++ join sep ps := by
  cases ps with
  | nil => exact absurd rfl h
  | cons b l => rfl

theorem replaceLoop_pieces {pat r t : Str} {ps : List Str} (h : Pieces pat t ps) :
    ∀ (pre : Str) (fuel : Nat), ps.length ≤ fuel →
      replaceLoop pat r fuel (pre ++ t) pre.length = some (pre ++ join r ps) := by
  induction h with
  | last h0 =>
    intro pre fuel hf
    cases fuel with
    | zero => simp at hf
    | succ fuel => simp [replaceLoop, find_last h0, join]
  | @cons a rest ps h0 hp ih =>
    intro pre fuel hf
    cases fuel with
    | zero => simp at hf
    | succ fuel =>
      unfold replaceLoop
      rw [find_cons h0]
      have e1 : (pre ++ (a ++ pat ++ rest)).take (pre.length + a.length) = pre ++ a := by
        rw [show pre ++ (a ++ pat ++ rest) = (pre ++ a) ++ (pat ++ rest) by simp]
        rw [show pre.length + a.length = (pre ++ a).length by simp]
        exact List.take_left
      have e2 : (pre ++ (a ++ pat ++ rest)).drop (pre.length + a.length + pat.length) = rest := by
        rw [show pre ++ (a ++ pat ++ rest) = (pre ++ a ++ pat) ++ rest by simp]
        rw [show pre.length + a.length + pat.length = (pre ++ a ++ pat).length by simp [Nat.add_assoc]]
        exact List.drop_left
      simp only [e1, e2]
      have := ih (pre ++ a ++ r) fuel (by simpa using hf)
      rw [show (pre ++ a ++ r).length = pre.length + a.length + r.length by simp [Nat.add_assoc]] at this
      rw [this, join_cons hp.ne_nil]
      simp

theorem explodeLoop_pieces {d t : Str} {ps : List Str} (h : Pieces d t ps) :
    ∀ (pre : Str) (fuel : Nat) (ms : List Str), ps.length ≤ fuel → ∃ start last,
      explodeLoop (pre ++ t) d fuel pre.length ms = some (ms ++ ps.dropLast, start) ∧
      ps.getLast? = some last ∧ start ≤ (pre ++ t).length ∧ (pre ++ t).drop start = last := by
  induction h with
  | @last t h0 =>
    intro pre fuel ms hf
    cases fuel with
    | zero => simp at hf
    | succ fuel =>
      refine ⟨pre.length, t, ?_, rfl, by simp, by simp⟩
      simp [explodeLoop, find_last h0]
  | @cons a rest ps h0 hp ih =>
    intro pre fuel ms hf
    cases fuel with
    | zero => simp at hf
    | succ fuel =>
      unfold explodeLoop
      rw [find_cons h0]
      have e1 : ((pre ++ (a ++ d ++ rest)).drop pre.length).take (pre.length + a.length - pre.length) = a := by
        rw [List.drop_left, Nat.add_sub_cancel_left, List.append_assoc, List.take_left]
      obtain ⟨start, last, g1, g2, g3, g4⟩ := ih (pre ++ a ++ d) fuel (ms ++ [a]) (by simpa using hf)
      have e2 : pre ++ a ++ d ++ rest = pre ++ (a ++ d ++ rest) := by simp
      rw [e2] at g1 g3 g4
      refine ⟨start, last, ?_, ?_, g3, g4⟩
      · simp only [e1]
        rw [show (pre ++ a ++ d).length = pre.length + a.length + d.length by simp [Nat.add_assoc]] at g1
        rw [g1, List.dropLast_cons_of_ne_nil hp.ne_nil]
        simp
      · rw [List.getLast?_cons_of_ne_nil hp.ne_nil]; exact g2

theorem pieces_join {pat t : Str} {ps : List Str} (h : Pieces pat t ps) : join pat ps = t := by
  induction h with
  | last _ => rfl
  | cons _ hp ih => rw [join_cons hp.ne_nil, ih]

theorem pieces_exist {pat : Str} (hp : pat ≠ []) (t : Str) : ∃ ps, Pieces pat t ps ∧ ps.length ≤ t.length + 1 := by
  generalize hn : t.length = n
  induction n using Nat.strongRecOn generalizing t with
  | ind n ih =>
    cases hf : find t pat 0 with
    | none => exact ⟨[t], .last fun p => find_none hf p (by omega), by simp⟩
    | some p =>
      obtain ⟨_, ⟨h1, rest, h2⟩, h3⟩ := find_some hf
      have e : t = t.take p ++ pat ++ rest := by
        rw [List.append_assoc, h2, List.take_append_drop]
      have hl := congrArg List.length e
      have hpl : 0 < pat.length := List.length_pos_iff.2 hp
      have htp : (t.take p).length = p := by rw [List.length_take]; omega
      simp only [List.length_append] at hl
      obtain ⟨ps, g1, g2⟩ := ih rest.length (by omega) rest rfl
      refine ⟨t.take p :: ps, ?_, ?_⟩
      · have : Pieces pat (t.take p ++ pat ++ rest) (t.take p :: ps) := by
          refine .cons ?_ g1
          intro q hq
          rw [← e]
          exact h3 q (by omega) (by omega)
        rwa [← e] at this
      · simp; omega

theorem implode_eq_join (ps : List Str) (d : Str) : implode ps d = join d ps := by
  have aux : ∀ (l : List Str) (a : Str), l.foldl (fun out s => out ++ d ++ s) a = join d (a :: l) := by
    intro l
    induction l with
    | nil => intro a; rfl
    | cons b l ih =>
      intro a
      rw [List.foldl_cons, ih]
      cases l with
      | nil => simp [join]
      | cons c l => simp [join]
  cases ps with
  | nil => rfl
  | cons a l =>
    cases l with
    | nil => rfl
    | cons b l => exact aux (b :: l) a

theorem infix_iff_occurs {pat t : Str} : pat <:+: t ↔ ∃ p, OccursAt pat t p := by
  constructor
  · rintro ⟨a, b, rfl⟩
    exact ⟨a.length, by simp, by simp⟩
  · rintro ⟨p, _, rest, h⟩
    exact ⟨t.take p, rest, by rw [List.append_assoc, h, List.take_append_drop]⟩

/-- pieces contain no occurrence -/
theorem pieces_no_occ {pat t : Str} {ps : List Str} (h : Pieces pat t ps) : pat ≠ [] → ∀ p ∈ ps, ¬ pat <:+: p := by
  induction h with
  | last h0 =>
    intro hp p hm
    simp at hm
    subst hm
    rw [infix_iff_occurs]
    rintro ⟨q, hq⟩
    exact h0 q hq
  | @cons a rest ps h0 _ ih =>
    intro hp p hm
    rcases List.mem_cons.1 hm with rfl | hm
    · rintro ⟨u, v, e⟩
      have hpl : 0 < pat.length := List.length_pos_iff.2 hp
      refine h0 u.length ?_ ⟨?_, ?_⟩
      · rw [← e]; simp; omega
      · rw [← e]; simp
      · rw [← e]; simp
    · exact ih hp p hm

theorem infix_split {pat x r y : Str} (hp : pat ≠ []) (hr : r ≠ []) (hd : ∀ c ∈ pat, c ∉ r)
    (h : pat <:+: x ++ r ++ y) : pat <:+: x ∨ pat <:+: y := by
  obtain ⟨c, r', rfl⟩ := List.exists_cons_of_ne_nil hr
  have key : ∀ x : Str, pat <:+: x ++ c :: (r' ++ y) → pat <:+: x ∨ pat <:+: (r' ++ y) := by
    intro x h
    obtain ⟨u, v, e⟩ := h
    rw [List.append_assoc, List.append_eq_append_iff] at e
    rcases e with ⟨w, e1, e2⟩ | ⟨w, e1, e2⟩
    · -- x = u ++ w, pat ++ v = w ++ c :: ..
      rw [List.append_eq_append_iff] at e2
      rcases e2 with ⟨z, f1, f2⟩ | ⟨z, f1, f2⟩
      · exact .inl ⟨u, z, by rw [e1, f1]; simp⟩
      · cases z with
        | nil => exact .inl ⟨u, [], by rw [e1, f1]; simp⟩
        | cons c' z =>
          simp at f2
          exact absurd (List.mem_cons_self ..) (hd c (by rw [f1, ← f2.1]; simp))
    · cases w with
      | nil =>
        simp at e2
        cases pat with
        | nil => exact absurd rfl hp
        | cons c' pat =>
          simp at e2
          exact absurd (List.mem_cons_self ..) (hd c (by rw [← e2.1]; simp))
      | cons c' w =>
        simp at e2
        exact .inr ⟨w, v, by rw [e2.2]; simp⟩
  have h' : pat <:+: x ++ c :: (r' ++ y) := by simpa using h
  rcases key x h' with g | g
  · exact .inl g
  · clear h h' key hr
    right
    induction r' with
    | nil => simpa using g
    | cons c2 r' ih =>
      have hd2 : ∀ c' ∈ pat, c' ∉ c2 :: r' := fun c' hc hm => hd c' hc (List.mem_cons_of_mem _ hm)
      have g' : pat <:+: ([] : Str) ++ c2 :: (r' ++ y) := by simpa using g
      rw [List.nil_append, List.infix_cons_iff] at g'
      rcases g' with g' | g'
      · exfalso
        cases pat with
        | nil => exact hp rfl
        | cons c' pat =>
          have := List.cons_prefix_cons.1 g'
          exact hd2 c' (by simp) (by rw [this.1]; simp)
      · exact ih (fun c' hc hm => hd c' hc (by
          rcases List.mem_cons.1 hm with h | h
          · exact h ▸ List.mem_cons_self ..
          · exact List.mem_cons_of_mem _ (List.mem_cons_of_mem _ h))) g'

theorem join_no_occ {pat r : Str} (hp : pat ≠ []) (hr : r ≠ []) (hd : ∀ c ∈ pat, c ∉ r) (ps : List Str)
    (h : ∀ p ∈ ps, ¬ pat <:+: p) : ¬ pat <:+: join r ps := by
  induction ps with
  | nil => intro g; exact hp (List.infix_nil.1 g)
  | cons a ps ih =>
    cases ps with
    | nil => exact h a (by simp)
    | cons b l =>
      rw [join_cons (by simp)]
      intro g
      rcases infix_split hp hr hd g with g | g
      · exact h a (by simp) g
      · exact ih (fun p hm => h p (List.mem_cons_of_mem _ hm)) g

/-- pieces of a text joined from pieces without delimiter characters -/
theorem pieces_of_join {d : Str} (hd : d ≠ []) (ps : List Str) (hne : ps ≠ [])
    (h : ∀ p ∈ ps, ∀ c ∈ d, c ∉ p) : Pieces d (join d ps) ps := by
  have hdl : 0 < d.length := List.length_pos_iff.2 hd
  obtain ⟨c0, d', rfl⟩ := List.exists_cons_of_ne_nil hd
  induction ps with
  | nil => exact absurd rfl hne
  | cons a ps ih =>
    have ha : c0 ∉ a := h a (by simp) c0 (by simp)
    cases ps with
    | nil =>
      refine .last fun p => ?_
      rintro ⟨_, rest, e⟩
      apply ha
      have : c0 ∈ a.drop p := by
        change (c0 :: d') ++ rest = a.drop p at e
        rw [← e]; simp
      exact List.mem_of_mem_drop this
    | cons b l =>
      rw [join_cons (by simp)]
      refine .cons ?_ (ih (by simp) fun p hm => h p (List.mem_cons_of_mem _ hm))
      intro p hp
      rintro ⟨_, rest, e⟩
      apply ha
      have e' : (a ++ (c0 :: d') ++ join (c0 :: d') (b :: l)).drop p = a.drop p ++ ((c0 :: d') ++ join (c0 :: d') (b :: l)) := by
        rw [List.append_assoc, List.drop_append_of_le_length (by omega)]
      rw [e'] at e
      have hne : a.drop p ≠ [] := by
        intro h0
        have := congrArg List.length h0
        simp at this; omega
      obtain ⟨x, xs, hx⟩ := List.exists_cons_of_ne_nil hne
      rw [hx] at e
      simp at e
      have : x ∈ a.drop p := by rw [hx]; simp
      rw [e.1]
      exact List.mem_of_mem_drop this

/-- replacement of one character -/
theorem pieces_char (c : Char) (r t : Str) : ∀ ps, Pieces [c] t ps →
    join r ps = t.flatMap fun x => if x = c then r else [x] := by
  intro ps h
  have none_of : ∀ s : Str, (∀ p, ¬ OccursAt [c] s p) → c ∉ s := by
    intro s hs hm
    obtain ⟨u, v, e⟩ := List.append_of_mem hm
    exact hs u.length ⟨by rw [e]; simp, by rw [e]; simp⟩
  have id_of : ∀ s : Str, c ∉ s → s.flatMap (fun x => if x = c then r else [x]) = s := by
    intro s hs
    induction s with
    | nil => rfl
    | cons x s ih =>
      simp only [List.mem_cons, not_or] at hs
      rw [List.flatMap_cons, ih hs.2, if_neg (Ne.symm hs.1)]; rfl
  induction h with
  | last h0 => rw [id_of _ (none_of _ h0)]; rfl
  | @cons a rest ps h0 hp ih =>
    have ha : c ∉ a := by
      intro hm
      obtain ⟨u, v, e⟩ := List.append_of_mem hm
      exact h0 u.length (by rw [e]; simp) ⟨by rw [e]; simp, by rw [e]; simp⟩
    rw [join_cons hp.ne_nil, ih, List.flatMap_append, List.flatMap_append, id_of a ha]
    simp

end Verif.Strings
