import Verif.Atomic.ModelLocate

/-
Lemmas about the search for atomic functions.
-/
namespace Verif.Atomic.Locate

section
variable {nd : Nat → LNode} {deps : List (Option Nat)} {R : Nat → Nat}

structure Inv (nd : Nat → LNode) (deps : List (Option Nat)) (st : LSt) : Prop where
  visited : ∀ n, st.indeps n ≠ none → st.visited n = true
  exact : ∀ n s, st.indeps n = some s → ∀ i, s i = true ↔ Depends nd n i
  needed : ∀ n, st.indeps n ≠ none → Needed nd deps n
  closed : ∀ u, st.indeps u ≠ none → ∀ n, some n ∈ (nd u).args → (nd n).op = .inv ∨ st.indeps n ≠ none
  used : ∀ id, st.used id = true ↔ ∃ n, st.indeps n ≠ none ∧ (nd n).op = .call id
  outer : ∀ id i, st.outer id i = true ↔ ∃ n, st.indeps n ≠ none ∧ (nd n).op = .call id ∧ Depends nd n i
  sizes : ∀ id p, st.sizes id p = true ↔ ∃ n, st.indeps n ≠ none ∧ (nd n).op = .call id ∧ Sizes nd n p

/-- nothing is forgotten, and no node stays open -/
structure Grows (st st' : LSt) : Prop where
  stored : ∀ n, st.indeps n ≠ none → st'.indeps n ≠ none
  opened : ∀ n, st'.visited n = true → st'.indeps n = none → st.visited n = true ∧ st.indeps n = none
  kept : ∀ n, st.visited n = true → st.indeps n = none → st'.visited n = true ∧ st'.indeps n = none

theorem Grows.rfl' {st : LSt} : Grows st st := ⟨fun _ h => h, fun _ h h' => ⟨h, h'⟩, fun _ h h' => ⟨h, h'⟩⟩

theorem Grows.trans {a b c : LSt} (h : Grows a b) (h' : Grows b c) : Grows a c :=
  ⟨fun n hn => h'.stored n (h.stored n hn), fun n hn hs => by
    obtain ⟨h1, h2⟩ := h'.opened n hn hs
    exact h.opened n h1 h2, fun n hn hs => by
    obtain ⟨h1, h2⟩ := h.kept n hn hs
    exact h'.kept n h1 h2⟩

theorem depends_iff {n : Nat} (h : (nd n).op ≠ .inv) (i : Nat) : Depends nd n i ↔ ∃ a, some a ∈ (nd n).args ∧ Depends nd a i := by
  constructor
  · intro hd
    cases hd with
    | self hi => exact absurd hi h
    | arg ha hd => exact ⟨_, ha, hd⟩
  · rintro ⟨a, ha, hd⟩
    exact .arg ha hd

theorem record_ok (hg : Graph nd) {n : Nat} {s : NSet} {st : LSt} (hI : Inv nd deps st) (hn : Needed nd deps n) (hv : st.visited n = true)
    (hf : st.indeps n = none) (hs : ∀ i, s i = true ↔ Depends nd n i) (hc : ∀ a, some a ∈ (nd n).args → (nd a).op = .inv ∨ st.indeps a ≠ none) :
    ∃ st', record nd n s { st with indeps := put st.indeps n (some s) } = .ok st' ∧ Inv nd deps st' ∧ st'.visited = st.visited ∧
      st'.indeps = put st.indeps n (some s) := by
  have hst : ∀ m, put st.indeps n (some s) m ≠ none ↔ m = n ∨ st.indeps m ≠ none := by
    intro m
    unfold put
    split
    · rename_i h; simp [h]
    · rename_i h; simp [h]
  have hvis : ∀ m, put st.indeps n (some s) m ≠ none → st.visited m = true := by
    intro m hm
    rcases (hst m).1 hm with rfl | h
    · exact hv
    · exact hI.visited m h
  have hex : ∀ m t, put st.indeps n (some s) m = some t → ∀ i, t i = true ↔ Depends nd m i := by
    intro m t hm
    unfold put at hm
    split at hm
    · rename_i h; cases hm; rw [h]; exact hs
    · exact hI.exact m t hm
  have hne : ∀ m, put st.indeps n (some s) m ≠ none → Needed nd deps m := by
    intro m hm
    rcases (hst m).1 hm with rfl | h
    · exact hn
    · exact hI.needed m h
  have hcl : ∀ u, put st.indeps n (some s) u ≠ none → ∀ a, some a ∈ (nd u).args → (nd a).op = .inv ∨ put st.indeps n (some s) a ≠ none := by
    intro u hu a ha
    have : (nd a).op = .inv ∨ st.indeps a ≠ none := by
      rcases (hst u).1 hu with rfl | h
      · exact hc a ha
      · exact hI.closed u h a ha
    exact this.imp id fun h => (hst a).2 (.inr h)
  unfold record
  cases hop : (nd n).op with
  | call id =>
    obtain ⟨tx, ty, rest, ha⟩ := hg.call n id hop
    simp only [ha]
    refine ⟨_, rfl, ⟨hvis, hex, hne, hcl, ?_, ?_, ?_⟩, rfl, rfl⟩
    · intro id'
      show put _ _ _ id' = true ↔ ∃ m, put _ _ _ m ≠ none ∧ _
      by_cases hid : id' = id
      · subst hid
        simp only [put, if_true, true_iff]
        exact ⟨n, by simp, hop⟩
      · have : put st.used id true id' = st.used id' := by simp [put, hid]
        rw [this, hI.used]
        constructor
        · rintro ⟨m, h1, h2⟩; exact ⟨m, (hst m).2 (.inr h1), h2⟩
        · rintro ⟨m, h1, h2⟩
          rcases (hst m).1 h1 with rfl | h
          · rw [hop] at h2; cases h2; exact absurd rfl hid
          · exact ⟨m, h, h2⟩
    · intro id' i
      show (put st.outer _ _ id') i = true ↔ ∃ m, put _ _ _ m ≠ none ∧ _
      by_cases hid : id' = id
      · subst hid
        have : put st.outer id' ((st.outer id').union s) id' i = (st.outer id' i || s i) := by simp [put, NSet.union]
        rw [this, Bool.or_eq_true, hI.outer, hs]
        constructor
        · rintro (⟨m, h1, h2⟩ | h)
          · exact ⟨m, (hst m).2 (.inr h1), h2⟩
          · exact ⟨n, (hst n).2 (.inl rfl), hop, h⟩
        · rintro ⟨m, h1, h2, h3⟩
          rcases (hst m).1 h1 with rfl | h
          · exact .inr h3
          · exact .inl ⟨m, h, h2, h3⟩
      · have : put st.outer id ((st.outer id).union s) id' i = st.outer id' i := by simp [put, hid]
        rw [this, hI.outer]
        constructor
        · rintro ⟨m, h1, h2⟩; exact ⟨m, (hst m).2 (.inr h1), h2⟩
        · rintro ⟨m, h1, h2, h3⟩
          rcases (hst m).1 h1 with rfl | h
          · rw [hop] at h2; cases h2; exact absurd rfl hid
          · exact ⟨m, h, h2, h3⟩
    · intro id' p
      show (put st.sizes _ _ id') p = true ↔ ∃ m, put _ _ _ m ≠ none ∧ _
      have hsz : Sizes nd n p ↔ p = ((nd tx).args.length, (nd ty).args.length) := by
        unfold Sizes
        rw [ha]
        constructor
        · rintro ⟨tx', ty', rest', h1, h2⟩
          simp only [List.cons.injEq, Option.some.injEq] at h1
          rw [h1.1, h1.2.1]; exact h2
        · intro h; exact ⟨tx, ty, rest, rfl, h⟩
      by_cases hid : id' = id
      · subst hid
        simp only [put, if_true, Bool.or_eq_true, decide_eq_true_eq]
        rw [hI.sizes, ← hsz]
        constructor
        · rintro (⟨m, h1, h2⟩ | h)
          · exact ⟨m, (hst m).2 (.inr h1), h2⟩
          · exact ⟨n, (hst n).2 (.inl rfl), hop, h⟩
        · rintro ⟨m, h1, h2, h3⟩
          rcases (hst m).1 h1 with rfl | h
          · exact .inr h3
          · exact .inl ⟨m, h, h2, h3⟩
      · have : ∀ v, put st.sizes id v id' p = st.sizes id' p := by intro v; simp [put, hid]
        rw [this, hI.sizes]
        constructor
        · rintro ⟨m, h1, h2⟩; exact ⟨m, (hst m).2 (.inr h1), h2⟩
        · rintro ⟨m, h1, h2, h3⟩
          rcases (hst m).1 h1 with rfl | h
          · rw [hop] at h2; cases h2; exact absurd rfl hid
          · exact ⟨m, h, h2, h3⟩
  | inv | array | other =>
    have hnc : ∀ id m, (nd m).op = .call id → m ≠ n := by
      rintro id m h rfl
      rw [hop] at h; cases h
    refine ⟨_, rfl, ⟨hvis, hex, hne, hcl, ?_, ?_, ?_⟩, rfl, rfl⟩
    · intro id
      refine (hI.used id).trans ⟨?_, ?_⟩
      · rintro ⟨m, h1, h2⟩; exact ⟨m, (hst m).2 (.inr h1), h2⟩
      · rintro ⟨m, h1, h2⟩; exact ⟨m, ((hst m).1 h1).resolve_left (hnc id m h2), h2⟩
    · intro id i
      refine (hI.outer id i).trans ⟨?_, ?_⟩
      · rintro ⟨m, h1, h2⟩; exact ⟨m, (hst m).2 (.inr h1), h2⟩
      · rintro ⟨m, h1, h2⟩; exact ⟨m, ((hst m).1 h1).resolve_left (hnc id m h2.1), h2⟩
    · intro id i
      refine (hI.sizes id i).trans ⟨?_, ?_⟩
      · rintro ⟨m, h1, h2⟩; exact ⟨m, (hst m).2 (.inr h1), h2⟩
      · rintro ⟨m, h1, h2⟩; exact ⟨m, ((hst m).1 h1).resolve_left (hnc id m h2.1), h2⟩

/-- what is expected of the search in one argument -/
def Found (nd : Nat → LNode) (deps : List (Option Nat)) (a : Option Nat) (st : LSt) (s : NSet) (st' : LSt) : Prop :=
  Inv nd deps st' ∧ Grows st st' ∧ (∀ i, s i = true ↔ ∃ n, a = some n ∧ Depends nd n i) ∧ ∀ n, a = some n → (nd n).op = .inv ∨ st'.indeps n ≠ none

theorem collect_ok {go : Option Nat → LSt → Except Err (NSet × LSt)} {r : Nat} : ∀ (as : List (Option Nat)) (s : NSet) (st : LSt),
    (∀ a ∈ as, ∀ st, Inv nd deps st → (∀ x, st.visited x = true → st.indeps x = none → r ≤ R x) → ∃ s' st', go a st = .ok (s', st') ∧ Found nd deps a st s' st') →
    Inv nd deps st → (∀ x, st.visited x = true → st.indeps x = none → r ≤ R x) →
    ∃ s' st', collect go as s st = .ok (s', st') ∧ Inv nd deps st' ∧ Grows st st' ∧
      (∀ i, s' i = true ↔ s i = true ∨ ∃ n, some n ∈ as ∧ Depends nd n i) ∧ ∀ n, some n ∈ as → (nd n).op = .inv ∨ st'.indeps n ≠ none := by
  intro as
  induction as with
  | nil =>
    intro s st _ hI _
    exact ⟨s, st, rfl, hI, .rfl', by simp, by simp⟩
  | cons a as ih =>
    intro s st hgo hI ho
    obtain ⟨s1, st1, h1, h2, h3, h4, h5⟩ := hgo a (by simp) st hI ho
    obtain ⟨s2, st2, k1, k2, k3, k4, k5⟩ := ih (s.union s1) st1 (fun x hx => hgo x (by simp [hx])) h2 (fun x hx hs => by
      obtain ⟨h, h'⟩ := h3.opened x hx hs
      exact ho x h h')
    refine ⟨s2, st2, ?_, k2, h3.trans k3, ?_, ?_⟩
    · unfold collect; rw [h1]; exact k1
    · intro i
      rw [k4]
      simp only [NSet.union, Bool.or_eq_true, h4, List.mem_cons]
      constructor
      · rintro ((h | ⟨n, h, h'⟩) | ⟨n, h, h'⟩)
        · exact .inl h
        · exact .inr ⟨n, .inl h.symm, h'⟩
        · exact .inr ⟨n, .inr h, h'⟩
      · rintro (h | ⟨n, h | h, h'⟩)
        · exact .inl (.inl h)
        · exact .inl (.inr ⟨n, h.symm, h'⟩)
        · exact .inr ⟨n, h, h'⟩
    · intro n hn
      rcases List.mem_cons.1 hn with h | h
      · exact (h5 n h.symm).imp id fun h => k3.stored n h
      · exact k5 n h

theorem find_ok (hg : Graph nd) (hR : ∀ u n, some n ∈ (nd u).args → R n < R u) : ∀ (f r : Nat) (a : Option Nat) (st : LSt),
    0 < f → (∀ n, a = some n → R n + 1 < f ∧ R n < r ∧ Needed nd deps n) → Inv nd deps st → (∀ x, st.visited x = true → st.indeps x = none → r ≤ R x) →
    ∃ s st', find nd f a st = .ok (s, st') ∧ Found nd deps a st s st' := by
  intro f
  induction f with
  | zero => intro _ _ _ h; omega
  | succ f ih =>
    intro r a st _ ha hI ho
    cases a with
    | none => exact ⟨_, _, rfl, hI, .rfl', by simp [NSet.empty], by simp⟩
    | some n =>
      obtain ⟨hf, hr, hn⟩ := ha n rfl
      unfold find
      by_cases hop : (nd n).op = .inv
      · rw [if_pos hop]
        refine ⟨_, _, rfl, hI, .rfl', ?_, ?_⟩
        · intro i
          simp only [NSet.one, decide_eq_true_eq, Option.some.injEq]
          constructor
          · rintro rfl; exact ⟨i, rfl, .self hop⟩
          · rintro ⟨m, rfl, hd⟩
            cases hd with
            | self _ => rfl
            | arg h _ => rw [hg.inv n hop] at h; cases h
        · intro m hm; cases hm; exact .inl hop
      rw [if_neg hop]
      by_cases hv : st.visited n = true
      · rw [if_pos hv]
        cases hs : st.indeps n with
        | none => have := ho n hv hs; omega
        | some s =>
          refine ⟨_, _, rfl, hI, .rfl', ?_, ?_⟩
          · intro i
            rw [hI.exact n s hs]
            constructor
            · intro h; exact ⟨n, rfl, h⟩
            · rintro ⟨m, h, h'⟩; cases h; exact h'
          · intro m hm; cases hm; exact .inr (by rw [hs]; simp)
      · rw [if_neg hv]
        have hnone : st.indeps n = none := by
          cases hs : st.indeps n with
          | none => rfl
          | some s => exact absurd (hI.visited n (by rw [hs]; simp)) hv
        have hI1 : Inv nd deps { st with visited := put st.visited n true } :=
          ⟨fun m hm => by
            show put _ _ _ m = true
            unfold put; split
            · rfl
            · exact hI.visited m hm, hI.exact, hI.needed, hI.closed, hI.used, hI.outer, hI.sizes⟩
        have ho1 : ∀ x, put st.visited n true x = true → st.indeps x = none → R n ≤ R x := by
          intro x hx hs
          unfold put at hx
          split at hx
          · rename_i h; rw [h]; exact Nat.le_refl _
          · have := ho x hx hs; omega
        obtain ⟨s, st1, h1, h2, h3, h4, h5⟩ := collect_ok (R := R) (r := R n) (go := find nd f) (nd n).args .empty { st with visited := put st.visited n true }
          (fun a ha st' hI' ho' => by
            exact ih (R n) a st' (by omega) (fun m hm => by
              subst hm
              have := hR n m ha
              exact ⟨by omega, this, .arg hn ha⟩) hI' ho') hI1 ho1
        rw [h1]
        simp only
        have hs' : ∀ i, s i = true ↔ Depends nd n i := by
          intro i
          rw [h4, depends_iff hop]
          simp [NSet.empty]
        obtain ⟨g1, g2⟩ := h3.kept n (by simp [put]) hnone
        obtain ⟨st2, k1, k2, k3, k4⟩ := record_ok hg h2 hn g1 g2 hs' h5
        rw [k1]
        refine ⟨s, st2, rfl, k2, ⟨?_, ?_, ?_⟩, ?_, ?_⟩
        · intro m hm
          rw [k4]
          unfold put; split
          · simp
          · exact h3.stored m hm
        · intro m hm hs
          rw [k3] at hm
          rw [k4] at hs
          unfold put at hs
          split at hs
          · cases hs
          · rename_i hne
            obtain ⟨q1, q2⟩ := h3.opened m hm hs
            exact ⟨by simpa [put, hne] using q1, q2⟩
        · intro m hm hs
          have hne : m ≠ n := by rintro rfl; exact hv hm
          obtain ⟨q1, q2⟩ := h3.kept m (by simpa [put, hne] using hm) hs
          rw [k3, k4]
          exact ⟨q1, by simpa [put, hne] using q2⟩
        · intro i
          rw [hs']
          constructor
          · intro h; exact ⟨n, rfl, h⟩
          · rintro ⟨m, h, h'⟩; cases h; exact h'
        · intro m hm
          cases hm
          exact .inr (by rw [k4]; simp [put])

end

end Verif.Atomic.Locate
