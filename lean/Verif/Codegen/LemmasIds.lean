import Verif.Codegen.LemmasMark
/- Variable IDs of independents and dependents. -/
namespace Verif.Codegen
variable {α : Type}

theorem idIndeps_spec (ns : List Nat) : ∀ (vid : Nat → Nat) (c : Nat), ns.Nodup →
    (idIndeps ns (vid, c)).2 = c + ns.length ∧
    ∀ n, (idIndeps ns (vid, c)).1 n = if n ∈ ns then c + ns.idxOf n else vid n := by
  induction ns with
  | nil => intro vid c _; simp [idIndeps]
  | cons a ns ih =>
    intro vid c hnd
    rw [List.nodup_cons] at hnd
    have h := ih (upd vid a c) (c + 1) hnd.2
    unfold idIndeps
    refine ⟨by rw [h.1]; simp; omega, ?_⟩
    intro n
    rw [h.2]
    by_cases hna : n = a
    · subst hna; simp [hnd.1]
    · have h' : ¬ a = n := fun h => hna h.symm
      by_cases hn : n ∈ ns
      · simp [hn, hna, h', List.idxOf_cons]; omega
      · simp [hn, hna]

theorem idDeps_spec (ds : List (Arg α)) : ∀ (vid : Nat → Nat) (c : Nat), 0 < c →
    (∀ n, vid n < c) → (∀ n m, vid n ≠ 0 → vid n = vid m → n = m) →
    c ≤ (idDeps ds (vid, c)).2 ∧
    (∀ n, vid n ≠ 0 → (idDeps ds (vid, c)).1 n = vid n) ∧
    (∀ n, vid n = 0 → n ∉ argNodes ds → (idDeps ds (vid, c)).1 n = 0) ∧
    (∀ n, vid n = 0 → n ∈ argNodes ds → c ≤ (idDeps ds (vid, c)).1 n) ∧
    (∀ n, (idDeps ds (vid, c)).1 n < (idDeps ds (vid, c)).2) ∧
    (∀ n m, (idDeps ds (vid, c)).1 n ≠ 0 → (idDeps ds (vid, c)).1 n = (idDeps ds (vid, c)).1 m →
      n = m) := by
  induction ds with
  | nil =>
    intro vid c hc hlt hinj
    simp only [idDeps]
    refine ⟨Nat.le_refl _, fun _ _ => trivial, fun _ h _ => h, ?_, hlt, hinj⟩
    intro n _ h; simp [argNodes] at h
  | cons d ds ih =>
    intro vid c hc hlt hinj
    cases d with
    | param v =>
      have : argNodes (Arg.param v :: ds) = argNodes ds := by simp [argNodes]
      rw [this]
      exact ih vid c hc hlt hinj
    | node a =>
      have hcons : argNodes (Arg.node a :: ds) = a :: argNodes ds := by simp [argNodes]
      rw [hcons]
      unfold idDeps
      by_cases ha : vid a = 0
      · rw [if_pos ha]
        have h := ih (upd vid a c) (c + 1) (by omega)
          (by intro n; rw [upd_apply]; split
              · omega
              · have := hlt n; omega)
          (by intro n m hn hnm
              rw [upd_apply] at hn
              rw [upd_apply, upd_apply] at hnm
              by_cases h1 : n = a <;> by_cases h2 : m = a
              · rw [h1, h2]
              · rw [if_pos h1, if_neg h2] at hnm
                have := hlt m; omega
              · rw [if_neg h1, if_pos h2] at hnm
                have := hlt n; omega
              · rw [if_neg h1, if_neg h2] at hnm
                rw [if_neg h1] at hn
                exact hinj n m hn hnm)
        obtain ⟨h1, h2, h3, h4, h5, h6⟩ := h
        refine ⟨by omega, ?_, ?_, ?_, h5, h6⟩
        · intro n hn
          have hna : n ≠ a := fun h => hn (h ▸ ha)
          have := h2 n (by simpa [hna] using hn)
          simpa [hna] using this
        · intro n hn hm
          simp only [List.mem_cons, not_or] at hm
          exact h3 n (by simpa [hm.1] using hn) hm.2
        · intro n hn hm
          by_cases hna : n = a
          · subst hna
            have := h2 n (by simp; omega)
            rw [this]; simp
          · have hm' : n ∈ argNodes ds := by
              rcases List.mem_cons.1 hm with h | h
              · exact absurd h hna
              · exact h
            have := h4 n (by simpa [hna] using hn) hm'
            omega
      · rw [if_neg ha]
        obtain ⟨h1, h2, h3, h4, h5, h6⟩ := ih vid c hc hlt hinj
        refine ⟨h1, h2, ?_, ?_, h5, h6⟩
        · intro n hn hm
          simp only [List.mem_cons, not_or] at hm
          exact h3 n hn hm.2
        · intro n hn hm
          rcases List.mem_cons.1 hm with h | h
          · subst h; exact absurd hn ha
          · exact h4 n hn h

/-- IDs given before anything is visited -/
structure IdFacts (indeps roots : List Nat) (vid0 : Nat → Nat) (minTemp : Nat) : Prop where
  nz : ∀ n, vid0 n ≠ 0 ↔ n ∈ indeps ∨ n ∈ roots
  indep : ∀ n ∈ indeps, vid0 n = indeps.idxOf n + 1
  dep : ∀ n ∈ roots, n ∉ indeps → indeps.length < vid0 n
  lt : ∀ n, vid0 n < minTemp
  inj : ∀ n m, vid0 n ≠ 0 → vid0 n = vid0 m → n = m
  minTemp : indeps.length < minTemp

theorem idFacts (indeps : List Nat) (deps : List (Arg α)) (hnd : indeps.Nodup) :
    IdFacts indeps (argNodes deps) (idDeps deps (idIndeps indeps (fun _ => 0, 1))).1
      (idDeps deps (idIndeps indeps (fun _ => 0, 1))).2 := by
  obtain ⟨hc, hv⟩ := idIndeps_spec indeps (fun _ => 0) 1 hnd
  have hpair : idIndeps indeps (fun _ => 0, 1) =
      ((idIndeps indeps (fun _ => 0, 1)).1, (idIndeps indeps (fun _ => 0, 1)).2) := rfl
  generalize (idIndeps indeps (fun _ => 0, 1)).1 = v1 at hv hpair
  generalize (idIndeps indeps (fun _ => 0, 1)).2 = c1 at hc hpair
  rw [hpair]
  have hz : ∀ n, v1 n = 0 ↔ n ∉ indeps := by
    intro n; rw [hv]; split
    · rename_i h; simp [h]
    · rename_i h; simp [h]
  obtain ⟨h1, h2, h3, h4, h5, h6⟩ := idDeps_spec deps v1 c1 (by omega)
    (by intro n; rw [hv]; split
        · rename_i h
          have := List.idxOf_lt_length_of_mem h
          omega
        · omega)
    (by intro n m hn hnm
        have hn' : n ∈ indeps := by
          apply Classical.byContradiction; intro h; exact hn ((hz n).2 h)
        have hm' : m ∈ indeps := by
          apply Classical.byContradiction; intro h
          rw [(hz m).2 h] at hnm; exact hn hnm
        rw [hv, hv, if_pos hn', if_pos hm'] at hnm
        have hidx : indeps.idxOf n = indeps.idxOf m := by omega
        exact (List.idxOf_inj hn').1 hidx)
  refine ⟨?_, ?_, ?_, h5, h6, by omega⟩
  · intro n
    by_cases hi : n ∈ indeps
    · have : v1 n ≠ 0 := fun h => (hz n).1 h hi
      rw [h2 n this]; simp [this, hi]
    · have hz' := (hz n).2 hi
      by_cases hd : n ∈ argNodes deps
      · have := h4 n hz' hd
        simp only [hd, or_true, iff_true]; omega
      · simp [h3 n hz' hd, hi, hd]
  · intro n hn
    have : v1 n ≠ 0 := fun h => (hz n).1 h hn
    rw [h2 n this, hv, if_pos hn]; omega
  · intro n hn hi
    have := h4 n ((hz n).2 hi) hn
    omega

end Verif.Codegen
