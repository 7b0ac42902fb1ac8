import Verif.Dae.LemmasElim3
namespace Verif.Dae.Elim
open Verif.Dae.Soares (Closed Stay augG_stay found_mut unc_le)

/-! ### colors after searches -/

/-- colored variables are assigned to colored equations -/
def InvC (g : BG) : Prop := ∀ j, (g.v j).colored = true → ∃ k, (g.v j).assign = some k ∧ (g.e k).colored = true

theorem InvC.setAssign {g : BG} (h : InvC g) {j i : Nat} (hi : (g.e i).colored = true) : InvC (g.setAssign j i) := by
  have hc : ∀ k, ((g.setAssign j i).e k).colored = (g.e k).colored := by intro k; rw [setAssign_e]; split <;> rfl
  intro q hq
  rw [setAssign_v] at hq ⊢
  by_cases hqj : q = j
  · rw [if_pos hqj]
    exact ⟨i, rfl, by rw [hc]; exact hi⟩
  · rw [if_neg hqj] at hq ⊢
    obtain ⟨k, h1, h2⟩ := h q hq
    exact ⟨k, h1, by rw [hc]; exact h2⟩

theorem tryG_col {rec : Nat → BG → Except Err (Bool × BG)}
    (hrec : ∀ i g b g', Inv (fun _ => true) (some i) g → rec i g = .ok (b, g') →
      InvC g' ∧ ∀ k, (g.e k).colored = true → (g'.e k).colored = true) {i : Nat} :
    ∀ (js : List Nat) (g : BG) (b : Bool) (g' : BG), InvC g → (g.e i).colored = true →
      tryG (fun _ => true) true rec i js g = .ok (b, g') → InvC g' ∧ ∀ k, (g.e k).colored = true → (g'.e k).colored = true := by
  intro js
  induction js with
  | nil =>
    intro g b g' h _ e
    simp only [tryG, Except.ok.injEq, Prod.mk.injEq] at e
    obtain ⟨rfl, rfl⟩ := e
    exact ⟨h, fun _ x => x⟩
  | cons j js ih =>
    intro g b g' h hi e
    unfold tryG at e
    split at e
    · exact ih g b g' h hi e
    · simp only [if_true] at e
      split at e
      · cases e
      · rename_i k hk
        rw [colorV_e] at e
        split at e
        · rename_i hkc
          refine ih (g.colorV j) b g' ?_ hi e
          intro q hq
          rw [colorV_v] at hq ⊢
          by_cases hqj : q = j
          · rw [if_pos hqj]; exact ⟨k, by rw [hqj]; exact hk, hkc⟩
          · rw [if_neg hqj] at hq ⊢; exact h q hq
        · have hI : Inv (fun _ => true) (some k) (g.colorV j) := by
            intro q hq _
            rw [colorV_v] at hq ⊢
            by_cases hqj : q = j
            · rw [if_pos hqj]; exact ⟨k, by rw [hqj]; exact hk, .inr rfl⟩
            · rw [if_neg hqj] at hq ⊢
              obtain ⟨k', h1, h2⟩ := h q hq
              exact ⟨k', h1, .inl h2⟩
          split at e
          · cases e
          · rename_i g2 hr
            simp only [Except.ok.injEq, Prod.mk.injEq] at e
            obtain ⟨rfl, rfl⟩ := e
            obtain ⟨h1, h2⟩ := hrec k _ _ _ hI hr
            refine ⟨h1.setAssign (h2 i hi), fun q hq => ?_⟩
            rw [setAssign_e]; split <;> exact h2 q hq
          · rename_i g2 hr
            obtain ⟨h1, h2⟩ := hrec k _ _ _ hI hr
            obtain ⟨h3, h4⟩ := ih g2 b g' h1 (h2 i hi) e
            exact ⟨h3, fun q hq => h4 q (h2 q hq)⟩

theorem augG_col : ∀ (fuel i : Nat) (g : BG) (b : Bool) (g' : BG), Inv (fun _ => true) (some i) g →
    augG pick1 (fun _ => true) true fuel i g = .ok (b, g') → InvC g' ∧ ∀ k, (g.e k).colored = true → (g'.e k).colored = true := by
  intro fuel
  induction fuel with
  | zero => intro i g b g' _ h; cases h
  | succ fuel ih =>
    intro i g b g' h e
    unfold augG at e
    simp only at e
    have hm : ∀ k, (g.e k).colored = true → ((g.colorE i).e k).colored = true := by
      intro k hk; rw [colorE_e]; split
      · rfl
      · exact hk
    have hi : ((g.colorE i).e i).colored = true := by rw [colorE_e, if_pos rfl]
    have hC : InvC (g.colorE i) := by
      intro q hq
      obtain ⟨k, h1, h2⟩ := h q hq rfl
      refine ⟨k, h1, ?_⟩
      rcases h2 with h2 | h2
      · exact hm k h2
      · cases h2; exact hi
    split at e
    · simp only [Except.ok.injEq, Prod.mk.injEq] at e
      obtain ⟨rfl, rfl⟩ := e
      refine ⟨hC.setAssign hi, fun k hk => ?_⟩
      rw [setAssign_e]; split <;> exact hm k hk
    · obtain ⟨h1, h2⟩ := tryG_col (fun i g b g' => ih i g b g') _ _ _ _ hC hi e
      exact ⟨h1, fun k hk => h2 k (hm k hk)⟩

/-! ### the remaining assignments -/

variable {σ : Type} {E : Eng σ} {p : In} {dep : σ → Nat → Nat → Prop} {h0 : σ}

theorem deleteV_same {g : BG} {j : Nat} (h1 : (g.v j).deleted = true) (h2 : (g.v j).eqs = []) : g.deleteV j = g := by
  have : g.deleteV j = { g with v := (g.deleteV j).v } := by
    unfold BG.deleteV
    rw [h2]; rfl
  rw [this]
  have hv : (g.deleteV j).v = g.v := by
    funext k
    rw [deleteV_v]
    split
    · rename_i hk
      subst hk
      have : ∀ n : VN, n.deleted = true → n.eqs = [] → { n with deleted := true, eqs := [] } = n := by
        intro n; cases n; simp_all
      exact this _ h1 h2
    · rfl
  rw [hv]

theorem delete_again {ps : List (Nat × Nat)} {s : St σ} (h : EI E p dep h0 ps s) : ∀ (l : List Nat),
    l.foldl (fun g j => if (g.v j).assign.isSome then g.deleteV j else g) s.g = s.g := by
  intro l
  induction l with
  | nil => rfl
  | cons j l ih =>
    rw [List.foldl_cons]
    have : (if (s.g.v j).assign.isSome then s.g.deleteV j else s.g) = s.g := by
      split
      · rename_i ha
        have hd : (s.g.v j).deleted = true := (h.del j).mpr (fun x => by rw [x] at ha; cases ha)
        exact deleteV_same hd (h.gi.gone j hd)
      · rfl
    rw [this]; exact ih

/-- during the remaining assignments: equations up to `m` have been tried -/
structure RI (p : In) (ps : List (Nat × Nat)) (g0 : BG) (m : Nat) (g : BG) : Prop where
  same : Same g0 g
  agree : Mut g
  keep : ∀ i j, (i, j) ∈ ps → (g.v j).assign = some i
  new : ∀ i j, (g.v j).assign = some i → (i, j) ∈ ps ∨ (j ∈ (g0.e i).vars ∧ (g0.e i).assign = none)
  unc : ∀ i, m ≤ i → (g.e i).assign = none → (g.e i).colored = false
  inv : InvC g

/-- a step of the remaining assignments -/
def remStep (g : BG) (i : Nat) : Except Err BG :=
  if (g.e i).assign.isNone then
    match augmentPath g.ne i g with
    | .error x => .error x
    | .ok (_, g') => .ok g'
  else .ok g

theorem remStep_spec {ps : List (Nat × Nat)} {s : St σ} (h : EI E p dep h0 ps s) {m : Nat} (hm : m < p.ne) {g : BG}
    (r : RI p ps s.g m g) : ∃ g', remStep g m = .ok g' ∧ RI p ps s.g (m + 1) g' := by
  unfold remStep
  split
  · rename_i hn
    have hn : (g.e m).assign = none := Option.isNone_iff_eq_none.mp hn
    have hne : g.ne = p.ne := r.same.ne.trans h.gi.ne
    have hmne : m < g.ne := by omega
    have hd : Does (fun _ => true) true (augmentPath g.ne) g.ne := by
      have : augmentPath g.ne = augG pick1 (fun _ => true) true g.ne := by funext i g; exact augmentPath_eq _ i g
      rw [this]; exact augG_does static_true pick1_ok g.ne
    have hI : Inv (fun _ => true) (some m) g := by
      intro j hj _
      obtain ⟨k, h1, h2⟩ := r.inv j hj
      exact ⟨k, h1, .inl h2⟩
    -- equations without a substitution
    have hcl : Closed (fun _ => true) (fun k => (s.g.e k).assign = none) g := by
      intro k _ j hj _ k' hk'
      rcases r.new k' j hk' with h1 | h1
      · rw [r.same.vars] at hj
        have := (h.gi.varsIn k j hj).2.1
        rw [(h.del j).mpr (by rw [(h.iffv k' j).mpr h1]; simp)] at this
        cases this
      · exact h1.2
    have hm0 : (s.g.e m).assign = none := by
      cases hx : (s.g.e m).assign with
      | none => rfl
      | some j =>
        have := r.keep m j ((h.iffe m j).mp hx)
        rw [← r.agree.iff, hn] at this
        cases this
    -- the equation and those which are assigned
    have hcl2 : Closed (fun _ => true) (fun k => k = m ∨ (g.e k).assign ≠ none) g := by
      intro k _ j _ _ k' hk'
      right
      rw [(r.agree.iff k' j).mpr hk']; simp
    have fin : ∀ b g', augmentPath g.ne m g = .ok (b, g') → Same g g' → Mut g' →
        (∀ k j, (g'.e k).assign = some j → (g.e k).assign = some j ∨ j ∈ (g.e k).vars) →
        (∀ k, (g.e k).assign ≠ none → (g'.e k).assign ≠ none) →
        RI p ps s.g (m + 1) g' := by
      intro b g' e hs hmut hinc hkeep
      rw [augmentPath_eq] at e
      have st := augG_stay static_true _ _ _ _ _ hcl hm0 e
      have st2 := augG_stay static_true _ _ _ _ _ hcl2 (.inl rfl) e
      refine ⟨r.same.trans hs, hmut, fun i j hij => ?_, fun i j hij => ?_, fun i hi hni => ?_, (augG_col _ _ _ _ _ hI e).1⟩
      · rw [← hmut.iff, st.out i (fun x => by rw [(h.iffe i j).mpr hij] at x; cases x), r.agree.iff]
        exact r.keep i j hij
      · rw [← hmut.iff] at hij
        by_cases h0 : (s.g.e i).assign = none
        · rcases hinc i j hij with h1 | h1
          · exact r.new i j ((r.agree.iff i j).mp h1)
          · rw [r.same.vars] at h1; exact .inr ⟨h1, h0⟩
        · rw [st.out i h0] at hij
          exact r.new i j ((r.agree.iff i j).mp hij)
      · have hgi : (g.e i).assign = none := by
          by_contra hx
          exact hkeep i hx hni
        rw [st2.out i (by rintro (hx | hx); · omega
                          · exact hx hgi)]
        exact r.unc i (by omega) hgi
    rcases hd m g r.agree (r.unc m (Nat.le_refl _) hn) hmne hI (unc_le g) with ⟨g', e, F⟩ | ⟨g', e, _, F⟩
    · rw [e]
      exact ⟨g', rfl, fin true g' e F.same (found_mut r.agree hmne hn F)
        (fun k j hk => (F.inc k j hk).imp id (fun x => x.1)) F.keep⟩
    · rw [e]
      refine ⟨g', rfl, fin false g' e F.same ⟨fun k j => ?_, fun j k hk => ?_⟩ (fun k j hk => .inl (by rw [← F.ae]; exact hk))
        (fun k hk => by rw [F.ae]; exact hk)⟩
      · rw [F.ae, F.av]; exact r.agree.iff k j
      · rw [F.av] at hk; rw [F.same.ne]; exact r.agree.lt j k hk
  · rename_i hn
    refine ⟨g, rfl, r.same, r.agree, r.keep, r.new, fun i hi => r.unc i (by omega), r.inv⟩

theorem remaining_spec {ps : List (Nat × Nat)} {s : St σ} (h : EI E p dep h0 ps s) :
    ∃ g, remaining p s.g = .ok g ∧ RI p ps s.g p.ne g := by
  have hi : RI p ps s.g 0 s.g := by
    refine ⟨Same.refl _, ⟨fun k j => ?_, fun j k hk => ?_⟩, fun i j hij => (h.iffv i j).mpr hij, fun i j hij => .inl ((h.iffv i j).mp hij),
      fun i _ _ => h.uncE i, fun j hj => ?_⟩
    · rw [h.iffe, h.iffv]
    · rw [h.gi.ne]; exact (h.mem _ ((h.iffv k j).mp hk)).1
    · rw [h.uncV] at hj; cases hj
  have : ∀ m, m ≤ p.ne → ∃ g, (List.range m).foldlM remStep s.g = .ok g ∧ RI p ps s.g m g := by
    intro m
    induction m with
    | zero => intro _; exact ⟨s.g, rfl, hi⟩
    | succ m ih =>
      intro hm
      obtain ⟨g, e, r⟩ := ih (by omega)
      obtain ⟨g', e', r'⟩ := remStep_spec h hm r
      refine ⟨g', ?_, r'⟩
      rw [List.range_succ, List.foldlM_append, e]
      show List.foldlM remStep g [m] = _
      rw [List.foldlM_cons, e']; rfl
  obtain ⟨g, e, r⟩ := this p.ne (Nat.le_refl _)
  refine ⟨g, ?_, r⟩
  unfold remaining
  simp only
  rw [delete_again h]
  exact e

/-! ### the results -/

theorem save_spec {g : BG} (hm : Mut g) (hv : ∀ i j, (g.v j).assign = some i → j ∈ p.variables) (info : Nat → Option Nat) (e : Nat) :
    save p g info e = match (g.e e).assign with | some j => some j | none => info e := by
  unfold save
  have key : ∀ (l : List Nat) (info : Nat → Option Nat),
      (l.foldl (fun info j => match (g.v j).assign with
        | some i => fun e => if e = i then some j else info e
        | none => info) info) e =
      match (g.e e).assign with | some j => if j ∈ l then some j else info e | none => info e := by
    intro l
    induction l with
    | nil => intro info; cases (g.e e).assign <;> simp
    | cons a l ih =>
      intro info
      rw [List.foldl_cons, ih]
      cases he : (g.e e).assign with
      | none =>
        simp only
        cases ha : (g.v a).assign with
        | none => rfl
        | some i =>
          simp only
          rw [if_neg]
          rintro rfl
          rw [(hm.iff e a).mpr ha] at he; cases he
      | some j =>
        simp only
        have hj := (hm.iff e j).mp he
        by_cases hjl : j ∈ l
        · rw [if_pos hjl, if_pos (List.mem_cons_of_mem _ hjl)]
        · rw [if_neg hjl]
          by_cases haj : j = a
          · subst haj; rw [hj]; simp
          · rw [if_neg (by simp [haj, hjl])]
            cases ha : (g.v a).assign with
            | none => rfl
            | some i =>
              simp only
              rw [if_neg]
              rintro rfl
              rw [(hm.iff e a).mpr ha] at he
              cases he; exact haj rfl
  refine (key p.variables info).trans ?_
  cases he : (g.e e).assign with
  | none => rfl
  | some j => simp only; rw [if_pos (hv e j ((hm.iff e j).mp he))]

end Verif.Dae.Elim
