import Verif.Codegen.Model
import Mathlib.Data.List.Basic
/- Use counts (`mark`). -/
namespace Verif.Codegen
variable {α : Type}

@[simp] theorem upd_same {β : Type} (f : Nat → β) (n : Nat) (v : β) : upd f n v n = v := by
  simp [upd]

@[simp] theorem upd_ne {β : Type} (f : Nat → β) {n m : Nat} (v : β) (h : m ≠ n) :
    upd f n v m = f m := by
  simp [upd, h]

theorem upd_apply {β : Type} (f : Nat → β) (n m : Nat) (v : β) :
    upd f n v m = if m = n then v else f m := rfl

/-- invariant rule for `foldE` -/
theorem foldE_inv {σ β : Type} {f : σ → β → Except Err σ} {P : σ → Prop} (bs : List β) :
    ∀ s, P s → (∀ s b, b ∈ bs → P s → ∃ s', f s b = .ok s' ∧ P s') →
      ∃ s', foldE f s bs = .ok s' ∧ P s' := by
  induction bs with
  | nil => intro s hs _; exact ⟨s, rfl, hs⟩
  | cons b bs ih =>
    intro s hs hf
    obtain ⟨s1, h1, p1⟩ := hf s b (by simp) hs
    obtain ⟨s2, h2, p2⟩ := ih s1 p1 (fun s b hb => hf s b (List.mem_cons_of_mem _ hb))
    exact ⟨s2, by simp [foldE, h1, h2], p2⟩

theorem mem_argNodes {as : List (Arg α)} {m : Nat} : m ∈ argNodes as ↔ Arg.node m ∈ as := by
  induction as with
  | nil => simp [argNodes]
  | cons a as ih =>
    cases a with
    | param v => simpa [argNodes] using ih
    | node n =>
      have : argNodes (Arg.node n :: as) = n :: argNodes as := by simp [argNodes]
      rw [this, List.mem_cons, List.mem_cons, ih]; simp

theorem shape_inv {G : Graph α} {n : Nat} (h : Shape G n) (ho : (G n).op = .inv) : kids G n = [] := by
  unfold Shape at h; rw [ho] at h
  simp only at h
  simp [kids, h, argNodes]

theorem shape_alias {G : Graph α} {n : Nat} (h : Shape G n) (ho : (G n).op = .alias) :
    ∃ m, (G n).args = [.node m] ∧ kids G n = [m] := by
  unfold Shape at h; rw [ho] at h
  simp only at h
  obtain ⟨m, hm⟩ := h
  exact ⟨m, hm, by simp [kids, hm, argNodes]⟩

/-- Bookkeeping of the use counts: `X` lists the nodes whose arguments were visited. -/
structure MarkSpec (G : Graph α) (roots : List Nat) (c c' : Nat → Nat) (X : List Nat) : Prop where
  count : ∀ u, c' u = c u + roots.count u + (X.flatMap (kids G)).count u
  normal : ∀ w, (G w).op ≠ .inv → (G w).op ≠ .alias →
    X.count w = if c w = 0 ∧ 0 < c' w then 1 else 0
  ali : ∀ w, (G w).op = .alias → c' w = c w + X.count w

theorem MarkSpec.append {G : Graph α} {r1 r2 : List Nat} {c c1 c2 : Nat → Nat} {X1 X2 : List Nat}
    (h1 : MarkSpec G r1 c c1 X1) (h2 : MarkSpec G r2 c1 c2 X2) :
    MarkSpec G (r1 ++ r2) c c2 (X1 ++ X2) := by
  refine ⟨?_, ?_, ?_⟩
  · intro u
    rw [h2.count u, h1.count u, List.count_append, List.flatMap_append, List.count_append]
    omega
  · intro w hi ha
    rw [List.count_append, h1.normal w hi ha, h2.normal w hi ha]
    have e1 := h1.count w
    have e2 := h2.count w
    split <;> split <;> split <;> omega
  · intro w ha
    rw [h2.ali w ha, h1.ali w ha, List.count_append]; omega

variable {G : Graph α} {rank : Nat → Nat} {fuel : Nat} {indeps : List Nat} {deps : List (Arg α)}

theorem mark_spec (wf : WF G rank fuel indeps deps) : ∀ (k n : Nat) (c : Nat → Nat),
    Reach G (argNodes deps) n → rank n < k →
    ∃ c' X, mark G k n c = .ok c' ∧ MarkSpec G [n] c c' X ∧
      ∀ w ∈ X, Reach G (argNodes deps) w := by
  intro k
  induction k with
  | zero => intro n c _ h; omega
  | succ k ih =>
    intro n c hr hk
    have hsh := wf.shape n hr
    unfold mark
    by_cases hinv : (G n).op = .inv
    · refine ⟨upd c n (c n + 1), [], by simp [hinv], ⟨?_, ?_, ?_⟩, by simp⟩
      · intro u
        by_cases h : u = n
        · subst h; simp
        · have : ¬ n = u := fun h' => h h'.symm
          simp [h, this, List.count_cons]
      · intro w hi ha
        have hne : w ≠ n := fun h => hi (h ▸ hinv)
        simp [hne]
      · intro w ha
        have hne : w ≠ n := by
          rintro rfl; rw [hinv] at ha; cases ha
        simp [hne]
    · by_cases hali : (G n).op = .alias
      · obtain ⟨m, hargs, hkids⟩ := shape_alias hsh hali
        have hmk : m ∈ kids G n := by simp [hkids]
        have hrm := Reach.kid hr hmk
        have hlt := wf.acyclic n hr m hmk
        obtain ⟨c', X, hc, hs, hX⟩ := ih m (upd c n (c n + 1)) hrm (by omega)
        refine ⟨c', n :: X, by simp [hali, hargs, hc], ⟨?_, ?_, ?_⟩, ?_⟩
        · intro u
          rw [hs.count u, List.flatMap_cons, hkids, List.count_append]
          by_cases h : u = n
          · subst h; simp; omega
          · have : ¬ n = u := fun h' => h h'.symm
            simp [h, this, List.count_cons]; omega
        · intro w hi ha
          have hne : w ≠ n := fun h => ha (h ▸ hali)
          have hne' : ¬ n = w := fun h => hne h.symm
          rw [List.count_cons, hs.normal w hi ha]
          simp [hne, hne']
        · intro w ha
          rw [hs.ali w ha]
          by_cases h : w = n
          · subst h; simp; omega
          · have : ¬ n = w := fun h' => h h'.symm
            simp [h, this, List.count_cons]
        · intro w hw
          rcases List.mem_cons.1 hw with rfl | hw
          · exact hr
          · exact hX w hw
      · by_cases hc0 : c n = 0
        · -- first visit
          have hfold : ∀ (l : List Nat), (∀ m ∈ l, m ∈ kids G n) → ∀ c1, ∃ c' X,
              foldE (fun s m => mark G k m s) c1 l = .ok c' ∧ MarkSpec G l c1 c' X ∧
              ∀ w ∈ X, Reach G (argNodes deps) w := by
            intro l
            induction l with
            | nil =>
              intro _ c1
              refine ⟨c1, [], rfl, ⟨by simp, ?_, by simp⟩, by simp⟩
              intro w _ _; simp
            | cons m l ihl =>
              intro hm c1
              have hmk := hm m (by simp)
              have hlt := wf.acyclic n hr m hmk
              obtain ⟨c2, X2, e2, s2, r2⟩ := ih m c1 (Reach.kid hr hmk) (by omega)
              obtain ⟨c3, X3, e3, s3, r3⟩ := ihl (fun a ha => hm a (List.mem_cons_of_mem _ ha)) c2
              refine ⟨c3, X2 ++ X3, by simp [foldE, e2, e3], s2.append s3, ?_⟩
              intro w hw
              rcases List.mem_append.1 hw with h | h
              · exact r2 w h
              · exact r3 w h
          obtain ⟨c', X, hc, hs, hX⟩ := hfold (kids G n) (fun _ h => h) (upd c n (c n + 1))
          refine ⟨c', n :: X, by simp [hinv, hali, hc0, hc0 ▸ hc], ⟨?_, ?_, ?_⟩, ?_⟩
          · intro u
            rw [hs.count u, List.flatMap_cons, List.count_append]
            by_cases h : u = n
            · subst h; simp; omega
            · have : ¬ n = u := fun h' => h h'.symm
              simp [h, this, List.count_cons]; omega
          · intro w hi ha
            by_cases h : w = n
            · subst h
              have := hs.count w
              rw [List.count_cons, hs.normal w hi ha]
              simp [hc0] at this ⊢
              omega
            · have h' : ¬ n = w := fun h' => h h'.symm
              rw [List.count_cons, hs.normal w hi ha]
              simp [h, h']
          · intro w ha
            have hne : w ≠ n := fun h => hali (h ▸ ha)
            have hne' : ¬ n = w := fun h => hne h.symm
            rw [hs.ali w ha]
            simp [hne, hne', List.count_cons]
          · intro w hw
            rcases List.mem_cons.1 hw with rfl | hw
            · exact hr
            · exact hX w hw
        · refine ⟨upd c n (c n + 1), [], by simp [hinv, hali, hc0], ⟨?_, ?_, ?_⟩, by simp⟩
          · intro u
            by_cases h : u = n
            · subst h; simp
            · have : ¬ n = u := fun h' => h h'.symm
              simp [h, this, List.count_cons]
          · intro w hi ha
            by_cases h : w = n
            · subst h; simp [hc0]
            · simp [h]
          · intro w ha
            have hne : w ≠ n := fun h => hali (h ▸ ha)
            simp [hne]

theorem markAll_spec (wf : WF G rank fuel indeps deps) : ∃ c X,
    markAll G fuel (argNodes deps) (fun _ => 0) = .ok c ∧
    MarkSpec G (argNodes deps) (fun _ => 0) c X ∧ ∀ w ∈ X, Reach G (argNodes deps) w := by
  unfold markAll
  have hfold : ∀ (l : List Nat), (∀ m ∈ l, m ∈ argNodes deps) → ∀ c1, ∃ c' X,
      foldE (fun s m => mark G fuel m s) c1 l = .ok c' ∧ MarkSpec G l c1 c' X ∧
      ∀ w ∈ X, Reach G (argNodes deps) w := by
    intro l
    induction l with
    | nil =>
      intro _ c1
      refine ⟨c1, [], rfl, ⟨by simp, ?_, by simp⟩, by simp⟩
      intro w _ _; simp
    | cons m l ihl =>
      intro hm c1
      have hmk := hm m (by simp)
      obtain ⟨c2, X2, e2, s2, r2⟩ := mark_spec wf fuel m c1 (Reach.root hmk) (wf.depth m hmk)
      obtain ⟨c3, X3, e3, s3, r3⟩ := ihl (fun a ha => hm a (List.mem_cons_of_mem _ ha)) c2
      refine ⟨c3, X2 ++ X3, by simp [foldE, e2, e3], s2.append s3, ?_⟩
      intro w hw
      rcases List.mem_append.1 hw with h | h
      · exact r2 w h
      · exact r3 w h
  exact hfold _ (fun _ h => h) _

/-- facts about the final use counts -/
structure CountFacts (G : Graph α) (roots : List Nat) (c : Nat → Nat) : Prop where
  pos : ∀ n, Reach G roots n → 0 < c n
  dep_arg : ∀ p d, Reach G roots p → d ∈ kids G p → d ∈ roots → 1 < c d
  two_parents : ∀ p q m, Reach G roots p → Reach G roots q → p ≠ q → m ∈ kids G p → m ∈ kids G q →
    1 < c m
  alias_two : ∀ p m, Reach G roots p → (G p).op = .alias → 1 < c p → m ∈ kids G p → 1 < c m

theorem count_flatMap_ge (f : Nat → List Nat) (X : List Nat) (w m : Nat) (h : m ∈ f w) :
    X.count w ≤ (X.flatMap f).count m := by
  induction X with
  | nil => simp
  | cons a X ih =>
    rw [List.flatMap_cons, List.count_append, List.count_cons]
    split
    · rename_i heq
      have : a = w := by simpa using heq
      subst this
      have : 0 < (f a).count m := List.count_pos_iff.2 h
      omega
    · omega

theorem count_flatMap_ge_two (f : Nat → List Nat) (X : List Nat) (p q m : Nat) (hpq : p ≠ q)
    (hp : m ∈ f p) (hq : m ∈ f q) : X.count p + X.count q ≤ (X.flatMap f).count m := by
  induction X with
  | nil => simp
  | cons a X ih =>
    rw [List.flatMap_cons, List.count_append, List.count_cons, List.count_cons]
    by_cases h1 : a = p
    · subst h1
      have h2 : ¬ a = q := hpq
      have : 0 < (f a).count m := List.count_pos_iff.2 hp
      simp [h2]; omega
    · by_cases h2 : a = q
      · subst h2
        have : 0 < (f a).count m := List.count_pos_iff.2 hq
        simp [h1]; omega
      · simp [h1, h2]; omega

theorem countFacts (wf : WF G rank fuel indeps deps) {c : Nat → Nat} {X : List Nat}
    (hs : MarkSpec G (argNodes deps) (fun _ => 0) c X) : CountFacts G (argNodes deps) c := by
  -- nodes with a positive count and arguments are expanded
  have hexp : ∀ p m, Reach G (argNodes deps) p → 0 < c p → m ∈ kids G p →
      0 < X.count p ∧ ((G p).op = .alias → X.count p = c p) := by
    intro p m hr hc hm
    have hni : (G p).op ≠ .inv := by
      intro h; rw [shape_inv (wf.shape p hr) h] at hm; simp at hm
    by_cases ha : (G p).op = .alias
    · have := hs.ali p ha
      exact ⟨by omega, fun _ => by omega⟩
    · rw [hs.normal p hni ha]
      refine ⟨by simp [hc], fun h => absurd h ha⟩
  have hpos : ∀ n, Reach G (argNodes deps) n → 0 < c n := by
    intro n hr
    induction hr with
    | root hd =>
      rename_i d
      rw [hs.count d]
      have := List.count_pos_iff.2 hd
      omega
    | kid hr hm ih =>
      rename_i n m
      have h1 := (hexp n m hr ih hm).1
      have h2 := count_flatMap_ge (kids G) X n m hm
      rw [hs.count m]; omega
  refine ⟨hpos, ?_, ?_, ?_⟩
  · intro p d hr hm hd
    have h1 := (hexp p d hr (hpos p hr) hm).1
    have h2 := count_flatMap_ge (kids G) X p d hm
    have h3 := List.count_pos_iff.2 hd
    rw [hs.count d]; omega
  · intro p q m hp hq hpq hmp hmq
    have h1 := (hexp p m hp (hpos p hp) hmp).1
    have h2 := (hexp q m hq (hpos q hq) hmq).1
    have h3 := count_flatMap_ge_two (kids G) X p q m hpq hmp hmq
    rw [hs.count m]; omega
  · intro p m hp ha hc hm
    have h1 := (hexp p m hp (by omega) hm).2 ha
    have h2 := count_flatMap_ge (kids G) X p m hm
    rw [hs.count m]; omega

end Verif.Codegen
