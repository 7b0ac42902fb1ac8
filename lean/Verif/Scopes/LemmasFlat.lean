import Verif.Scopes.LemmasVisitOrder

/-
Lemmas about the order of the code of all scopes.
-/
namespace Verif.Scopes.Order

open Verif.Scopes

/-- the queues of all scopes hold the nodes of `log` -/
structure Final (P : Placed) (roots : List Nat) (queue : Nat → List Nat) (log : List Nat) : Prop where
  nested : Nested P roots
  q : ∀ c, queue c = log.filter fun x => P.scope x = c
  nodup : log.Nodup
  needed : ∀ x ∈ log, (P.nd x).op.needed = true
  reach : ∀ x ∈ log, Reach P.nd roots x
  post : log.Pairwise fun x y => ¬ Desc P.nd x y
  all : ∀ x, Reach P.nd roots x → printed (P.nd x).op = true → x ∈ log
  heads : ∀ l₁ x l₂, log = l₁ ++ x :: l₂ → P.scope x ≠ 0 → (P.nd x).op.begins = false →
    ∃ b ∈ l₁, (P.nd b).op.begins = true ∧ P.scope b = P.scope x

theorem reach_root {nd : Nat → Node} {roots : List Nat} {x : Nat} (h : Reach nd roots x) : ∃ r ∈ roots, r = x ∨ Desc nd r x := by
  induction h with
  | @root r h => exact ⟨r, h, .inl rfl⟩
  | @arg u a _ ha ih =>
    obtain ⟨r, hr, h⟩ := ih
    refine ⟨r, hr, .inr ?_⟩
    rcases h with rfl | h
    · exact .arg ha
    · exact h.trans (.arg ha)

theorem Desc.has {nd : Nat → Node} {u y : Nat} (h : Desc nd u y) : ∃ a, a ∈ (nd u).args := by
  induction h with
  | arg h => exact ⟨_, h⟩
  | step h _ _ => exact ⟨_, h⟩

/-- nodes in a scope are needed for its end -/
theorem Nested.below {P : Placed} {roots : List Nat} (hN : Nested P roots) {S e x : Nat} {p : List (Nat × Nat)}
    (hS : P.path S = p ++ [(S, e)]) (hx : Reach P.nd roots x) (hn : (P.nd x).op.needed = true) (hin : P.In S x) : Desc P.nd e x := by
  obtain ⟨r, hr, h⟩ := reach_root hx
  have hne : (P.nd r).op.needed = true := by
    rcases h with rfl | h
    · exact hn
    · cases hq : (P.nd r).op.needed with
      | true => rfl
      | false =>
        obtain ⟨a, ha⟩ := h.has
        rw [hN.leaf r (.root hr) hq] at ha
        cases ha
  have hnr : ¬ P.In S r := by
    intro h
    unfold Placed.In at h
    rw [(hN.results r hr).1 hne, hN.top, hS] at h
    have := List.IsPrefix.length_le h
    simp at this
  rcases h with rfl | h
  · exact absurd hin hnr
  · rcases hN.enter hS h (.root hr) hn hin with h | h
    · exact absurd h hnr
    · exact h.1

theorem In.self (P : Placed) (x : Nat) : P.In (P.scope x) x := List.prefix_rfl

/-- the beginning of the scope which ends with a node -/
structure Ended (P : Placed) (e b : Nat) (p : List (Nat × Nat)) : Prop where
  args : ∃ as, (P.nd e).args = b :: as
  begins : (P.nd b).op.begins = true
  path : P.path (P.scope b) = p ++ [(P.scope b, e)]
  ne : P.scope b ≠ 0
  outer : if (P.nd e).op.begins then ∃ el, P.path (P.scope e) = p ++ [el] else P.path (P.scope e) = p

theorem Nested.ended {P : Placed} {roots : List Nat} (hN : Nested P roots) {e : Nat} (he : Reach P.nd roots e)
    (hend : (P.nd e).op.isEnd = true) : ∃ b p, Ended P e b p := by
  obtain ⟨p, b, as, h1, h2, h3, h4⟩ := hN.ends e he hend
  refine ⟨b, p, ⟨as, h1⟩, h2, h3, ?_, h4⟩
  intro h0
  rw [h0, hN.top] at h3
  simp at h3

/-- the end of the scope of a node -/
theorem Nested.endOf {P : Placed} {roots : List Nat} (hN : Nested P roots) {x : Nat} (hx : Reach P.nd roots x)
    (hn : (P.nd x).op.needed = true) (hs : P.scope x ≠ 0) :
    ∃ e b p, Reach P.nd roots e ∧ (P.nd e).op.isEnd = true ∧ Ended P e b p ∧ P.scope b = P.scope x := by
  obtain ⟨p, e, hp⟩ := hN.last x hx hn hs
  obtain ⟨-, -, hre, hee, b, as, hargs, hsb⟩ := hN.outer x hx hn p (P.scope x, e) [] hp
  obtain ⟨b', p', hE⟩ := hN.ended hre hee
  obtain ⟨as', ha'⟩ := hE.args
  have hbeq : b = b' := by
    have := hargs.symm.trans ha'
    simp at this; exact this.1
  subst hbeq
  exact ⟨e, b, p', hre, hee, hE, hsb⟩

theorem Ended.same {P : Placed} {e e' b b' : Nat} {p p' : List (Nat × Nat)} (h : Ended P e b p) (h' : Ended P e' b' p')
    (hs : P.scope b = P.scope b') : e = e' := by
  have h1 := h.path
  rw [hs, h'.path] at h1
  have := List.append_inj_right' h1 rfl
  simp at this
  exact this.symm

theorem Ended.same_begin {P : Placed} {e b b' : Nat} {p p' : List (Nat × Nat)} (h : Ended P e b p) (h' : Ended P e b' p') : b = b' := by
  obtain ⟨as, h1⟩ := h.args
  obtain ⟨as', h2⟩ := h'.args
  have := h1.symm.trans h2
  simp at this
  exact this.1

theorem count_one {l : List Nat} (h : l.Nodup) {x : Nat} (hx : x ∈ l) : l.count x = 1 := by rw [h.count, if_pos hx]

theorem le_sum_mem {l : List Nat} {x : Nat} (h : x ∈ l) : x ≤ l.sum := by
  induction l with
  | nil => cases h
  | cons a l ih =>
    simp only [List.sum_cons]
    rcases List.mem_cons.1 h with rfl | h
    · omega
    · have := ih h; omega

section

variable {P : Placed} {roots : List Nat} {queue : Nat → List Nat} {log : List Nat}

theorem Final.mem (h : Final P roots queue log) {c x : Nat} : x ∈ queue c ↔ x ∈ log ∧ P.scope x = c := by
  rw [h.q]; simp

theorem lay_end {go : Nat → Except Err (List Nat)} {n b : Nat} {as q l : List Nat} (he : (P.nd n).op.isEnd = true)
    (ha : (P.nd n).args = b :: as) (h : lay P go (n :: q) = .ok l) :
    ∃ block l', go (P.scope b) = .ok block ∧ lay P go q = .ok l' ∧ l = block ++ n :: l' := by
  unfold lay at h
  rw [if_pos he, ha] at h
  simp only at h
  cases hg : go (P.scope b) with
  | error x => rw [hg] at h; simp at h
  | ok block =>
    rw [hg] at h
    simp only at h
    cases hl : lay P go q with
    | error x => rw [hl] at h; simp at h
    | ok l' =>
      rw [hl] at h
      simp at h
      exact ⟨block, l', rfl, rfl, h.symm⟩

theorem lay_other {go : Nat → Except Err (List Nat)} {n : Nat} {q l : List Nat} (he : (P.nd n).op.isEnd = false)
    (h : lay P go (n :: q) = .ok l) : ∃ l', lay P go q = .ok l' ∧ l = n :: l' := by
  unfold lay at h
  rw [if_neg (by simp [he])] at h
  cases hl : lay P go q with
  | error x => rw [hl] at h; simp at h
  | ok l' =>
    rw [hl] at h
    simp at h
    exact ⟨l', rfl, h.symm⟩

/-- the code of a scope is complete with enough fuel -/
theorem flat_ok (hF : Final P roots queue log) {R : Nat → Nat} (hR : ∀ u, Reach P.nd roots u → ∀ a ∈ (P.nd u).args, R a < R u) :
    ∀ f c, 1 ≤ f → (∀ n ∈ queue c, R n + 1 < f) → ∃ l, flat P queue f c = .ok l := by
  intro f
  induction f with
  | zero => intro c h; omega
  | succ f ih =>
    intro c _ hq
    unfold flat
    have hsub : ∀ n ∈ queue c, n ∈ log := fun n hn => (hF.mem.1 hn).1
    revert hq hsub
    generalize queue c = q
    induction q with
    | nil => intro _ _; exact ⟨[], rfl⟩
    | cons n q ihq =>
      intro hq hsub
      obtain ⟨l', hl'⟩ := ihq (fun x hx => hq x (List.mem_cons_of_mem _ hx)) (fun x hx => hsub x (List.mem_cons_of_mem _ hx))
      have hnl := hsub n (by simp)
      unfold lay
      by_cases he : (P.nd n).op.isEnd = true
      · rw [if_pos he]
        obtain ⟨b, p, hE⟩ := hF.nested.ended (hF.reach n hnl) he
        obtain ⟨as, ha⟩ := hE.args
        have hb : ∃ l, flat P queue f (P.scope b) = .ok l := by
          have hnf := hq n (by simp)
          apply ih _ (by omega)
          intro x hx
          obtain ⟨hxl, hxs⟩ := hF.mem.1 hx
          have hin : P.In (P.scope b) x := by unfold Placed.In; rw [hxs]; exact List.prefix_rfl
          have := (hF.nested.below hE.path (hF.reach x hxl) (hF.needed x hxl) hin).rank hR (hF.reach n hnl)
          omega
        obtain ⟨block, hb⟩ := hb
        rw [ha]
        simp only [hb, hl']
        exact ⟨_, rfl⟩
      · rw [if_neg he, hl']
        exact ⟨_, rfl⟩

/-- nothing else is in the code -/
theorem flat_sub (hF : Final P roots queue log) : ∀ f c l, flat P queue f c = .ok l → ∀ x ∈ l, x ∈ log := by
  intro f
  induction f with
  | zero => intro c l h; simp [flat] at h
  | succ f ih =>
    intro c l h
    unfold flat at h
    have hsub : ∀ n ∈ queue c, n ∈ log := fun n hn => (hF.mem.1 hn).1
    revert h hsub l
    generalize queue c = q
    induction q with
    | nil => intro l h _; simp [lay] at h; subst h; simp
    | cons n q ihq =>
      intro l h hsub x hx
      have hnl := hsub n (by simp)
      have hsub' : ∀ y ∈ q, y ∈ log := fun y hy => hsub y (List.mem_cons_of_mem _ hy)
      by_cases he : (P.nd n).op.isEnd = true
      · obtain ⟨b, p, hE⟩ := hF.nested.ended (hF.reach n hnl) he
        obtain ⟨as, ha⟩ := hE.args
        obtain ⟨block, l', hb, hl', rfl⟩ := lay_end he ha h
        rcases List.mem_append.1 hx with hx | hx
        · exact ih _ _ hb x hx
        · rcases List.mem_cons.1 hx with rfl | hx
          · exact hnl
          · exact ihq l' hl' hsub' x hx
      · obtain ⟨l', hl', rfl⟩ := lay_other (by simpa using he) h
        rcases List.mem_cons.1 hx with rfl | hx
        · exact hnl
        · exact ihq l' hl' hsub' x hx

/-- how often a node of an inner scope is in the code: as often as the end of its scope -/
theorem lay_count (hF : Final P roots queue log) {x e b : Nat} {p : List (Nat × Nat)} (hE : Ended P e b p)
    (he : (P.nd e).op.isEnd = true) (hx : P.scope x = P.scope b) {go : Nat → Except Err (List Nat)}
    (hgo : ∀ c l, go c = .ok l → l.count x = (queue c).count x + l.count e * (queue (P.scope b)).count x) :
    ∀ q l, lay P go q = .ok l → (∀ n ∈ q, n ∈ log) → l.count x = q.count x + l.count e * (queue (P.scope b)).count x := by
  intro q
  induction q with
  | nil => intro l h _; simp [lay] at h; subst h; simp
  | cons n q ihq =>
    intro l h hsub
    have hnl := hsub n (by simp)
    have hsub' : ∀ y ∈ q, y ∈ log := fun y hy => hsub y (List.mem_cons_of_mem _ hy)
    by_cases hne : (P.nd n).op.isEnd = true
    · obtain ⟨b', p', hE'⟩ := hF.nested.ended (hF.reach n hnl) hne
      obtain ⟨as, ha⟩ := hE'.args
      obtain ⟨block, l', hb, hl', rfl⟩ := lay_end hne ha h
      have h1 := hgo _ _ hb
      have h2 := ihq l' hl' hsub'
      by_cases hnee : n = e
      · subst hnee
        have := hE.same_begin hE'
        subst this
        simp only [List.count_append, List.count_cons, h1, h2, beq_self_eq_true, if_true, Nat.add_mul, Nat.one_mul]
        omega
      · have h0 : (queue (P.scope b')).count x = 0 := by
          rw [List.count_eq_zero]
          intro hm
          exact hnee (hE'.same hE ((hF.mem.1 hm).2.symm.trans hx))
        rw [h0] at h1
        simp only [List.count_append, List.count_cons, h1, h2, Nat.add_mul]
        simp [hnee]
        omega
    · obtain ⟨l', hl', rfl⟩ := lay_other (by simpa using hne) h
      have := ihq l' hl' hsub'
      have hnee : n ≠ e := fun h => hne (h ▸ he)
      simp only [List.count_cons, this]
      simp [hnee]
      omega

theorem flat_count (hF : Final P roots queue log) {x e b : Nat} {p : List (Nat × Nat)} (hE : Ended P e b p)
    (he : (P.nd e).op.isEnd = true) (hx : P.scope x = P.scope b) :
    ∀ f c l, flat P queue f c = .ok l → l.count x = (queue c).count x + l.count e * (queue (P.scope b)).count x := by
  intro f
  induction f with
  | zero => intro c l h; simp [flat] at h
  | succ f ih =>
    intro c l h
    exact lay_count hF hE he hx ih (queue c) l h (fun n hn => (hF.mem.1 hn).1)

/-- nodes outside of all scopes are in the code only there -/
theorem flat_count_top (hF : Final P roots queue log) {x : Nat} (hx : P.scope x = 0) :
    ∀ f c l, flat P queue f c = .ok l → l.count x = (queue c).count x := by
  intro f
  induction f with
  | zero => intro c l h; simp [flat] at h
  | succ f ih =>
    intro c l h
    unfold flat at h
    have hsub : ∀ n ∈ queue c, n ∈ log := fun n hn => (hF.mem.1 hn).1
    revert h hsub l
    generalize queue c = q
    induction q with
    | nil => intro l h _; simp [lay] at h; subst h; simp
    | cons n q ihq =>
      intro l h hsub
      have hnl := hsub n (by simp)
      have hsub' : ∀ y ∈ q, y ∈ log := fun y hy => hsub y (List.mem_cons_of_mem _ hy)
      by_cases he : (P.nd n).op.isEnd = true
      · obtain ⟨b, p, hE⟩ := hF.nested.ended (hF.reach n hnl) he
        obtain ⟨as, ha⟩ := hE.args
        obtain ⟨block, l', hb, hl', rfl⟩ := lay_end he ha h
        have h0 : (queue (P.scope b)).count x = 0 := by
          rw [List.count_eq_zero]
          intro hm
          exact hE.ne ((hF.mem.1 hm).2.symm.trans hx)
        have := ih _ _ hb
        rw [h0] at this
        simp only [List.count_append, List.count_cons, this, ihq l' hl' hsub']
        omega
      · obtain ⟨l', hl', rfl⟩ := lay_other (by simpa using he) h
        simp only [List.count_cons, ihq l' hl' hsub']

/-- every node is in the code once -/
theorem flat_once (hF : Final P roots queue log) {f : Nat} {l : List Nat} (h : flat P queue f 0 = .ok l) {x : Nat} (hx : x ∈ log) :
    l.count x = 1 := by
  obtain ⟨R, hR⟩ := hF.nested.acyclic
  have hb : ∀ y ∈ log, R y ≤ (roots.map R).sum := by
    intro y hy
    obtain ⟨r, hr, h⟩ := reach_root (hF.reach y hy)
    have h1 : R y ≤ R r := by
      rcases h with rfl | h
      · exact Nat.le_refl _
      · exact Nat.le_of_lt (h.rank hR (.root hr))
    exact Nat.le_trans h1 (le_sum_mem (List.mem_map.2 ⟨r, hr, rfl⟩))
  have hqc : ∀ y ∈ log, (queue (P.scope y)).count y = 1 := by
    intro y hy
    rw [hF.q]
    apply count_one (hF.nodup.filter _)
    simp [hy]
  have main : ∀ d y, y ∈ log → (roots.map R).sum - R y ≤ d → l.count y = 1 := by
    intro d
    induction d with
    | zero =>
      intro y hy hd
      by_cases hs : P.scope y = 0
      · rw [flat_count_top hF hs f 0 l h, ← hs]; exact hqc y hy
      · obtain ⟨e, b, p, hre, hee, hE, hsb⟩ := hF.nested.endOf (hF.reach y hy) (hF.needed y hy) hs
        have hin : P.In (P.scope b) y := by unfold Placed.In; rw [hsb]; exact List.prefix_rfl
        have h1 := (hF.nested.below hE.path (hF.reach y hy) (hF.needed y hy) hin).rank hR hre
        have h2 := hb e (hF.all e hre (by simp [printed, hee]))
        omega
    | succ d ih =>
      intro y hy hd
      by_cases hs : P.scope y = 0
      · rw [flat_count_top hF hs f 0 l h, ← hs]; exact hqc y hy
      · obtain ⟨e, b, p, hre, hee, hE, hsb⟩ := hF.nested.endOf (hF.reach y hy) (hF.needed y hy) hs
        have hin : P.In (P.scope b) y := by unfold Placed.In; rw [hsb]; exact List.prefix_rfl
        have hel := hF.all e hre (by simp [printed, hee])
        have h1 := (hF.nested.below hE.path (hF.reach y hy) (hF.needed y hy) hin).rank hR hre
        have h2 := hb e hel
        have h3 := ih e hel (by omega)
        rw [flat_count hF hE hee hsb.symm f 0 l h, h3]
        have h0 : (queue 0).count y = 0 := by
          rw [List.count_eq_zero]
          intro hm
          exact hs (hF.mem.1 hm).2
        rw [h0, hsb, hqc y hy]
  exact main _ x hx (Nat.le_refl _)

theorem flat_perm (hF : Final P roots queue log) {f : Nat} {l : List Nat} (h : flat P queue f 0 = .ok l) : l.Perm log := by
  rw [List.perm_iff_count]
  intro x
  by_cases hx : x ∈ log
  · rw [flat_once hF h hx, count_one hF.nodup hx]
  · rw [List.count_eq_zero.2 hx, List.count_eq_zero.2 (fun hm => hx (flat_sub hF f 0 l h x hm))]

/-! ### order -/

/-- what is needed of the code of a scope by a node further outside is needed of the end of the scope -/
theorem flat_through (hF : Final P roots queue log) : ∀ f e b p l, Reach P.nd roots e → Ended P e b p → flat P queue f (P.scope b) = .ok l →
    ∀ y ∈ l, ∀ u, Reach P.nd roots u → Desc P.nd u y → (P.path (P.scope u)).length ≤ p.length → u = e ∨ Desc P.nd u e := by
  intro f
  induction f with
  | zero => intro e b p l _ _ h; simp [flat] at h
  | succ f ih =>
    intro e b p l hre hE h y hy u hu hd hlen
    have hnin : ¬ P.In (P.scope b) u := by
      intro h
      have := List.IsPrefix.length_le h
      rw [hE.path] at this
      simp at this
      omega
    unfold flat at h
    have hsub : ∀ n ∈ queue (P.scope b), n ∈ log ∧ P.scope n = P.scope b := fun n hn => hF.mem.1 hn
    revert h hsub y l
    generalize queue (P.scope b) = q
    induction q with
    | nil => intro l y hy hd h; simp [lay] at h; subst h; simp at hy
    | cons n q ihq =>
      intro l y hy hd h hsub
      obtain ⟨hnl, hns⟩ := hsub n (by simp)
      have hsub' : ∀ y ∈ q, y ∈ log ∧ P.scope y = P.scope b := fun y hy => hsub y (List.mem_cons_of_mem _ hy)
      have hnin' : P.In (P.scope b) n := by unfold Placed.In; rw [hns]; exact List.prefix_rfl
      have direct : Desc P.nd u n → u = e ∨ Desc P.nd u e := by
        intro hd
        rcases hF.nested.enter hE.path hd hu (hF.needed n hnl) hnin' with h | h
        · exact absurd h hnin
        · exact h.2
      by_cases he : (P.nd n).op.isEnd = true
      · obtain ⟨b', p', hE'⟩ := hF.nested.ended (hF.reach n hnl) he
        obtain ⟨as, ha⟩ := hE'.args
        obtain ⟨block, l', hb, hl', rfl⟩ := lay_end he ha h
        have hp' : p.length ≤ p'.length := by
          have ho := hE'.outer
          split at ho
          · obtain ⟨el, hel⟩ := ho
            rw [hns, hE.path] at hel
            have := congrArg List.length hel
            simp at this
            omega
          · rw [hns, hE.path] at ho
            have := congrArg List.length ho
            simp at this
            omega
        rcases List.mem_append.1 hy with hy | hy
        · rcases ih n b' p' block (hF.reach n hnl) hE' hb y hy u hu hd (by omega) with h | h
          · subst h
            exact absurd hnin' hnin
          · exact direct h
        · rcases List.mem_cons.1 hy with rfl | hy
          · exact direct hd
          · exact ihq l' y hy hd hl' hsub'
      · obtain ⟨l', hl', rfl⟩ := lay_other (by simpa using he) h
        rcases List.mem_cons.1 hy with rfl | hy
        · exact direct hd
        · exact ihq l' y hy hd hl' hsub'

/-- the code of a scope is needed for the end of it -/
theorem flat_below (hF : Final P roots queue log) : ∀ f e b p l, Reach P.nd roots e → Ended P e b p → flat P queue f (P.scope b) = .ok l →
    ∀ y ∈ l, Desc P.nd e y := by
  intro f
  induction f with
  | zero => intro e b p l _ _ h; simp [flat] at h
  | succ f ih =>
    intro e b p l hre hE h y hy
    unfold flat at h
    have hsub : ∀ n ∈ queue (P.scope b), n ∈ log ∧ P.scope n = P.scope b := fun n hn => hF.mem.1 hn
    revert h hsub y l
    generalize queue (P.scope b) = q
    induction q with
    | nil => intro l y hy h; simp [lay] at h; subst h; simp at hy
    | cons n q ihq =>
      intro l y hy h hsub
      obtain ⟨hnl, hns⟩ := hsub n (by simp)
      have hsub' : ∀ y ∈ q, y ∈ log ∧ P.scope y = P.scope b := fun y hy => hsub y (List.mem_cons_of_mem _ hy)
      have hn : Desc P.nd e n := hF.nested.below hE.path (hF.reach n hnl) (hF.needed n hnl)
        (by unfold Placed.In; rw [hns]; exact List.prefix_rfl)
      by_cases he : (P.nd n).op.isEnd = true
      · obtain ⟨b', p', hE'⟩ := hF.nested.ended (hF.reach n hnl) he
        obtain ⟨as, ha⟩ := hE'.args
        obtain ⟨block, l', hb, hl', rfl⟩ := lay_end he ha h
        rcases List.mem_append.1 hy with hy | hy
        · exact hn.trans (ih n b' p' block (hF.reach n hnl) hE' hb y hy)
        · rcases List.mem_cons.1 hy with rfl | hy
          · exact hn
          · exact ihq l' y hy hl' hsub'
      · obtain ⟨l', hl', rfl⟩ := lay_other (by simpa using he) h
        rcases List.mem_cons.1 hy with rfl | hy
        · exact hn
        · exact ihq l' y hy hl' hsub'

/-- the node at the beginning is the first of a queue -/
theorem Final.first (hF : Final P roots queue log) {c : Nat} (hc : c ≠ 0) {n : Nat} {q : List Nat} (h : queue c = n :: q) :
    (P.nd n).op.begins = true := by
  rw [hF.q] at h
  obtain ⟨l₁, l₂, hl, h1, h2⟩ := List.filter_eq_cons_iff.1 h
  have hs : P.scope n = c := by simpa using h2.1
  cases hb : (P.nd n).op.begins with
  | true => rfl
  | false =>
    obtain ⟨b, hb1, -, hb3⟩ := hF.heads l₁ n l₂ hl (by rw [hs]; exact hc) hb
    exact absurd (by simpa using hb3.trans hs) (h1 b hb1)

/-- a scope has one beginning -/
theorem Final.one (hF : Final P roots queue log) {x y : Nat} (hx : Reach P.nd roots x) (hy : Reach P.nd roots y)
    (hbx : (P.nd x).op.begins = true) (hby : (P.nd y).op.begins = true) (hs : P.scope x = P.scope y) : x = y := by
  obtain ⟨p, e, as, hp, ha⟩ := hF.nested.begins x hx hbx
  obtain ⟨p', e', as', hp', ha'⟩ := hF.nested.begins y hy hby
  rw [hs, hp'] at hp
  have := List.append_inj_right' hp rfl
  simp at this
  rw [this, ha] at ha'
  simp at ha'
  exact ha'.1

/-- after the first node of a queue no other scope begins -/
theorem Final.rest (hF : Final P roots queue log) {c : Nat} {n : Nat} {q : List Nat} (h : queue c = n :: q) {x : Nat} (hx : x ∈ q) :
    (P.nd x).op.begins = false := by
  cases hb : (P.nd x).op.begins with
  | false => rfl
  | true =>
    obtain ⟨hxl, hxs⟩ := hF.mem.1 (show x ∈ queue c by rw [h]; simp [hx])
    obtain ⟨hnl, hns⟩ := hF.mem.1 (show n ∈ queue c by rw [h]; simp)
    have hc : c ≠ 0 := by
      rintro rfl
      obtain ⟨p, e, as, hp, -⟩ := hF.nested.begins x (hF.reach x hxl) hb
      rw [hxs, hF.nested.top] at hp
      simp at hp
    have := hF.one (hF.reach x hxl) (hF.reach n hnl) hb (hF.first hc h) (hxs.trans hns.symm)
    subst this
    have hnd : (queue c).Nodup := by rw [hF.q]; exact hF.nodup.filter _
    rw [h, List.nodup_cons] at hnd
    exact absurd hx hnd.1

/-- nothing in the code is needed by what comes before it -/
theorem flat_order (hF : Final P roots queue log) : ∀ f c l, flat P queue f c = .ok l → l.Pairwise fun x y => ¬ Desc P.nd x y := by
  intro f
  induction f with
  | zero => intro c l h; simp [flat] at h
  | succ f ih =>
    intro c l h
    unfold flat at h
    have hpw : (queue c).Pairwise fun x y => ¬ Desc P.nd x y := by rw [hF.q]; exact hF.post.filter _
    have hnd : (queue c).Nodup := by rw [hF.q]; exact hF.nodup.filter _
    have hsub : ∀ n ∈ queue c, n ∈ log ∧ P.scope n = c := fun n hn => hF.mem.1 hn
    have hrest : ∀ n q₂ q₁, queue c = q₁ ++ n :: q₂ → ∀ x ∈ q₂, (P.nd x).op.begins = false := by
      intro n q₂ q₁ hq x hx
      cases q₁ with
      | nil => exact hF.rest hq hx
      | cons m q₁ => exact hF.rest (n := m) (q := q₁ ++ n :: q₂) (by simpa using hq) (by simp [hx])
    -- code of a part of the queue after a node is not needed by it
    have after : ∀ q l, lay P (flat P queue f) q = .ok l → (∀ x ∈ q, x ∈ log ∧ P.scope x = c) → (∀ x ∈ q, (P.nd x).op.begins = false) →
        ∀ n, n ∈ log → P.scope n = c → (∀ x ∈ q, n ≠ x ∧ ¬ Desc P.nd n x) → ∀ y ∈ l, ¬ Desc P.nd n y := by
      intro q
      induction q with
      | nil => intro l h _ _ n _ _ _ y hy; simp [lay] at h; subst h; simp at hy
      | cons m q ihq =>
        intro l h hsub hbg n hn hns hnot y hy hd
        obtain ⟨hml, hms⟩ := hsub m (by simp)
        have hsub' : ∀ y ∈ q, y ∈ log ∧ P.scope y = c := fun y hy => hsub y (List.mem_cons_of_mem _ hy)
        have hbg' : ∀ y ∈ q, (P.nd y).op.begins = false := fun y hy => hbg y (List.mem_cons_of_mem _ hy)
        have hnot' : ∀ x ∈ q, n ≠ x ∧ ¬ Desc P.nd n x := fun y hy => hnot y (List.mem_cons_of_mem _ hy)
        by_cases he : (P.nd m).op.isEnd = true
        · obtain ⟨b', p', hE'⟩ := hF.nested.ended (hF.reach m hml) he
          obtain ⟨as, ha⟩ := hE'.args
          obtain ⟨block, l', hb, hl', rfl⟩ := lay_end he ha h
          rcases List.mem_append.1 hy with hy | hy
          · have ho := hE'.outer
            rw [hbg m (by simp)] at ho
            simp only [Bool.false_eq_true, if_false] at ho
            rcases flat_through hF f m b' p' block (hF.reach m hml) hE' hb y hy n (hF.reach n hn) hd
              (by rw [hns, ← hms, ho]; exact Nat.le_refl _) with h | h
            · exact (hnot m (by simp)).1 h
            · exact (hnot m (by simp)).2 h
          · rcases List.mem_cons.1 hy with rfl | hy
            · exact (hnot y (by simp)).2 hd
            · exact ihq l' hl' hsub' hbg' n hn hns hnot' y hy hd
        · obtain ⟨l', hl', rfl⟩ := lay_other (by simpa using he) h
          rcases List.mem_cons.1 hy with rfl | hy
          · exact (hnot y (by simp)).2 hd
          · exact ihq l' hl' hsub' hbg' n hn hns hnot' y hy hd
    have main : ∀ q q₁ l, queue c = q₁ ++ q → lay P (flat P queue f) q = .ok l → l.Pairwise fun x y => ¬ Desc P.nd x y := by
      intro q
      induction q with
      | nil => intro q₁ l _ h; simp [lay] at h; subst h; exact List.Pairwise.nil
      | cons n q ihq =>
        intro q₁ l hq h
        obtain ⟨hnl, hns⟩ := hsub n (by rw [hq]; simp)
        have hsub' : ∀ x ∈ q, x ∈ log ∧ P.scope x = c := fun x hx => hsub x (by rw [hq]; simp [hx])
        have hnot : ∀ x ∈ q, n ≠ x ∧ ¬ Desc P.nd n x := by
          intro x hx
          refine ⟨?_, ?_⟩
          · rw [hq, List.nodup_append] at hnd
            have := (List.nodup_cons.1 hnd.2.1).1
            rintro rfl; exact this hx
          · rw [hq, List.pairwise_append] at hpw
            exact (List.pairwise_cons.1 hpw.2.1).1 x hx
        have haft : ∀ l', lay P (flat P queue f) q = .ok l' → ∀ y ∈ l', ¬ Desc P.nd n y := fun l' hl' =>
          after q l' hl' hsub' (hrest n q q₁ hq) n hnl hns hnot
        by_cases he : (P.nd n).op.isEnd = true
        · obtain ⟨b', p', hE'⟩ := hF.nested.ended (hF.reach n hnl) he
          obtain ⟨as, ha⟩ := hE'.args
          obtain ⟨block, l', hb, hl', rfl⟩ := lay_end he ha h
          have hbel := flat_below hF f n b' p' block (hF.reach n hnl) hE' hb
          rw [List.pairwise_append, List.pairwise_cons]
          refine ⟨ih _ _ hb, ⟨haft l' hl', ihq (q₁ ++ [n]) l' (by rw [hq]; simp) hl'⟩, ?_⟩
          intro x hx y hy hd
          have hnx := hbel x hx
          rcases List.mem_cons.1 hy with rfl | hy
          · exact hF.nested.irrefl (hF.reach y hnl) (hnx.trans hd)
          · exact haft l' hl' y hy (hnx.trans hd)
        · obtain ⟨l', hl', rfl⟩ := lay_other (by simpa using he) h
          rw [List.pairwise_cons]
          exact ⟨haft l' hl', ihq (q₁ ++ [n]) l' (by rw [hq]; simp) hl'⟩
    exact main (queue c) [] l rfl h

/-! ### blocks -/

/-- the code of a scope comes right before its end -/
theorem lay_block (hF : Final P roots queue log) {go : Nat → Except Err (List Nat)} {e b : Nat} {p : List (Nat × Nat)} (hE : Ended P e b p)
    (he : (P.nd e).op.isEnd = true)
    (hgo : ∀ c l, go c = .ok l → e ∈ l → ∃ f l₁ block l₂, flat P queue f (P.scope b) = .ok block ∧ l = l₁ ++ block ++ e :: l₂)
    (hblk : ∀ l, go (P.scope b) = .ok l → ∃ f, flat P queue f (P.scope b) = .ok l) :
    ∀ q l, lay P go q = .ok l → (∀ n ∈ q, n ∈ log) → e ∈ l →
      ∃ f l₁ block l₂, flat P queue f (P.scope b) = .ok block ∧ l = l₁ ++ block ++ e :: l₂ := by
  intro q
  induction q with
  | nil => intro l h _ hm; simp [lay] at h; subst h; simp at hm
  | cons n q ihq =>
    intro l h hsub hm
    have hnl := hsub n (by simp)
    have hsub' : ∀ y ∈ q, y ∈ log := fun y hy => hsub y (List.mem_cons_of_mem _ hy)
    by_cases hne : (P.nd n).op.isEnd = true
    · obtain ⟨b', p', hE'⟩ := hF.nested.ended (hF.reach n hnl) hne
      obtain ⟨as, ha⟩ := hE'.args
      obtain ⟨block, l', hb, hl', rfl⟩ := lay_end hne ha h
      rcases List.mem_append.1 hm with hm | hm
      · obtain ⟨f, l₁, bl, l₂, h1, h2⟩ := hgo _ _ hb hm
        exact ⟨f, l₁, bl, l₂ ++ n :: l', h1, by rw [h2]; simp⟩
      · rcases List.mem_cons.1 hm with rfl | hm
        · have := hE.same_begin hE'
          subst this
          obtain ⟨f, hf⟩ := hblk _ hb
          exact ⟨f, [], block, l', hf, by simp⟩
        · obtain ⟨f, l₁, bl, l₂, h1, h2⟩ := ihq l' hl' hsub' hm
          exact ⟨f, block ++ n :: l₁, bl, l₂, h1, by rw [h2]; simp⟩
    · obtain ⟨l', hl', rfl⟩ := lay_other (by simpa using hne) h
      rcases List.mem_cons.1 hm with rfl | hm
      · exact absurd he hne
      · obtain ⟨f, l₁, bl, l₂, h1, h2⟩ := ihq l' hl' hsub' hm
        exact ⟨f, n :: l₁, bl, l₂, h1, by rw [h2]; simp⟩

theorem flat_block (hF : Final P roots queue log) {e b : Nat} {p : List (Nat × Nat)} (hE : Ended P e b p)
    (he : (P.nd e).op.isEnd = true) : ∀ f c l, flat P queue f c = .ok l → e ∈ l →
      ∃ f l₁ block l₂, flat P queue f (P.scope b) = .ok block ∧ l = l₁ ++ block ++ e :: l₂ := by
  intro f
  induction f with
  | zero => intro c l h; simp [flat] at h
  | succ f ih =>
    intro c l h hm
    exact lay_block hF hE he ih (fun l hl => ⟨f, hl⟩) (queue c) l h (fun n hn => (hF.mem.1 hn).1) hm

/-- the code of a scope is in the scopes around -/
theorem flat_around (hF : Final P roots queue log) : ∀ f e b p l, Reach P.nd roots e → Ended P e b p → flat P queue f (P.scope b) = .ok l →
    ∀ y ∈ l, p <+: P.path (P.scope y) := by
  intro f
  induction f with
  | zero => intro e b p l _ _ h; simp [flat] at h
  | succ f ih =>
    intro e b p l hre hE h y hy
    unfold flat at h
    have hsub : ∀ n ∈ queue (P.scope b), n ∈ log ∧ P.scope n = P.scope b := fun n hn => hF.mem.1 hn
    revert h hsub y l
    generalize queue (P.scope b) = q
    induction q with
    | nil => intro l y hy h; simp [lay] at h; subst h; simp at hy
    | cons n q ihq =>
      intro l y hy h hsub
      obtain ⟨hnl, hns⟩ := hsub n (by simp)
      have hsub' : ∀ y ∈ q, y ∈ log ∧ P.scope y = P.scope b := fun y hy => hsub y (List.mem_cons_of_mem _ hy)
      have hn : p <+: P.path (P.scope n) := by rw [hns, hE.path]; exact List.prefix_append _ _
      by_cases he : (P.nd n).op.isEnd = true
      · obtain ⟨b', p', hE'⟩ := hF.nested.ended (hF.reach n hnl) he
        obtain ⟨as, ha⟩ := hE'.args
        obtain ⟨block, l', hb, hl', rfl⟩ := lay_end he ha h
        rcases List.mem_append.1 hy with hy | hy
        · have := ih n b' p' block (hF.reach n hnl) hE' hb y hy
          refine List.IsPrefix.trans ?_ this
          have ho := hE'.outer
          split at ho
          · obtain ⟨el, hel⟩ := ho
            rw [hns, hE.path] at hel
            rw [List.append_inj_left' hel rfl]
            exact List.prefix_rfl
          · rw [← ho, hns, hE.path]; exact List.prefix_append _ _
        · rcases List.mem_cons.1 hy with rfl | hy
          · exact hn
          · exact ihq l' y hy hl' hsub'
      · obtain ⟨l', hl', rfl⟩ := lay_other (by simpa using he) h
        rcases List.mem_cons.1 hy with rfl | hy
        · exact hn
        · exact ihq l' y hy hl' hsub'

/-- the code after the beginning of a scope is in the scope -/
theorem lay_inside (hF : Final P roots queue log) {f c : Nat} : ∀ q l, lay P (flat P queue f) q = .ok l → (∀ x ∈ q, x ∈ log ∧ P.scope x = c) →
    (∀ x ∈ q, (P.nd x).op.begins = false) → ∀ y ∈ l, P.In c y := by
  intro q
  induction q with
  | nil => intro l h _ _ y hy; simp [lay] at h; subst h; simp at hy
  | cons n q ihq =>
    intro l h hsub hbg y hy
    obtain ⟨hnl, hns⟩ := hsub n (by simp)
    have hsub' : ∀ y ∈ q, y ∈ log ∧ P.scope y = c := fun y hy => hsub y (List.mem_cons_of_mem _ hy)
    have hbg' : ∀ y ∈ q, (P.nd y).op.begins = false := fun y hy => hbg y (List.mem_cons_of_mem _ hy)
    have hn : P.In c n := by unfold Placed.In; rw [hns]; exact List.prefix_rfl
    by_cases he : (P.nd n).op.isEnd = true
    · obtain ⟨b', p', hE'⟩ := hF.nested.ended (hF.reach n hnl) he
      obtain ⟨as, ha⟩ := hE'.args
      obtain ⟨block, l', hb, hl', rfl⟩ := lay_end he ha h
      rcases List.mem_append.1 hy with hy | hy
      · have := flat_around hF f n b' p' block (hF.reach n hnl) hE' hb y hy
        have ho := hE'.outer
        rw [hbg n (by simp)] at ho
        simp only [Bool.false_eq_true, if_false] at ho
        rw [← ho, hns] at this
        exact this
      · rcases List.mem_cons.1 hy with rfl | hy
        · exact hn
        · exact ihq l' hl' hsub' hbg' y hy
    · obtain ⟨l', hl', rfl⟩ := lay_other (by simpa using he) h
      rcases List.mem_cons.1 hy with rfl | hy
      · exact hn
      · exact ihq l' hl' hsub' hbg' y hy

theorem lay_mem {go : Nat → Except Err (List Nat)} : ∀ q l, lay P go q = .ok l → ∀ x ∈ q, x ∈ l := by
  intro q
  induction q with
  | nil => intro l _ x hx; cases hx
  | cons n q ihq =>
    intro l h x hx
    by_cases he : (P.nd n).op.isEnd = true
    · cases ha : (P.nd n).args with
      | nil => unfold lay at h; rw [if_pos he, ha] at h; simp at h
      | cons b as =>
        obtain ⟨block, l', hb, hl', rfl⟩ := lay_end he ha h
        rcases List.mem_cons.1 hx with rfl | hx
        · simp
        · simp [ihq l' hl' x hx]
    · obtain ⟨l', hl', rfl⟩ := lay_other (by simpa using he) h
      rcases List.mem_cons.1 hx with rfl | hx
      · simp
      · simp [ihq l' hl' x hx]

/-- all code of a scope is after its beginning and before its end -/
theorem block_right (hF : Final P roots queue log) {f : Nat} {l : List Nat} (h : flat P queue f 0 = .ok l) {e b : Nat}
    {p : List (Nat × Nat)} (hre : Reach P.nd roots e) (he : (P.nd e).op.isEnd = true) (hE : Ended P e b p) :
    ∃ l₁ code l₂, l = l₁ ++ b :: code ++ e :: l₂ ∧ ∀ x, x ∈ code ↔ x ∈ l ∧ x ≠ b ∧ P.In (P.scope b) x := by
  obtain ⟨R, hR⟩ := hF.nested.acyclic
  have hperm := flat_perm hF h
  have hnd : l.Nodup := hperm.nodup_iff.2 hF.nodup
  have hrb : Reach P.nd roots b := by obtain ⟨as, ha⟩ := hE.args; exact .arg hre (by rw [ha]; simp)
  have hbl : b ∈ log := hF.all b hrb (by simp [printed, hE.begins])
  have hel : e ∈ l := hperm.mem_iff.2 (hF.all e hre (by simp [printed, he]))
  obtain ⟨g, l₁, block, l₂, hg, rfl⟩ := flat_block hF hE he f 0 l h hel
  cases g with
  | zero => simp [flat] at hg
  | succ g =>
    unfold flat at hg
    have hbq : b ∈ queue (P.scope b) := hF.mem.2 ⟨hbl, rfl⟩
    obtain ⟨n, q, hq⟩ : ∃ n q, queue (P.scope b) = n :: q := by
      cases hc : queue (P.scope b) with
      | nil => rw [hc] at hbq; cases hbq
      | cons n q => exact ⟨n, q, rfl⟩
    have hnb : n = b := by
      obtain ⟨hnl, hns⟩ := hF.mem.1 (show n ∈ queue (P.scope b) by rw [hq]; simp)
      exact hF.one (hF.reach n hnl) hrb (hF.first hE.ne hq) hE.begins hns
    subst hnb
    rw [hq] at hg
    have hsub : ∀ x ∈ q, x ∈ log ∧ P.scope x = P.scope n := fun x hx => hF.mem.1 (by rw [hq]; simp [hx])
    -- the beginning, perhaps with the branch before it
    obtain ⟨pre, code, hcode, hblk⟩ : ∃ pre code, lay P (flat P queue g) q = .ok code ∧ block = pre ++ n :: code := by
      by_cases hne : (P.nd n).op.isEnd = true
      · obtain ⟨b', p', hE'⟩ := hF.nested.ended hrb hne
        obtain ⟨as, ha⟩ := hE'.args
        obtain ⟨pre, code, -, hc, hh⟩ := lay_end hne ha hg
        exact ⟨pre, code, hc, hh⟩
      · obtain ⟨code, hc, hh⟩ := lay_other (by simpa using hne) hg
        exact ⟨[], code, hc, by simpa using hh⟩
    subst hblk
    refine ⟨l₁ ++ pre, code, l₂, by simp, ?_⟩
    have hin := lay_inside hF q code hcode hsub (fun x hx => hF.rest hq hx)
    intro x
    constructor
    · intro hx
      refine ⟨by simp [hx], ?_, hin x hx⟩
      rintro rfl
      have : (l₁ ++ (pre ++ x :: code) ++ e :: l₂) = (l₁ ++ pre) ++ x :: (code ++ e :: l₂) := by simp
      rw [this, List.nodup_append] at hnd
      have := (List.nodup_cons.1 hnd.2.1).1
      exact this (by simp [hx])
    · rintro ⟨hxl, hxb, hxin⟩
      have hxlog := hperm.mem_iff.1 hxl
      -- from the end of the scope inwards
      have main : ∀ d y, y ∈ log → y ≠ n → P.In (P.scope n) y → R e - R y ≤ d → y ∈ code := by
        intro d
        induction d with
        | zero =>
          intro y hy _ hyin hd
          have := (hF.nested.below hE.path (hF.reach y hy) (hF.needed y hy) hyin).rank hR hre
          omega
        | succ d ih =>
          intro y hy hyn hyin hd
          by_cases hs : P.scope y = P.scope n
          · have : y ∈ queue (P.scope n) := hF.mem.2 ⟨hy, hs⟩
            rw [hq] at this
            rcases List.mem_cons.1 this with h | h
            · exact absurd h hyn
            · exact lay_mem q code hcode y h
          · have hs0 : P.scope y ≠ 0 := by
              intro h0
              unfold Placed.In at hyin
              rw [h0, hF.nested.top, hE.path] at hyin
              have := hyin.length_le
              simp at this
            obtain ⟨e', b', p', hre', hee', hE', hsb'⟩ := hF.nested.endOf (hF.reach y hy) (hF.needed y hy) hs0
            have hel' := hF.all e' hre' (by simp [printed, hee'])
            have hyin' : P.In (P.scope b') y := by unfold Placed.In; rw [hsb']; exact List.prefix_rfl
            have hrk := (hF.nested.below hE'.path (hF.reach y hy) (hF.needed y hy) hyin').rank hR hre'
            -- the scope around `e'` is in the scope as well
            have hpre : P.path (P.scope n) <+: p' := by
              unfold Placed.In at hyin
              rw [← hsb', hE'.path] at hyin
              rcases prefix_snoc hyin with h | h
              · exfalso
                rw [hE.path] at h
                have := List.append_inj_right' h rfl
                simp at this
                exact hs (hsb'.symm.trans this.1.symm)
              · exact h
            have he'in : P.In (P.scope n) e' := by
              unfold Placed.In
              have ho := hE'.outer
              split at ho
              · obtain ⟨el, hel⟩ := ho
                rw [hel]; exact hpre.trans (List.prefix_append _ _)
              · rw [ho]; exact hpre
            have he'n : e' ≠ n := by
              rintro rfl
              have ho := hE'.outer
              rw [if_pos hE.begins] at ho
              obtain ⟨el, hel⟩ := ho
              rw [hel] at hpre
              have := hpre.length_le
              rw [List.length_append, List.length_singleton] at this
              omega
            have hlt := (hF.nested.below hE.path (hF.reach e' hel') (hF.needed e' hel') he'in).rank hR hre
            have he'code : e' ∈ code := ih e' hel' he'n he'in (by omega)
            obtain ⟨f', m₁, bl, m₂, hf', hcode'⟩ := lay_block hF hE' hee' (flat_block hF hE' hee' g) (fun l hl => ⟨g, hl⟩) q code hcode
              (fun x hx => (hsub x hx).1) he'code
            have : y ∈ bl := by
              cases f' with
              | zero => simp [flat] at hf'
              | succ f' =>
                unfold flat at hf'
                exact lay_mem _ _ hf' y (hF.mem.2 ⟨hy, hsb'.symm⟩)
            rw [hcode']
            simp [this]
      exact main _ x hxlog hxb hxin (Nat.le_refl _)

end

end Verif.Scopes.Order
