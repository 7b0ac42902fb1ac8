import Verif.Scopes.SpecOrder
import Verif.Scopes.ModelOrder

/-
Lemmas about the queues of the scopes: what is in them and when.
-/
namespace Verif.Scopes.Order

open Verif.Scopes

theorem Desc.trans {nd : Nat → Node} {x y z : Nat} (h : Desc nd x y) (h' : Desc nd y z) : Desc nd x z := by
  induction h with
  | arg ha => exact .step ha h'
  | step ha _ ih => exact .step ha (ih h')

theorem Desc.reach {nd : Nat → Node} {roots : List Nat} {x y : Nat} (h : Desc nd x y) (hx : Reach nd roots x) : Reach nd roots y := by
  induction h with
  | arg ha => exact .arg hx ha
  | step ha _ ih => exact ih (.arg hx ha)

theorem Desc.rank {nd : Nat → Node} {roots : List Nat} {R : Nat → Nat} (hR : ∀ u, Reach nd roots u → ∀ a ∈ (nd u).args, R a < R u)
    {x y : Nat} (h : Desc nd x y) (hx : Reach nd roots x) : R y < R x := by
  induction h with
  | arg ha => exact hR _ hx _ ha
  | step ha _ ih => exact Nat.lt_trans (ih (.arg hx ha)) (hR _ hx _ ha)

theorem Nested.irrefl {P : Placed} {roots : List Nat} (hN : Nested P roots) {x : Nat} (hx : Reach P.nd roots x) : ¬ Desc P.nd x x := by
  intro h
  obtain ⟨R, hR⟩ := hN.acyclic
  exact Nat.lt_irrefl _ (h.rank hR hx)

/-- operations which begin a scope need the code in it -/
theorem needed_of_begins {o : Op} (h : o.begins = true) : o.needed = true := by cases o <;> simp_all [Op.begins, Op.needed]
theorem needed_of_isEnd {o : Op} (h : o.isEnd = true) : o.needed = true := by cases o <;> simp_all [Op.isEnd, Op.ends, Op.needed]

theorem prefix_snoc {α : Type} {l p : List α} {a : α} (h : l <+: p ++ [a]) : l = p ++ [a] ∨ l <+: p := by
  obtain ⟨t, ht⟩ := h
  rcases List.eq_nil_or_concat t with rfl | ⟨t', x, rfl⟩
  · left; simpa using ht
  · right
    have : (l ++ t') ++ [x] = p ++ [a] := by simpa using ht
    have := List.append_inj_left' this rfl
    exact ⟨t', this⟩

/-- A value in the scope `S` which is needed for `u` outside of this scope is needed for the end of the scope, and this for `u`. -/
theorem Nested.enter {P : Placed} {roots : List Nat} (hN : Nested P roots) {S e : Nat} {p : List (Nat × Nat)}
    (hS : P.path S = p ++ [(S, e)]) {u y : Nat} (h : Desc P.nd u y) : Reach P.nd roots u → (P.nd y).op.needed = true → P.In S y →
      P.In S u ∨ (Desc P.nd e y ∧ (u = e ∨ Desc P.nd u e)) := by
  have edge : ∀ u a, Reach P.nd roots u → a ∈ (P.nd u).args → (P.nd a).op.needed = true → P.In S a → P.In S u ∨ u = e := by
    intro u a hu ha hn hin
    have hpre := List.IsPrefix.trans hin (hN.inside u hu a ha hn)
    unfold Placed.around at hpre
    by_cases he : (P.nd u).op.isEnd = true
    · simp only [he, if_true] at hpre
      obtain ⟨p', b, as, hargs, -, hpb, hpu⟩ := hN.ends u hu he
      rw [hargs] at hpre
      simp only at hpre
      rw [hpb] at hpre
      rcases prefix_snoc hpre with heq | hlt
      · right
        rw [hS] at heq
        have := List.append_inj_right' heq rfl
        simp at this
        exact this.2.symm
      · left
        by_cases hbg : (P.nd u).op.begins = true
        · rw [if_pos hbg] at hpu
          obtain ⟨el, hel⟩ := hpu
          unfold Placed.In
          rw [hel]
          exact hlt.trans (List.prefix_append _ _)
        · rw [if_neg hbg] at hpu
          unfold Placed.In
          rw [hpu]
          exact hlt
    · simp only [he] at hpre
      left
      by_cases hbg : (P.nd u).op.begins = true
      · simp only [hbg, if_true] at hpre
        exact hpre.trans (List.dropLast_prefix _)
      · simp only [hbg] at hpre
        unfold Placed.In
        simpa using hpre
  induction h with
  | @arg u a ha =>
    intro hu hn hin
    rcases edge u a hu ha hn hin with h | h
    · exact .inl h
    · exact .inr ⟨h ▸ .arg ha, .inl h⟩
  | @step u a y ha hd ih =>
    intro hu hn hin
    have hra : Reach P.nd roots a := .arg hu ha
    have hna : (P.nd a).op.needed = true := by
      cases hq : (P.nd a).op.needed with
      | true => rfl
      | false =>
        have := hN.leaf a hra hq
        cases hd with
        | arg h => rw [this] at h; cases h
        | step h _ => rw [this] at h; cases h
    rcases ih hra hn hin with h | ⟨hey, h | h⟩
    · rcases edge u a hu ha hna h with h | h
      · exact .inl h
      · exact .inr ⟨h ▸ .step ha hd, .inl h⟩
    · exact .inr ⟨hey, .inr (h ▸ .arg ha)⟩
    · exact .inr ⟨hey, .inr (.step ha h)⟩

/-- the scopes which are open when a node is visited -/
def outside (P : Placed) (u : Nat) : List (Nat × Nat) :=
  if (P.nd u).op.begins then (P.path (P.scope u)).dropLast else P.path (P.scope u)

/-- the first nodes of these scopes are visited before -/
def Ready (P : Placed) (st : OSt) (l : List (Nat × Nat)) : Prop := ∀ el ∈ l, ∀ b as, (P.nd el.2).args = b :: as → st.visited b = true

structure Inv (P : Placed) (creates : OSt → Nat → Nat → Bool) (roots : List Nat) (st : OSt) (log : List Nat) : Prop where
  q : ∀ c, st.queue c = log.filter fun x => P.scope x = c
  pushed : st.pushed = log.length
  nodup : log.Nodup
  logv : ∀ x ∈ log, st.visited x = true
  needed : ∀ x ∈ log, (P.nd x).op.needed = true
  closed : ∀ x, st.visited x = true → ∀ a ∈ (P.nd x).args, st.visited a = true
  reach : ∀ x, st.visited x = true → Reach P.nd roots x
  post : log.Pairwise fun x y => ¬ Desc P.nd x y
  must : ∀ x, st.visited x = true → (∀ s p, queued P creates s p x = true) → x ∈ log
  heads : ∀ l₁ x l₂, log = l₁ ++ x :: l₂ → P.scope x ≠ 0 → (P.nd x).op.begins = false →
    ∃ b ∈ l₁, (P.nd b).op.begins = true ∧ P.scope b = P.scope x

/-- nothing is taken back -/
structure Grows (st st' : OSt) (log log' : List Nat) : Prop where
  visited : ∀ x, st.visited x = true → st'.visited x = true
  log : log <+: log'

theorem Grows.rfl' {st : OSt} {log : List Nat} : Grows st st log log := ⟨fun _ h => h, List.prefix_rfl⟩

theorem Grows.trans {s1 s2 s3 : OSt} {l1 l2 l3 : List Nat} (h : Grows s1 s2 l1 l2) (h' : Grows s2 s3 l2 l3) : Grows s1 s3 l1 l3 :=
  ⟨fun x hx => h'.visited x (h.visited x hx), h.log.trans h'.log⟩

theorem Inv.desc {P : Placed} {creates : OSt → Nat → Nat → Bool} {roots : List Nat} {st : OSt} {log : List Nat} (h : Inv P creates roots st log) {x y : Nat} (hd : Desc P.nd x y) :
    st.visited x = true → st.visited y = true := by
  induction hd with
  | arg ha => intro hx; exact h.closed _ hx _ ha
  | step ha _ ih => intro hx; exact ih (h.closed _ hx _ ha)

theorem set1_self {α : Type} (f : Nat → α) (k : Nat) (v : α) : set1 f k v k = v := by simp [set1]
theorem set1_ne {α : Type} (f : Nat → α) {k i : Nat} (v : α) (h : i ≠ k) : set1 f k v i = f i := by simp [set1, h]

/-- a node which is not printed is visited -/
theorem Inv.mark {P : Placed} {creates : OSt → Nat → Nat → Bool} {roots : List Nat} {st : OSt} {log : List Nat} (h : Inv P creates roots st log) {a : Nat}
    (hr : Reach P.nd roots a) (hargs : ∀ x ∈ (P.nd a).args, st.visited x = true) (hp : st.visited a = true ∨ ∃ s p, queued P creates s p a = false) :
    Inv P creates roots (Order.mark a st) log := by
  refine ⟨h.q, h.pushed, h.nodup, ?_, h.needed, ?_, ?_, h.post, ?_, h.heads⟩
  · intro x hx
    show set1 _ _ _ _ = _
    unfold set1; split
    · rfl
    · exact h.logv x hx
  · intro x hx y hy
    show set1 _ _ _ _ = _
    unfold set1; split
    · rfl
    · by_cases hxa : x = a
      · subst hxa; exact hargs y hy
      · exact h.closed x (by simpa [Order.mark, set1, hxa] using hx) y hy
  · intro x hx
    by_cases hxa : x = a
    · subst hxa; exact hr
    · exact h.reach x (by simpa [Order.mark, set1, hxa] using hx)
  · intro x hx hpx
    by_cases hxa : x = a
    · subst hxa
      rcases hp with hp | hp
      · exact h.must x hp hpx
      · obtain ⟨s, p, hp⟩ := hp
        rw [hpx s p] at hp; cases hp
    · exact h.must x (by simpa [Order.mark, set1, hxa] using hx) hpx

/-- a node is added to the queue of its scope -/
theorem Inv.enqueue {P : Placed} {creates : OSt → Nat → Nat → Bool} {roots : List Nat} {st : OSt} {log : List Nat} (hN : Nested P roots) (h : Inv P creates roots st log) {a : Nat}
    (hr : Reach P.nd roots a) (hargs : ∀ x ∈ (P.nd a).args, st.visited x = true) (hv : st.visited a = false)
    (hn : (P.nd a).op.needed = true)
    (hh : P.scope a ≠ 0 → (P.nd a).op.begins = false → ∃ b ∈ log, (P.nd b).op.begins = true ∧ P.scope b = P.scope a) :
    Inv P creates roots (Order.mark a (Order.enqueue P a st)) (log ++ [a]) := by
  have hal : a ∉ log := fun hm => by have := h.logv a hm; rw [hv] at this; cases this
  have hvis : ∀ x, (Order.mark a (Order.enqueue P a st)).visited x = true ↔ x = a ∨ st.visited x = true := by
    intro x
    show set1 _ _ _ _ = _ ↔ _
    unfold set1
    by_cases hx : x = a <;> simp [hx, Order.enqueue]
  refine ⟨?_, ?_, ?_, ?_, ?_, ?_, ?_, ?_, ?_, ?_⟩
  · intro c
    show set1 _ _ _ _ = _
    by_cases hc : c = P.scope a
    · subst hc
      rw [set1_self, h.q, List.filter_append]
      simp
    · rw [set1_ne _ _ hc, h.q, List.filter_append]
      have : ¬ P.scope a = c := fun h => hc h.symm
      simp [this]
  · show st.pushed + 1 = _
    rw [h.pushed]; simp
  · rw [List.nodup_append]
    refine ⟨h.nodup, by simp, ?_⟩
    intro x hx y hy
    simp at hy; subst hy
    exact fun hxy => hal (hxy ▸ hx)
  · intro x hx
    rw [hvis]
    rcases List.mem_append.1 hx with hx | hx
    · exact .inr (h.logv x hx)
    · exact .inl (by simpa using hx)
  · intro x hx
    rcases List.mem_append.1 hx with hx | hx
    · exact h.needed x hx
    · have hxa : x = a := by simpa using hx
      rw [hxa]; exact hn
  · intro x hx y hy
    rw [hvis] at hx ⊢
    rcases hx with rfl | hx
    · exact .inr (hargs y hy)
    · exact .inr (h.closed x hx y hy)
  · intro x hx
    rw [hvis] at hx
    rcases hx with rfl | hx
    · exact hr
    · exact h.reach x hx
  · rw [List.pairwise_append]
    refine ⟨h.post, by simp, ?_⟩
    intro x hx y hy hd
    have hya : y = a := by simpa using hy
    subst hya
    have := h.desc hd (h.logv x hx)
    rw [hv] at this; cases this
  · intro x hx hpx
    rw [hvis] at hx
    rcases hx with rfl | hx
    · simp
    · exact List.mem_append_left _ (h.must x hx hpx)
  · intro l₁ x l₂ heq hs hb
    rcases List.eq_nil_or_concat l₂ with rfl | ⟨l', z, rfl⟩
    · have := List.append_inj' heq rfl
      have hxa : a = x := by simpa using this.2
      subst hxa
      rw [← this.1]
      exact hh hs hb
    · have heq' : log ++ [a] = (l₁ ++ x :: l') ++ [z] := by rw [heq]; simp
      have := (List.append_inj' heq' rfl).1
      exact h.heads l₁ x l' this hs hb

theorem queued_printed {P : Placed} {creates : OSt → Nat → Nat → Bool} {x : Nat} (h : printed (P.nd x).op = true) (s : OSt) (p : Nat) :
    queued P creates s p x = true := by
  unfold queued
  cases hop : (P.nd x).op <;> rw [hop] at h <;> simp_all [printed, Op.begins, Op.isEnd, Op.ends]

/-- scopes which are open have their first node in the queue -/
theorem Inv.head_of_ready {P : Placed} {creates : OSt → Nat → Nat → Bool} {roots : List Nat} {st : OSt} {log : List Nat} (hN : Nested P roots) (h : Inv P creates roots st log)
    {a : Nat} (hr : Reach P.nd roots a) (hn : (P.nd a).op.needed = true) (hb : (P.nd a).op.begins = false) (hs : P.scope a ≠ 0)
    (hrd : Ready P st (outside P a)) : ∃ b ∈ log, (P.nd b).op.begins = true ∧ P.scope b = P.scope a := by
  obtain ⟨p, e, hp⟩ := hN.last a hr hn hs
  have ho := hN.outer a hr hn p (P.scope a, e) [] hp
  obtain ⟨-, -, hre, hee, b, as, hargs, hsb⟩ := ho
  obtain ⟨p', b', as', hargs', hbb, -⟩ := hN.ends e hre hee
  have hbeq : b = b' := by
    have := hargs.symm.trans hargs'
    simp at this; exact this.1
  subst hbeq
  have hv := hrd (P.scope a, e) (by simp [outside, hb, hp]) b as hargs
  exact ⟨b, h.must b hv (queued_printed (by simp [printed, hbb])), hbb, hsb⟩

/-- a node whose arguments are visited is added -/
theorem add_right {P : Placed} {creates : OSt → Nat → Nat → Bool} {roots : List Nat} {st : OSt} {log : List Nat} (hN : Nested P roots) (h : Inv P creates roots st log) {a : Nat}
    (go : Nat → Nat → OSt → Except Err OSt)
    (hr : Reach P.nd roots a) (hargs : ∀ x ∈ (P.nd a).args, st.visited x = true) (hv : st.visited a = false)
    (hn : (P.nd a).op.needed = true) (hrd : Ready P st (outside P a)) :
    add P go a st = .ok (Order.enqueue P a st) ∧ Inv P creates roots (Order.mark a (Order.enqueue P a st)) (log ++ [a]) := by
  have hh : P.scope a ≠ 0 → (P.nd a).op.begins = false → ∃ b ∈ log, (P.nd b).op.begins = true ∧ P.scope b = P.scope a :=
    fun hs hb => h.head_of_ready hN hr hn hb hs hrd
  refine ⟨?_, h.enqueue hN hr hargs hv hn hh⟩
  unfold add
  split
  · rename_i hc
    cases hb : (P.nd a).op.begins with
    | true =>
      obtain ⟨p, e, as, hp, hargs'⟩ := hN.begins a hr hb
      simp only [hp, List.getLast?_append, List.getLast?_singleton, Option.some_or, hargs', if_true]
    | false =>
      obtain ⟨b, hbl, -, hbs⟩ := hh hc.2 hb
      have : b ∈ st.queue (P.scope a) := by rw [h.q]; simp [hbl, hbs]
      rw [hc.1] at this; cases this
  · rfl

theorem Ready.mono {P : Placed} {st st' : OSt} {l : List (Nat × Nat)} (h : Ready P st l) (hg : ∀ x, st.visited x = true → st'.visited x = true) :
    Ready P st' l := fun el hel b as ha => hg b (h el hel b as ha)

theorem Ready.sub {P : Placed} {st : OSt} {l l' : List (Nat × Nat)} (h : Ready P st l) (hs : l' <+: l) : Ready P st l' :=
  fun el hel b as ha => h el (hs.subset hel) b as ha

/-- all arguments of a node can be visited in turn -/
theorem ready_args {P : Placed} {roots : List Nat} (hN : Nested P roots) {u : Nat} (hu : Reach P.nd roots u) {st : OSt}
    (hrd : Ready P st (outside P u)) {l₁ l₂ : List Nat} {a : Nat} (hs : (P.nd u).args = l₁ ++ a :: l₂) {st' : OSt}
    (hg : ∀ x, st.visited x = true → st'.visited x = true) (hl : ∀ x ∈ l₁, st'.visited x = true) (hn : (P.nd a).op.needed = true) :
    Ready P st' (outside P a) := by
  have ha : a ∈ (P.nd u).args := by rw [hs]; simp
  have hpre := hN.inside u hu a ha hn
  have hrd' := hrd.mono hg
  have hoa : outside P a <+: P.path (P.scope a) := by
    unfold outside; split
    · exact List.dropLast_prefix _
    · exact List.prefix_rfl
  unfold Placed.around at hpre
  by_cases he : (P.nd u).op.isEnd = true
  · simp only [he, if_true] at hpre
    obtain ⟨p, b, as, hargs, hbb, hpb, hpu⟩ := hN.ends u hu he
    have hou : outside P u = p := by
      unfold outside
      by_cases hbg : (P.nd u).op.begins = true
      · rw [if_pos hbg] at hpu ⊢
        obtain ⟨el, hel⟩ := hpu
        rw [hel]; simp
      · rw [if_neg hbg] at hpu ⊢
        exact hpu
    rw [hou] at hrd'
    rw [hargs] at hpre
    simp only at hpre
    cases l₁ with
    | nil =>
      have hab : a = b := by rw [hargs] at hs; simp at hs; exact hs.1.symm
      subst hab
      have : outside P a = p := by
        unfold outside
        rw [if_pos hbb, hpb]; simp
      rw [this]; exact hrd'
    | cons b' l₁ =>
      have hbv : st'.visited b = true := by
        apply hl
        rw [hargs] at hs; simp at hs; simp [hs.1]
      intro el hel x as' hx
      have hel' := (hoa.trans hpre).subset hel
      rw [hpb] at hel'
      rcases List.mem_append.1 hel' with h | h
      · exact hrd' el h x as' hx
      · have : el = (P.scope b, u) := by simpa using h
        subst this
        have hx' : (P.nd u).args = x :: as' := hx
        rw [hargs] at hx'
        simp at hx'
        rw [← hx'.1]; exact hbv
  · simp only [he] at hpre
    apply hrd'.sub
    apply hoa.trans
    unfold outside
    simpa using hpre

theorem printed_needed {o : Op} (h : o.needed = false) : printed o = false := by
  cases o <;> simp_all [printed, Op.needed, Op.begins, Op.isEnd, Op.ends]

/-- all nodes an argument needs are visited, in the right order -/
theorem visit_right {P : Placed} {roots : List Nat} (hN : Nested P roots) (creates : OSt → Nat → Nat → Bool) {R : Nat → Nat}
    (hR : ∀ u, Reach P.nd roots u → ∀ a ∈ (P.nd u).args, R a < R u) : ∀ (f parent a : Nat) (st : OSt) (log : List Nat),
      R a < f → Reach P.nd roots a → Inv P creates roots st log → ((P.nd a).op.needed = true → Ready P st (outside P a)) →
      ∃ st' log', visitNode P creates f parent a st = .ok st' ∧ Inv P creates roots st' log' ∧ Grows st st' log log' ∧ st'.visited a = true := by
  intro f
  induction f with
  | zero => intro _ _ _ _ h; omega
  | succ f ih =>
    intro parent a st log hf ha hI hrd
    -- the arguments
    have args : ∀ (l₂ l₁ : List Nat) (st' : OSt) (log' : List Nat), (P.nd a).args = l₁ ++ l₂ → (∀ x ∈ l₁, st'.visited x = true) →
        Inv P creates roots st' log' → Grows st st' log log' → ∃ s t, l₂.foldlM (fun s x => visitNode P creates f a x s) st' = .ok s ∧
          Inv P creates roots s t ∧ Grows st s log t ∧ ∀ x ∈ (P.nd a).args, s.visited x = true := by
      intro l₂
      induction l₂ with
      | nil =>
        intro l₁ st' log' hs hl hI' hg
        exact ⟨st', log', rfl, hI', hg, by rw [hs]; simpa using hl⟩
      | cons x l₂ ih₂ =>
        intro l₁ st' log' hs hl hI' hg
        have hx : x ∈ (P.nd a).args := by rw [hs]; simp
        have hna : (P.nd a).op.needed = true := by
          cases hq : (P.nd a).op.needed with
          | true => rfl
          | false => rw [hN.leaf a ha hq] at hx; cases hx
        obtain ⟨s, t, hrun, hI2, hg2, hv2⟩ := ih a x st' log' (by have := hR a ha x hx; omega) (.arg ha hx) hI'
          (fun hn => ready_args hN ha (hrd hna) hs hg.visited hl hn)
        obtain ⟨s', t', hrun', h'⟩ := ih₂ (l₁ ++ [x]) s t (by rw [hs]; simp)
          (by
            intro y hy
            rcases List.mem_append.1 hy with hy | hy
            · exact hg2.visited y (hl y hy)
            · have : y = x := by simpa using hy
              rw [this]; exact hv2) hI2 (hg.trans hg2)
        refine ⟨s', t', ?_, h'⟩
        rw [List.foldlM_cons, hrun]
        exact hrun'
    unfold visitNode
    by_cases hva : st.visited a = true
    · rw [if_pos hva]
      exact ⟨st, log, rfl, hI, Grows.rfl', hva⟩
    · rw [if_neg hva]
      obtain ⟨s, t, hrun, hI2, hg2, hall⟩ := args (P.nd a).args [] st log rfl (by simp) hI Grows.rfl'
      rw [hrun]
      simp only
      by_cases hva2 : s.visited a = true
      · rw [if_pos hva2]
        exact ⟨s, t, rfl, hI2, hg2, hva2⟩
      · rw [if_neg hva2]
        have hvf : s.visited a = false := by simpa using hva2
        by_cases hq : queued P creates s parent a = true
        · rw [if_pos hq]
          have hna : (P.nd a).op.needed = true := by
            unfold queued at hq
            cases hop : (P.nd a).op <;> rw [hop] at hq <;> simp_all [Op.needed]
          obtain ⟨hadd, hI3⟩ := add_right hN hI2 (visitNode P creates f) ha hall hvf hna ((hrd hna).mono hg2.visited)
          rw [hadd]
          refine ⟨_, _, rfl, hI3, ⟨?_, hg2.log.trans (List.prefix_append _ _)⟩, ?_⟩
          · intro x hx
            show set1 _ _ _ _ = _
            unfold set1; split
            · rfl
            · exact hg2.visited x hx
          · exact set1_self _ _ _
        · rw [if_neg hq]
          refine ⟨_, _, rfl, hI2.mark ha hall (.inr ?_), ⟨?_, hg2.log⟩, set1_self _ _ _⟩
          · exact ⟨s, parent, by simpa using hq⟩
          · intro x hx
            show set1 _ _ _ _ = _
            unfold set1; split
            · rfl
            · exact hg2.visited x hx

/-- all nodes a dependent needs are visited, in the right order -/
theorem root_right {P : Placed} {roots : List Nat} (hN : Nested P roots) (creates : OSt → Nat → Nat → Bool) {R : Nat → Nat}
    (hR : ∀ u, Reach P.nd roots u → ∀ a ∈ (P.nd u).args, R a < R u) {f r : Nat} {st : OSt} {log : List Nat}
    (hf : R r ≤ f) (hr : r ∈ roots) (hI : Inv P creates roots st log) :
    ∃ st' log', visitRoot P creates f r st = .ok st' ∧ Inv P creates roots st' log' ∧ Grows st st' log log' ∧ st'.visited r = true := by
  have ha : Reach P.nd roots r := .root hr
  obtain ⟨hsc, hop⟩ := hN.results r hr
  have hbg : (P.nd r).op.begins = false := by rcases hop with h | h | h <;> rw [h] <;> rfl
  have hrd : (P.nd r).op.needed = true → Ready P st (outside P r) := by
    intro hne
    unfold outside
    rw [hbg, hsc hne, hN.top]
    intro el hel; simp at hel
  have args : ∀ (l₂ l₁ : List Nat) (st' : OSt) (log' : List Nat), (P.nd r).args = l₁ ++ l₂ → (∀ x ∈ l₁, st'.visited x = true) →
      Inv P creates roots st' log' → Grows st st' log log' → ∃ s t, l₂.foldlM (fun s x => visitNode P creates f r x s) st' = .ok s ∧
        Inv P creates roots s t ∧ Grows st s log t ∧ ∀ x ∈ (P.nd r).args, s.visited x = true := by
    intro l₂
    induction l₂ with
    | nil =>
      intro l₁ st' log' hs hl hI' hg
      exact ⟨st', log', rfl, hI', hg, by rw [hs]; simpa using hl⟩
    | cons x l₂ ih₂ =>
      intro l₁ st' log' hs hl hI' hg
      have hx : x ∈ (P.nd r).args := by rw [hs]; simp
      have hne : (P.nd r).op.needed = true := by
        cases hq : (P.nd r).op.needed with
        | true => rfl
        | false => rw [hN.leaf r ha hq] at hx; cases hx
      obtain ⟨s, t, hrun, hI2, hg2, hv2⟩ := visit_right hN creates hR f r x st' log' (by have := hR r ha x hx; omega) (.arg ha hx) hI'
        (fun hn => ready_args hN ha (hrd hne) hs hg.visited hl hn)
      obtain ⟨s', t', hrun', h'⟩ := ih₂ (l₁ ++ [x]) s t (by rw [hs]; simp)
        (by
          intro y hy
          rcases List.mem_append.1 hy with hy | hy
          · exact hg2.visited y (hl y hy)
          · have : y = x := by simpa using hy
            rw [this]; exact hv2) hI2 (hg.trans hg2)
      refine ⟨s', t', ?_, h'⟩
      rw [List.foldlM_cons, hrun]
      exact hrun'
  have gm : ∀ s : OSt, (∀ x, st.visited x = true → s.visited x = true) → ∀ x, st.visited x = true → (Order.mark r s).visited x = true := by
    intro s hs x hx
    show set1 _ _ _ _ = _
    unfold set1; split
    · rfl
    · exact hs x hx
  unfold visitRoot
  by_cases hva : st.visited r = true
  · rw [if_pos hva]
    exact ⟨_, log, rfl, hI.mark ha (hI.closed r hva) (.inl hva), ⟨gm st (fun _ h => h), List.prefix_rfl⟩, set1_self _ _ _⟩
  · rw [if_neg hva]
    obtain ⟨s, t, hrun, hI2, hg2, hall⟩ := args (P.nd r).args [] st log rfl (by simp) hI Grows.rfl'
    rw [hrun]
    simp only
    by_cases hc : (P.nd r).op ≠ .indep ∧ s.visited r = false
    · rw [if_pos hc]
      have hna : (P.nd r).op.needed = true := by
        rcases hop with h | h | h
        · rw [h]; rfl
        · exact absurd h hc.1
        · rw [h]; rfl
      obtain ⟨hadd, hI3⟩ := add_right hN hI2 (visitNode P creates f) ha hall hc.2 hna ((hrd hna).mono hg2.visited)
      rw [hadd]
      exact ⟨_, _, rfl, hI3, ⟨gm _ hg2.visited, hg2.log.trans (List.prefix_append _ _)⟩, set1_self _ _ _⟩
    · rw [if_neg hc]
      refine ⟨_, _, rfl, hI2.mark ha hall ?_, ⟨gm _ hg2.visited, hg2.log⟩, set1_self _ _ _⟩
      by_cases hv : s.visited r = true
      · exact .inl hv
      · right
        have hi : (P.nd r).op = .indep := Decidable.byContradiction fun hne => hc ⟨hne, by simpa using hv⟩
        exact ⟨s, 0, by simp [queued, hi]⟩

/-- the queues after all dependents -/
theorem queues_right {P : Placed} {roots : List Nat} (hN : Nested P roots) (creates : OSt → Nat → Nat → Bool) {R : Nat → Nat}
    (hR : ∀ u, Reach P.nd roots u → ∀ a ∈ (P.nd u).args, R a < R u) {fuel : Nat} (hf : ∀ r ∈ roots, R r ≤ fuel) :
    ∃ st log, queues P creates fuel roots = .ok st ∧ Inv P creates roots st log ∧ ∀ x, Reach P.nd roots x → st.visited x = true := by
  have main : ∀ (l₂ l₁ : List Nat) (st : OSt) (log : List Nat), roots = l₁ ++ l₂ → Inv P creates roots st log → (∀ r ∈ l₁, st.visited r = true) →
      ∃ st' log', l₂.foldlM (fun s r => visitRoot P creates fuel r s) st = .ok st' ∧ Inv P creates roots st' log' ∧ ∀ r ∈ roots, st'.visited r = true := by
    intro l₂
    induction l₂ with
    | nil =>
      intro l₁ st log hs hI hv
      exact ⟨st, log, rfl, hI, by rw [hs]; simpa using hv⟩
    | cons r l₂ ih =>
      intro l₁ st log hs hI hv
      have hr : r ∈ roots := by rw [hs]; simp
      obtain ⟨s, t, hrun, hI2, hg2, hv2⟩ := root_right hN creates hR (hf r hr) hr hI
      obtain ⟨s', t', hrun', h'⟩ := ih (l₁ ++ [r]) s t (by rw [hs]; simp) hI2
        (by
          intro y hy
          rcases List.mem_append.1 hy with hy | hy
          · exact hg2.visited y (hv y hy)
          · have : y = r := by simpa using hy
            rw [this]; exact hv2)
      refine ⟨s', t', ?_, h'⟩
      rw [List.foldlM_cons, hrun]
      exact hrun'
  have hI0 : Inv P creates roots OSt.init [] := by
    refine ⟨fun _ => rfl, rfl, List.nodup_nil, ?_, ?_, ?_, ?_, List.Pairwise.nil, ?_, ?_⟩
    · intro x hx; cases hx
    · intro x hx; cases hx
    · intro x hx; cases hx
    · intro x hx; cases hx
    · intro x hx; cases hx
    · intro l₁ x l₂ h; simp at h
  obtain ⟨st, log, hrun, hI, hv⟩ := main roots [] OSt.init [] rfl hI0 (by simp)
  refine ⟨st, log, hrun, hI, ?_⟩
  intro x hx
  induction hx with
  | root h => exact hv _ h
  | arg _ ha ih => exact hI.closed _ ih _ ha

end Verif.Scopes.Order
