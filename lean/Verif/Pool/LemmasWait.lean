import Verif.Pool.Lemmas
namespace Verif.Pool

theorem get_set {α : Type} {l : List α} {i j : Nat} {a p : α} (h : (l.set i a)[j]? = some p) :
    (i = j ∧ p = a) ∨ (i ≠ j ∧ l[j]? = some p) := by
  rw [List.getElem?_set] at h
  by_cases e : i = j
  · rw [if_pos e] at h
    split at h
    · left; exact ⟨e, by simpa using h.symm⟩
    · cases h
  · rw [if_neg e] at h
    exact .inr ⟨e, h⟩

theorem get_set_self {α : Type} {l : List α} {i : Nat} {a b : α} (h : l[i]? = some b) :
    (l.set i a)[i]? = some a := by
  have := (List.getElem?_eq_some_iff.1 h).1
  simp [this]

theorem get_set_ne {α : Type} {l : List α} {i j : Nat} {a : α} (h : i ≠ j) : (l.set i a)[j]? = l[j]? := by
  simp [List.getElem?_set, h]

theorem pullJobs_subset {st : Strategy} {queue : List Nat} {groups : List (List Nat)} {k : Nat}
    {grp : Option (List Nat)} {q : List Nat} {gs : List (List Nat)}
    (h : pullJobs st queue groups k = some (grp, q, gs)) :
    (∀ j ∈ q, j ∈ queue) ∧ (∀ j ∈ gs.flatten, j ∈ groups.flatten) := by
  unfold pullJobs at h
  split at h
  · cases h
    refine ⟨fun _ h => h, fun j hj => ?_⟩
    simp only [List.flatten_cons, List.mem_append]
    exact .inr hj
  · split at h
    · cases h; exact ⟨fun _ h => h, fun _ h => h⟩
    · simp only at h
      generalize (if st = .dynamic then 1 else k) = k' at h
      split at h
      · cases h; exact ⟨fun j hj => List.mem_of_mem_drop hj, fun _ h => h⟩
      · cases h

/-- the client holds `thcount_lock` -/
def CPc.holds : CPc → Bool
  | .len _ | .grp _ | .work _ | .ready _ => true
  | _ => false

def InvLock (s : State) : Prop :=
  ∀ c : Nat, s.lock = some c ↔ ∃ p, s.cs[c]? = some p ∧ p.holds = true

theorem invLock_set {s : State} (hi : InvLock s) {c : Nat} {a p : CPc} (h : s.cs[c]? = some p)
    (hh : a.holds = p.holds) : ∀ d, s.lock = some d ↔ ∃ p, (s.cs.set c a)[d]? = some p ∧ p.holds = true := by
  intro d
  rw [hi d]
  constructor
  · rintro ⟨q, h1, h2⟩
    by_cases e : c = d
    · subst e
      rw [h] at h1; cases h1
      exact ⟨a, get_set_self h, hh.trans h2⟩
    · exact ⟨q, by rw [get_set_ne e]; exact h1, h2⟩
  · rintro ⟨q, h1, h2⟩
    rcases get_set h1 with ⟨rfl, rfl⟩ | ⟨_, h1⟩
    · exact ⟨p, h, hh ▸ h2⟩
    · exact ⟨q, h1, h2⟩

theorem invLock_release {s : State} (hi : InvLock s) {c : Nat} {a p : CPc} (h : s.cs[c]? = some p)
    (hp : p.holds = true) (ha : a.holds = false) :
    ∀ d, (none : Option Nat) = some d ↔ ∃ p, (s.cs.set c a)[d]? = some p ∧ p.holds = true := by
  intro d
  constructor
  · intro e; cases e
  · rintro ⟨q, h1, h2⟩
    have hl := (hi c).2 ⟨p, h, hp⟩
    rcases get_set h1 with ⟨rfl, rfl⟩ | ⟨e, h1⟩
    · rw [ha] at h2; cases h2
    · have := (hi d).2 ⟨q, h1, h2⟩
      rw [hl] at this
      cases this
      exact absurd rfl e

theorem invLock_step {s s' : State} {a : Act} (hi : InvLock s) (h : exec s a = some s') : InvLock s' := by
  have hE := exec_eff h
  cases hE with
  | worker w =>
    cases w with
    | decSignal cs wake hp hl hw hsig =>
      rcases signalC_eq hsig with ⟨rfl, _⟩ | ⟨c, S, hc, rfl⟩
      · exact hi
      · exact invLock_set hi hc rfl
    | _ => exact hi
  | client w =>
    cases w with
    | lock S hp hl =>
      intro d
      rename_i c
      constructor
      · intro e; cases e; exact ⟨_, get_set_self hp, rfl⟩
      · rintro ⟨q, h1, h2⟩
        rcases get_set h1 with ⟨rfl, rfl⟩ | ⟨e, h1⟩
        · rfl
        · have := (hi d).2 ⟨q, h1, h2⟩
          rw [hl] at this; cases this
    | lenBusy S hp _ | lenZero S hp _ | grpBusy S hp _ | grpZero S hp _ | workBusy S hp _ => exact invLock_set hi hp rfl
    | ret S hp _ | sleep S hp => exact invLock_release hi hp rfl rfl
    | repost hp _ => exact hi
    | clear hp _ => exact invLock_set hi hp rfl
  | push | multipush | pushStatic | setStrategy | spuriousW => exact hi
  | callWait hp | callDestroy hp | spuriousC S hp => exact invLock_set hi hp rfl

/-- what a waiting client has established about the jobs it waits for -/
def SnapOk (s : State) : CPc → Prop
  | .lockReq S | .asleep S | .len S | .ready S => ∀ j ∈ S, j < s.next
  | .grp S => ∀ j ∈ S, j < s.next ∧ j ∉ s.queue
  | .work S => ∀ j ∈ S, j < s.next ∧ j ∉ s.queue ∧ j ∉ s.groups.flatten
  | _ => True

def InvSnap (s : State) : Prop := ∀ (c : Nat) (p : CPc), s.cs[c]? = some p → SnapOk s p

theorem snapOk_mono {s s' : State} (h1 : s.next ≤ s'.next)
    (h2 : ∀ j < s.next, j ∈ s'.queue → j ∈ s.queue)
    (h3 : ∀ j < s.next, j ∈ s'.groups.flatten → j ∈ s.groups.flatten) {p : CPc} (h : SnapOk s p) : SnapOk s' p := by
  cases p with
  | lockReq S | asleep S | len S | ready S =>
    intro j hj
    have := h j hj
    exact Nat.lt_of_lt_of_le this h1
  | grp S =>
    intro j hj
    have := h j hj
    exact ⟨Nat.lt_of_lt_of_le this.1 h1, fun g => this.2 (h2 j this.1 g)⟩
  | work S =>
    intro j hj
    have := h j hj
    exact ⟨Nat.lt_of_lt_of_le this.1 h1, fun g => this.2.1 (h2 j this.1 g), fun g => this.2.2 (h3 j this.1 g)⟩
  | idle | shut | dead => trivial

theorem invSnap_step {s s' : State} {a : Act} (hi : InvSnap s) (h : exec s a = some s') : InvSnap s' := by
  have hE := exec_eff h
  have mono : ∀ s' : State, s'.cs = s.cs → s.next ≤ s'.next →
      (∀ j < s.next, j ∈ s'.queue → j ∈ s.queue) →
      (∀ j < s.next, j ∈ s'.groups.flatten → j ∈ s.groups.flatten) → InvSnap s' := by
    intro s' hc h1 h2 h3 c p hp
    rw [hc] at hp
    exact snapOk_mono h1 h2 h3 (hi c p hp)
  have setc : ∀ (s' : State) (c : Nat) (b : CPc), s'.cs = s.cs.set c b → s'.next = s.next → s'.queue = s.queue →
      s'.groups = s.groups → SnapOk s' b → InvSnap s' := by
    intro s' c b hc h1 h2 h3 hb d p hp
    rw [hc] at hp
    rcases get_set hp with ⟨rfl, rfl⟩ | ⟨_, hp⟩
    · exact hb
    · exact snapOk_mono (Nat.le_of_eq h1.symm) (fun j _ => by rw [h2]; exact id) (fun j _ => by rw [h3]; exact id)
        (hi d p hp)
  cases hE with
  | worker w =>
    cases w with
    | pull k grp q gs ws' v' hp hj hpost =>
      have hsub := pullJobs_subset hj
      exact mono _ rfl (Nat.le_refl _) (fun j _ => hsub.1 j) (fun j _ => hsub.2 j)
    | decSignal cs wake hp hl hw hsig =>
      rcases signalC_eq hsig with ⟨rfl, _⟩ | ⟨c, S, hc, rfl⟩
      · exact mono _ rfl (Nat.le_refl _) (fun _ _ h => h) (fun _ _ h => h)
      · exact setc _ c _ rfl rfl rfl rfl (hi c _ hc)
    | _ => exact mono _ rfl (Nat.le_refl _) (fun _ _ h => h) (fun _ _ h => h)
  | client w =>
    cases w with
    | lock S hp _ | lenBusy S hp _ | sleep S hp => exact setc _ _ _ rfl rfl rfl rfl (hi _ _ hp)
    | lenZero S hp hq =>
      exact setc _ _ _ rfl rfl rfl rfl (fun j hj => ⟨hi _ _ hp j hj, by simp [hq]⟩)
    | grpBusy S hp _ => exact setc _ _ _ rfl rfl rfl rfl (fun j hj => (hi _ _ hp j hj).1)
    | grpZero S hp hg =>
      exact setc _ _ _ rfl rfl rfl rfl (fun j hj => ⟨(hi _ _ hp j hj).1, (hi _ _ hp j hj).2, by simp [hg]⟩)
    | workBusy S hp _ => exact setc _ _ _ rfl rfl rfl rfl (fun j hj => (hi _ _ hp j hj).1)
    | ret S hp _ => exact setc _ _ .idle rfl rfl rfl rfl trivial
    | repost => exact mono _ rfl (Nat.le_refl _) (fun _ _ h => h) (fun _ _ h => h)
    | clear hp _ =>
      intro d p hp'
      rcases get_set hp' with ⟨rfl, rfl⟩ | ⟨_, hp'⟩
      · trivial
      · refine snapOk_mono (s := s) ?_ ?_ ?_ (hi d p hp')
        · exact Nat.le_refl _
        · intro j _ h; change j ∈ [] at h; cases h
        · intro j _ h; change j ∈ [] at h; cases h
  | push ws hp hsig =>
    exact mono _ rfl (Nat.le_succ _) (fun j hj h => by
      simp at h; rcases h with h | h
      · exact h
      · omega) (fun _ _ h => h)
  | multipush hp =>
    exact mono _ rfl (Nat.le_add_right _ _) (fun j hj h => by
      simp [List.mem_range'_1] at h; rcases h with h | h
      · exact h
      · omega) (fun _ _ h => h)
  | pushStatic hp _ hperm =>
    exact mono _ rfl (Nat.le_add_right _ _) (fun _ _ h => h) (fun j hj h => by
      simp only [List.flatten_append, List.mem_append] at h
      rcases h with h | h
      · have := (hperm.mem_iff).1 h
        rw [List.mem_range'_1] at this; omega
      · exact h)
  | callWait hp => exact setc _ _ _ rfl rfl rfl rfl (fun j hj => by simpa using hj)
  | setStrategy hp => exact mono _ rfl (Nat.le_refl _) (fun _ _ h => h) (fun _ _ h => h)
  | callDestroy hp => exact setc _ _ .shut rfl rfl rfl rfl trivial
  | spuriousW => exact mono _ rfl (Nat.le_refl _) (fun _ _ h => h) (fun _ _ h => h)
  | spuriousC S hp => exact setc _ _ _ rfl rfl rfl rfl (hi _ _ hp)

/-- jobs are thrown away only when the pool is destroyed -/
def InvDrop (s : State) : Prop :=
  s.keepalive = true → s.dropped = [] ∧ ∀ c : Nat, s.cs[c]? ≠ some CPc.shut

theorem invDrop_step {s s' : State} {a : Act} (hi : InvDrop s) (h : exec s a = some s') : InvDrop s' := by
  have hE := exec_eff h
  have setc : ∀ (s' : State) (c : Nat) (b : CPc), s'.cs = s.cs.set c b → s'.keepalive = s.keepalive →
      s'.dropped = s.dropped → b ≠ .shut → InvDrop s' := by
    intro s' c b hc h1 h2 hb hk
    rw [h1] at hk
    refine ⟨h2.trans (hi hk).1, fun d hd => ?_⟩
    rw [hc] at hd
    rcases get_set hd with ⟨rfl, e⟩ | ⟨_, hd⟩
    · exact hb e.symm
    · exact (hi hk).2 d hd
  cases hE with
  | worker w =>
    cases w with
    | decSignal cs wake hp hl hw hsig =>
      rcases signalC_eq hsig with ⟨rfl, _⟩ | ⟨c, S, hc, rfl⟩
      · exact hi
      · exact setc _ c _ rfl rfl rfl (by simp)
    | _ => exact hi
  | client w =>
    cases w with
    | repost => exact hi
    | clear hp _ => intro hk; exact absurd hp ((hi hk).2 _)
    | _ => exact setc _ _ _ rfl rfl rfl (by simp)
  | callDestroy hp => intro hk; cases hk
  | callWait hp => exact setc _ _ _ rfl rfl rfl (by simp)
  | spuriousC S hp => exact setc _ _ _ rfl rfl rfl (by simp)
  | push | multipush | pushStatic | setStrategy | spuriousW => exact hi

/-! ### initial state and reachable states -/

structure Inv (s : State) : Prop where
  places : InvPlaces s
  working : InvWorking s
  lock : InvLock s
  snap : InvSnap s
  drop : InvDrop s

theorem get_replicate {α : Type} {n c : Nat} {a p : α} (h : (List.replicate n a)[c]? = some p) : p = a := by
  rw [List.getElem?_replicate] at h
  split at h
  · simpa using h.symm
  · cases h

theorem inv_init (st : Strategy) (n m : Nat) : Inv (init st n m) where
  places := by
    intro j
    have : ∀ n, ((List.replicate n WPc.top).map (heldCount j)).sum = 0 := by
      intro n; induction n with
      | zero => rfl
      | succ n ih => simp [List.replicate_succ, heldCount]
    simp [Pool.places, init, heldCount]
  working := by simp [InvWorking, init, counted]
  lock := by
    intro c
    constructor
    · intro h; cases h
    · rintro ⟨p, h, h2⟩
      rw [get_replicate h] at h2; cases h2
  snap := by
    intro c p h
    rw [get_replicate h]; trivial
  drop := by
    intro _
    exact ⟨rfl, fun c h => by have := get_replicate h; cases this⟩

theorem inv_step {s s' : State} {a : Act} (hi : Inv s) (h : exec s a = some s') : Inv s' :=
  ⟨invPlaces_step hi.places h, invWorking_step hi.working h, invLock_step hi.lock h, invSnap_step hi.snap h,
    invDrop_step hi.drop h⟩

theorem inv_run {s s' : State} {as : List Act} (h : Run s as s') (hi : Inv s) : Inv s' := by
  induction h with
  | nil => exact hi
  | cons h _ ih => exact ih (inv_step hi h)

/-! ### waiting -/

theorem held_zero {s : State} (hw : InvWorking s) (h0 : s.working = 0) (j : Nat) :
    (s.ws.map (heldCount j)).sum = 0 := by
  rw [hw] at h0
  have : ∀ ws : List WPc, (ws.map counted).sum = 0 → (ws.map (heldCount j)).sum = 0 := by
    intro ws
    induction ws with
    | nil => intro _; rfl
    | cons p ws ih =>
      intro h
      simp only [List.map_cons, List.sum_cons] at h ⊢
      have h2 := ih (by omega)
      have h1 : counted p = 0 := by omega
      have : heldCount j p = 0 := by cases p <;> simp [counted, heldCount] at *
      omega
  exact this _ h0

/-- the client is still waiting for the jobs in `S` -/
def Waiting (S : List Nat) : CPc → Prop
  | .lockReq T | .len T | .grp T | .work T | .ready T | .asleep T => T = S
  | _ => False

theorem waiting_step {s s' : State} {a : Act} (hi : Inv s) (h : exec s a = some s') {c : Nat} {S : List Nat}
    (hw : (∃ p, s.cs[c]? = some p ∧ Waiting S p) ∨ ∀ j ∈ S, j ∈ s.done ∨ j ∈ s.dropped) :
    (∃ p, s'.cs[c]? = some p ∧ Waiting S p) ∨ ∀ j ∈ S, j ∈ s'.done ∨ j ∈ s'.dropped := by
  have hE := exec_eff h
  have setc : ∀ (d : Nat) (b q : CPc), s.cs[d]? = some q → (Waiting S q → Waiting S b) →
      (∃ p, s.cs[c]? = some p ∧ Waiting S p) → ∃ p, (s.cs.set d b)[c]? = some p ∧ Waiting S p := by
    rintro d b q hq hqb ⟨p, hp, hwp⟩
    by_cases e : d = c
    · subst e
      rw [hq] at hp; cases hp
      exact ⟨b, get_set_self hq, hqb hwp⟩
    · exact ⟨p, by rw [get_set_ne e]; exact hp, hwp⟩
  rcases hw with hw | hw
  · cases hE with
    | worker w =>
      cases w with
      | decSignal cs wake hp hl hw' hsig =>
        rcases signalC_eq hsig with ⟨rfl, _⟩ | ⟨d, T, hc, rfl⟩
        · exact .inl hw
        · exact .inl (setc d _ _ hc (fun h => h) hw)
      | _ => exact .inl hw
    | client w =>
      cases w with
      | ret T hp h0 =>
        rename_i d
        obtain ⟨p, hp', hwp⟩ := hw
        by_cases e : d = c
        · subst e
          right
          rw [hp] at hp'; cases hp'
          have hTS : T = S := hwp
          subst hTS
          intro j hj
          have hsn := hi.snap _ _ hp j hj
          have hpl := hi.places j
          rw [if_pos hsn.1] at hpl
          unfold Pool.places at hpl
          rw [held_zero hi.working h0 j, List.count_eq_zero.2 hsn.2.1, List.count_eq_zero.2 hsn.2.2] at hpl
          by_cases hd : j ∈ s.done
          · exact .inl hd
          · rw [List.count_eq_zero.2 hd] at hpl
            have hpl' : s.dropped.count j = 1 := by omega
            exact .inr (List.count_pos_iff.1 (by rw [hpl']; exact Nat.one_pos))
        · exact .inl ⟨p, by rw [get_set_ne e]; exact hp', hwp⟩
      | repost => exact .inl hw
      | clear hp _ => exact .inl (setc _ _ _ hp (fun h => h.elim) hw)
      | lock T hp _ | lenBusy T hp _ | lenZero T hp _ | grpBusy T hp _ | grpZero T hp _ | workBusy T hp _ | sleep T hp =>
        exact .inl (setc _ _ _ hp (fun h => h) hw)
    | callDestroy hp => exact .inl (setc _ _ _ hp (fun h => h.elim) hw)
    | callWait hp => exact .inl (setc _ _ _ hp (fun h => h.elim) hw)
    | spuriousC T hp => exact .inl (setc _ _ _ hp (fun h => h) hw)
    | push | multipush | pushStatic | setStrategy | spuriousW => exact .inl hw
  · right
    intro j hj
    have := hw j hj
    cases hE with
    | worker w =>
      cases w with
      | runJob j' js hp => rcases this with h | h
                           · exact .inl (List.mem_append_left _ h)
                           · exact .inr h
      | _ => exact this
    | client w =>
      cases w with
      | clear => rcases this with h | h
                 · exact .inl h
                 · exact .inr (List.mem_append_left _ (List.mem_append_left _ h))
      | _ => exact this
    | _ => exact this

theorem waiting_run {s s' : State} {as : List Act} (h : Run s as s') (hi : Inv s) {c : Nat} {S : List Nat}
    (hw : (∃ p, s.cs[c]? = some p ∧ Waiting S p) ∨ ∀ j ∈ S, j ∈ s.done ∨ j ∈ s.dropped) :
    (∃ p, s'.cs[c]? = some p ∧ Waiting S p) ∨ ∀ j ∈ S, j ∈ s'.done ∨ j ∈ s'.dropped := by
  induction h with
  | nil => exact hw
  | cons h _ ih => exact ih (inv_step hi h) (waiting_step hi h hw)

end Verif.Pool
