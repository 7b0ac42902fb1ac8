import Verif.Scopes.ModelMove

/- Helper lemmas for values moved out of loops. -/
namespace Verif.Scopes.Move

theorem put_same {f : Nat → α} {k : Nat} {v : α} : put f k v k = v := by simp [put]

theorem put_other {f : Nat → α} {k i : Nat} {v : α} (h : i ≠ k) : put f k v i = f i := by simp [put, h]

theorem mem_insert1 {l : List Nat} {n m : Nat} : m ∈ insert1 l n ↔ m ∈ l ∨ m = n := by
  unfold insert1
  by_cases h : n ∈ l
  · simp only [h, if_true]
    exact ⟨.inl, fun h' => h'.elim id (fun e => e ▸ h)⟩
  · simp [h]

/-- the second is reached from the first, a node of the first graph, through new assignments -/
inductive W (N : Nat) (nd : Nat → Node) (size : Nat) : Option Nat → Option Nat → Prop
  | none : W N nd size none none
  | node {x : Nat} : x < N → W N nd size (some x) (some x)
  | assign {x : Option Nat} {y : Nat} {z : Option Nat} : N ≤ y → y < size → nd y = ⟨.assign, [z]⟩ → W N nd size x z → W N nd size x (some y)

theorem W.mono {N : Nat} {nd nd' : Nat → Node} {s s' : Nat} {x z : Option Nat} (h : W N nd s x z) (hs : s ≤ s')
    (hn : ∀ y, N ≤ y → y < s → nd' y = nd y) : W N nd' s' x z := by
  induction h with
  | none => exact .none
  | node h => exact .node h
  | assign h1 h2 h3 _ ih => exact .assign h1 (by omega) ((hn _ h1 h2).trans h3) ih

theorem W.unique {N : Nat} {nd : Nat → Node} {s : Nat} {x x' z : Option Nat} (h : W N nd s x z) (h' : W N nd s x' z) : x = x' := by
  induction h with
  | none => cases h'; rfl
  | node h =>
    cases h' with
    | node _ => rfl
    | assign h1 _ _ _ => omega
  | assign h1 h2 h3 _ ih =>
    cases h' with
    | node _ => omega
    | assign _ _ h3' h4' =>
      rw [h3] at h3'
      cases h3'
      exact ih h4'

theorem W.same {N : Nat} {nd : Nat → Node} {s : Nat} {x z : Option Nat} (h : W N nd s x z) : Same nd x z := by
  induction h with
  | none => exact .refl
  | node _ => exact .refl
  | assign _ _ h3 _ ih => exact .assign h3 ih

def Plain (k : Kind) : Prop := k ≠ .inv ∧ k ≠ .tmpDcl ∧ k ≠ .indexedTmp

structure Inv (nd0 : Nat → Node) (N ix : Nat) (ends : List Nat) (e : Option Nat) (st : St) : Prop where
  size : N ≤ st.cap ∧ st.cap ≤ st.size
  kind : ∀ n < N, (st.nd n).kind = (nd0 n).kind
  args : ∀ n < N, List.Forall₂ (W N st.nd st.size) (nd0 n).args (st.nd n).args
  same : ∀ n < N, st.memo n ≠ 1 → st.nd n = nd0 n
  lt : ∀ n, st.memo n ≠ 0 → n < N
  le : ∀ n, st.memo n ≤ 2
  dep : ∀ n, st.memo n ≠ 0 → (st.memo n = 2 ↔ Depends nd0 ix n)
  margs : ∀ n, st.memo n ≠ 0 → ∀ a, some a ∈ (nd0 n).args → st.memo a ≠ 0
  loop : ∀ n, st.memo n ≠ 0 → InLoop nd0 ends n
  new : ∀ k, N ≤ k → k < st.size → (∃ z, st.nd k = ⟨.assign, [z]⟩) ∧
    ∃ x t, st.memo x = 1 ∧ st.memo t = 1 ∧ some x ∈ (nd0 t).args ∧ W N st.nd st.size (some x) (some k)
  moved : ∀ m ∈ st.moved, m < st.size ∧ (m < N → st.memo m = 1 ∧ Plain (nd0 m).kind)
  done : ∀ n, st.memo n = 2 → e ≠ some n → (nd0 n).kind ≠ .array → ∀ a, some a ∈ (nd0 n).args → st.memo a = 1 → Ready st.nd st.moved a

variable {nd0 : Nat → Node} {N ix : Nat} {ends : List Nat}

theorem Inv.one {e : Option Nat} {st : St} (h : Inv nd0 N ix ends e st) {n : Nat} (hn : st.memo n ≠ 0) :
    st.memo n = 1 ↔ ¬ Depends nd0 ix n := by
  have h1 := h.le n
  have h2 := h.dep n hn
  constructor
  · intro h3 h4
    have := h2.2 h4
    omega
  · intro h3
    have : st.memo n ≠ 2 := fun h4 => h3 (h2.1 h4)
    omega

theorem keep_ok {e : Option Nat} {st : St} (hg : Graph nd0 N) (h : Inv nd0 N ix ends e st) {a : Nat} (ha : st.memo a = 1) :
    ∃ st', keep a st = .ok st' ∧ Inv nd0 N ix ends e st' ∧ st'.memo = st.memo ∧ st'.cap = st.cap ∧ st.size ≤ st'.size ∧
      Ready st'.nd st'.moved a ∧ ∀ b < N, Ready st.nd st.moved b → Ready st'.nd st'.moved b := by
  have haN : a < N := h.lt a (by omega)
  have hk := h.kind a haN
  have plain : Plain (nd0 a).kind → ∃ st', (.ok { st with moved := insert1 st.moved a } : Except Err St) = .ok st' ∧
      Inv nd0 N ix ends e st' ∧ st'.memo = st.memo ∧ st'.cap = st.cap ∧ st.size ≤ st'.size ∧
      Ready st'.nd st'.moved a ∧ ∀ b < N, Ready st.nd st.moved b → Ready st'.nd st'.moved b := by
    intro hp
    have mono : ∀ b, Ready st.nd st.moved b → Ready st.nd (insert1 st.moved a) b := by
      intro b hb
      cases hb with
      | moved h1 => exact .moved (mem_insert1.2 (.inl h1))
      | inv h1 => exact .inv h1
      | tmpDcl h1 => exact .tmpDcl h1
      | constant h1 => exact .constant h1
      | value h1 h2 => exact .value h1 (mem_insert1.2 (.inl h2))
    refine ⟨_, rfl, ?_, rfl, rfl, Nat.le_refl _, .moved (mem_insert1.2 (.inr rfl)), fun b _ => mono b⟩
    exact { h with
      moved := by
        intro m hm
        rcases mem_insert1.1 hm with hm | rfl
        · exact h.moved m hm
        · have := h.size
          exact ⟨by show m < st.size; omega, fun _ => ⟨ha, hp⟩⟩
      done := fun n h1 h2 h3 b h4 h5 => mono b (h.done n h1 h2 h3 b h4 h5) }
  unfold keep
  cases hkd : (st.nd a).kind with
  | inv => exact ⟨st, rfl, h, rfl, rfl, Nat.le_refl _, .inv hkd, fun _ _ h => h⟩
  | tmpDcl => exact ⟨st, rfl, h, rfl, rfl, Nat.le_refl _, .tmpDcl hkd, fun _ _ h => h⟩
  | index => exact plain (by rw [← hk, hkd]; simp [Plain])
  | array => exact plain (by rw [← hk, hkd]; simp [Plain])
  | assign => exact plain (by rw [← hk, hkd]; simp [Plain])
  | other => exact plain (by rw [← hk, hkd]; simp [Plain])
  | indexedTmp =>
    have hargs := h.args a haN
    have hlen := hg.tmp a haN (by rw [← hk, hkd])
    have hnd : st.nd a = ⟨.indexedTmp, (st.nd a).args⟩ := by rw [← hkd]
    cases hx : (nd0 a).args with
    | nil => rw [hx] at hlen; simp at hlen
    | cons x0 xs =>
    cases xs with
    | nil => rw [hx] at hlen; simp at hlen
    | cons x1 xr =>
    rw [hx] at hargs
    cases hs : (st.nd a).args with
    | nil => rw [hs] at hargs; cases hargs
    | cons d ss =>
    rw [hs] at hargs
    cases hargs with
    | cons hd hrest =>
    cases ss with
    | nil => cases hrest
    | cons v r =>
    cases hrest with
    | cons hv hr =>
    cases v with
    | none => exact ⟨st, rfl, h, rfl, rfl, Nat.le_refl _, .constant (hnd.trans (by rw [hs])), fun _ _ h => h⟩
    | some v =>
      have hsz := h.size
      have hNk : N ≤ st.size := by omega
      have hak : a ≠ st.size := by omega
      -- the graph afterwards
      have nd_a : put (put st.nd st.size ⟨.assign, [some v]⟩) a ⟨.indexedTmp, d :: some st.size :: r⟩ a = ⟨.indexedTmp, d :: some st.size :: r⟩ :=
        put_same
      have nd_k : put (put st.nd st.size ⟨.assign, [some v]⟩) a ⟨.indexedTmp, d :: some st.size :: r⟩ st.size = ⟨.assign, [some v]⟩ := by
        rw [put_other (Ne.symm hak), put_same]
      have nd_o : ∀ n, n ≠ a → n ≠ st.size → put (put st.nd st.size ⟨.assign, [some v]⟩) a ⟨.indexedTmp, d :: some st.size :: r⟩ n = st.nd n := by
        intro n h1 h2
        rw [put_other h1, put_other h2]
      generalize hnd' : put (put st.nd st.size ⟨.assign, [some v]⟩) a ⟨.indexedTmp, d :: some st.size :: r⟩ = nd' at nd_a nd_k nd_o
      have wm : ∀ {x z}, W N st.nd st.size x z → W N nd' (st.size + 1) x z := fun hw =>
        hw.mono (Nat.le_succ _) (fun y h1 h2 => nd_o y (by omega) (by omega))
      have hv' : W N nd' (st.size + 1) x1 (some st.size) := .assign hNk (Nat.lt_succ_self _) nd_k (wm hv)
      have hx1 : ∃ x, x1 = some x := by
        cases x1 with
        | some x => exact ⟨x, rfl⟩
        | none =>
          cases hv with
          | assign h1 h2 h3 h4 =>
            obtain ⟨_, x, _, _, _, _, hw⟩ := h.new v h1 h2
            exact absurd (W.unique hw (.assign h1 h2 h3 h4)) (by simp)
      obtain ⟨x, rfl⟩ := hx1
      have hxm : some x ∈ (nd0 a).args := by rw [hx]; simp
      have hx0 := h.margs a (by omega) x hxm
      have hx1 : st.memo x = 1 := (h.one hx0).2 fun hd => (h.one (n := a) (by omega)).1 ha (.arg hxm hd)
      have mono : ∀ b < N, Ready st.nd st.moved b → Ready nd' (insert1 st.moved st.size) b := by
        intro b hb hr
        by_cases hba : b = a
        · subst hba
          exact .value nd_a (mem_insert1.2 (.inr rfl))
        · have e := nd_o b hba (by omega)
          cases hr with
          | moved h1 => exact .moved (mem_insert1.2 (.inl h1))
          | inv h1 => exact .inv (by rw [e]; exact h1)
          | tmpDcl h1 => exact .tmpDcl (by rw [e]; exact h1)
          | constant h1 => exact .constant (e.trans h1)
          | value h1 h2 => exact .value (e.trans h1) (mem_insert1.2 (.inl h2))
      refine ⟨⟨nd', st.size + 1, st.memo, st.cap, insert1 st.moved st.size⟩, by simp only [hnd'], ?_, rfl, rfl, Nat.le_succ _,
        .value nd_a (mem_insert1.2 (.inr rfl)), mono⟩
      exact {
        size := ⟨hsz.1, by show st.cap ≤ st.size + 1; omega⟩
        kind := by
          intro n hn
          show (nd' n).kind = _
          by_cases hna : n = a
          · subst hna
            rw [nd_a, ← hk, hkd]
          · rw [nd_o n hna (by omega)]
            exact h.kind n hn
        args := by
          intro n hn
          show List.Forall₂ (W N nd' (st.size + 1)) (nd0 n).args (nd' n).args
          by_cases hna : n = a
          · subst hna
            rw [nd_a, hx]
            exact .cons (wm hd) (.cons hv' (hr.imp fun _ _ => wm))
          · rw [nd_o n hna (by omega)]
            exact (h.args n hn).imp fun _ _ => wm
        same := by
          intro n hn h1
          show nd' n = _
          have hna : n ≠ a := fun e => h1 (e ▸ ha)
          rw [nd_o n hna (by omega)]
          exact h.same n hn h1
        lt := h.lt
        le := h.le
        dep := h.dep
        margs := h.margs
        loop := h.loop
        new := by
          intro k h1 h2
          replace h2 : k < st.size + 1 := h2
          show (∃ z, nd' k = _) ∧ _
          by_cases hks : k = st.size
          · subst hks
            exact ⟨⟨_, nd_k⟩, x, a, hx1, ha, hxm, hv'⟩
          · obtain ⟨h3, x', t, h4, h5, h6, h7⟩ := h.new k h1 (by omega)
            rw [nd_o k (by omega) hks]
            exact ⟨h3, x', t, h4, h5, h6, wm h7⟩
        moved := by
          intro m hm
          show m < st.size + 1 ∧ _
          rcases mem_insert1.1 hm with hm | rfl
          · exact ⟨by have := (h.moved m hm).1; omega, (h.moved m hm).2⟩
          · exact ⟨Nat.lt_succ_self _, fun h => by omega⟩
        done := by
          intro n h1 h2 h3 b h4 h5
          exact mono b (h.lt b (by rw [show st.memo b = 1 from h5]; simp)) (h.done n h1 h2 h3 b h4 h5) }

theorem keepAll_ok {e : Option Nat} (hg : Graph nd0 N) : ∀ (l : List (Option Nat)) (st : St), Inv nd0 N ix ends e st →
    (∀ a, some a ∈ l → a < N) →
    ∃ st', keepAll l st = .ok st' ∧ Inv nd0 N ix ends e st' ∧ st'.memo = st.memo ∧ st'.cap = st.cap ∧ st.size ≤ st'.size ∧
      (∀ a, some a ∈ l → st.memo a = 1 → Ready st'.nd st'.moved a) ∧ ∀ b < N, Ready st.nd st.moved b → Ready st'.nd st'.moved b
  | [], st, h, _ => ⟨st, rfl, h, rfl, rfl, Nat.le_refl _, fun a ha => by simp at ha, fun _ _ h => h⟩
  | none :: l, st, h, hl => by
    obtain ⟨st', h1, h2, h3, h4, h5, h6, h7⟩ := keepAll_ok hg l st h (fun a ha => hl a (List.mem_cons_of_mem _ ha))
    exact ⟨st', h1, h2, h3, h4, h5, fun a ha => h6 a (by simpa using ha), h7⟩
  | some a :: l, st, h, hl => by
    have haN := hl a (by simp)
    have hsz := h.size
    have hc : ¬ st.cap ≤ a := by omega
    have hl' : ∀ a, some a ∈ l → a < N := fun a ha => hl a (List.mem_cons_of_mem _ ha)
    unfold keepAll
    by_cases hm : st.memo a = 1
    · obtain ⟨s, h1, h2, h3, h4, h5, h6, h7⟩ := keep_ok hg h hm
      obtain ⟨st', k1, k2, k3, k4, k5, k6, k7⟩ := keepAll_ok hg l s h2 hl'
      refine ⟨st', by simp only [hc, hm, h1, if_false, if_true]; exact k1, k2, k3.trans h3, k4.trans h4, by omega, ?_, fun b hb hr => k7 b hb (h7 b hb hr)⟩
      intro b hb hb1
      rcases List.mem_cons.1 hb with hb | hb
      · cases hb
        exact k7 _ haN h6
      · exact k6 b hb (by rw [h3]; exact hb1)
    · obtain ⟨st', k1, k2, k3, k4, k5, k6, k7⟩ := keepAll_ok hg l st h hl'
      refine ⟨st', by simp only [hc, hm, if_false]; exact k1, k2, k3, k4, k5, ?_, k7⟩
      intro b hb hb1
      rcases List.mem_cons.1 hb with hb | hb
      · cases hb
        exact absurd hb1 hm
      · exact k6 b hb hb1

/-- what is known stays, the vector is not resized -/
structure Ext (st st' : St) : Prop where
  memo : ∀ n, st.memo n ≠ 0 → st'.memo n = st.memo n
  cap : st'.cap = st.cap
  size : st.size ≤ st'.size

theorem Ext.refl {st : St} : Ext st st := ⟨fun _ _ => rfl, rfl, Nat.le_refl _⟩

theorem Ext.trans {s1 s2 s3 : St} (h : Ext s1 s2) (h' : Ext s2 s3) : Ext s1 s3 :=
  ⟨fun n hn => by
    have e := h.memo n hn
    rw [h'.memo n (by rw [e]; exact hn), e], h'.cap.trans h.cap, Nat.le_trans h.size h'.size⟩

def FindOk (nd0 : Nat → Node) (N ix : Nat) (ends : List Nat) (g : Nat → St → Except Err (Bool × St)) (n : Nat) : Prop :=
  ∀ st, Inv nd0 N ix ends none st → ∃ b st', g n st = .ok (b, st') ∧ Inv nd0 N ix ends none st' ∧ Ext st st' ∧ st'.memo n ≠ 0 ∧
    (b = true ↔ st'.memo n = 1)

theorem visitArgs_ok {g : Nat → St → Except Err (Bool × St)} : ∀ (l : List (Option Nat)) (na ip : Bool) (st : St),
    (∀ a, some a ∈ l → FindOk nd0 N ix ends g a) → Inv nd0 N ix ends none st →
    ∃ na' ip' st', visitArgs g l na ip st = .ok (na', ip', st') ∧ Inv nd0 N ix ends none st' ∧ Ext st st' ∧
      (∀ a, some a ∈ l → st'.memo a ≠ 0) ∧ (na' = true ↔ na = true ∨ ∃ a, some a ∈ l ∧ st'.memo a = 1) ∧
      (ip' = true ↔ ip = true ∨ ∃ a, some a ∈ l ∧ st'.memo a = 2)
  | [], na, ip, st, _, h => ⟨na, ip, st, rfl, h, .refl, fun a ha => by simp at ha, by simp, by simp⟩
  | none :: l, na, ip, st, hl, h => by
    obtain ⟨na', ip', st', h1, h2, h3, h4, h5, h6⟩ := visitArgs_ok l na ip st (fun a ha => hl a (List.mem_cons_of_mem _ ha)) h
    exact ⟨na', ip', st', h1, h2, h3, fun a ha => h4 a (by simpa using ha), by simpa using h5, by simpa using h6⟩
  | some a :: l, na, ip, st, hl, h => by
    obtain ⟨b, s, g1, g2, g3, g4, g5⟩ := hl a (by simp) st h
    obtain ⟨na', ip', st', h1, h2, h3, h4, h5, h6⟩ :=
      visitArgs_ok l (na || b) (ip || !b) s (fun a ha => hl a (List.mem_cons_of_mem _ ha)) g2
    have hm := h3.memo a g4
    have hle := g2.le a
    refine ⟨na', ip', st', by unfold visitArgs; simp only [g1]; exact h1, h2, g3.trans h3, ?_, ?_, ?_⟩
    · intro c hc
      rcases List.mem_cons.1 hc with hc | hc
      · cases hc
        rw [hm]
        exact g4
      · exact h4 c hc
    · rw [h5, Bool.or_eq_true, g5, ← hm]
      constructor
      · rintro ((h | h) | ⟨c, hc, h⟩)
        · exact .inl h
        · exact .inr ⟨a, by simp, h⟩
        · exact .inr ⟨c, List.mem_cons_of_mem _ hc, h⟩
      · rintro (h | ⟨c, hc, h⟩)
        · exact .inl (.inl h)
        · rcases List.mem_cons.1 hc with hc | hc
          · cases hc
            exact .inl (.inr h)
          · exact .inr ⟨c, hc, h⟩
    · have hb : (!b) = true ↔ st'.memo a = 2 := by
        rw [hm]
        cases b with
        | true =>
          have := g5.1 rfl
          simp [this]
        | false =>
          have : s.memo a ≠ 1 := fun h => by simpa using g5.2 h
          simp only [Bool.not_false, true_iff]
          omega
      rw [h6, Bool.or_eq_true, hb]
      constructor
      · rintro ((h | h) | ⟨c, hc, h⟩)
        · exact .inl h
        · exact .inr ⟨a, by simp, h⟩
        · exact .inr ⟨c, List.mem_cons_of_mem _ hc, h⟩
      · rintro (h | ⟨c, hc, h⟩)
        · exact .inl (.inl h)
        · rcases List.mem_cons.1 hc with hc | hc
          · cases hc
            exact .inl (.inr h)
          · exact .inr ⟨c, hc, h⟩

/-- a node is marked when all its arguments are -/
theorem Inv.mark {st : St} (h : Inv nd0 N ix ends none st) {n : Nat} (hn : n < N) {v : Nat} (hv : v = 1 ∨ v = 2)
    (hd : v = 2 ↔ Depends nd0 ix n) (ha : ∀ a, some a ∈ (nd0 n).args → st.memo a ≠ 0) (hl : InLoop nd0 ends n) :
    Inv nd0 N ix ends (some n) { st with memo := put st.memo n v } ∧ Ext st { st with memo := put st.memo n v } := by
  -- a mark of the node which is there already is the same
  have old : st.memo n ≠ 0 → st.memo n = v := by
    intro h0
    have h1 := h.dep n h0
    have h2 := h.le n
    rw [← hd] at h1
    omega
  have memo : ∀ m, st.memo m ≠ 0 → put st.memo n v m = st.memo m := by
    intro m hm
    by_cases e : m = n
    · subst e
      rw [put_same, old hm]
    · exact put_other e
  have memo1 : ∀ m, st.memo m = 1 → put st.memo n v m = 1 := fun m hm => (memo m (by omega)).trans hm
  have cases' : ∀ m, put st.memo n v m ≠ 0 → m = n ∨ st.memo m ≠ 0 ∧ m ≠ n := by
    intro m hm
    by_cases e : m = n
    · exact .inl e
    · rw [put_other e] at hm
      exact .inr ⟨hm, e⟩
  refine ⟨?_, ⟨memo, rfl, Nat.le_refl _⟩⟩
  exact {
    size := h.size
    kind := h.kind
    args := h.args
    same := by
      intro m hm h1
      refine h.same m hm fun h2 => h1 (memo1 m h2)
    lt := by
      intro m hm
      rcases cases' m hm with rfl | ⟨h1, _⟩
      · exact hn
      · exact h.lt m h1
    le := by
      intro m
      show put st.memo n v m ≤ 2
      by_cases e : m = n
      · subst e
        rw [put_same]
        omega
      · rw [put_other e]
        exact h.le m
    dep := by
      intro m hm
      show put st.memo n v m = 2 ↔ _
      rcases cases' m hm with rfl | ⟨h1, h2⟩
      · rw [put_same]
        exact hd
      · rw [put_other h2]
        exact h.dep m h1
    margs := by
      intro m hm a hma
      show put st.memo n v a ≠ 0
      have h1 : st.memo a ≠ 0 := by
        rcases cases' m hm with rfl | ⟨h1, _⟩
        · exact ha a hma
        · exact h.margs m h1 a hma
      rw [memo a h1]
      exact h1
    loop := by
      intro m hm
      rcases cases' m hm with rfl | ⟨h1, _⟩
      · exact hl
      · exact h.loop m h1
    new := by
      intro k h1 h2
      obtain ⟨h3, x, t, h4, h5, h6, h7⟩ := h.new k h1 h2
      exact ⟨h3, x, t, memo1 x h4, memo1 t h5, h6, h7⟩
    moved := by
      intro m hm
      exact ⟨(h.moved m hm).1, fun h1 => ⟨memo1 m ((h.moved m hm).2 h1).1, ((h.moved m hm).2 h1).2⟩⟩
    done := by
      intro m h1 h2 h3 a h4 h5
      have hne : m ≠ n := fun e => h2 (by rw [e])
      replace h1 : put st.memo n v m = 2 := h1
      replace h5 : put st.memo n v a = 1 := h5
      rw [put_other hne] at h1
      have h6 := h.margs m (by omega) a h4
      rw [memo a h6] at h5
      exact h.done m h1 (by simp) h3 a h4 h5 }

theorem Inv.finish {n : Nat} {st : St} (h : Inv nd0 N ix ends (some n) st)
    (hd : st.memo n = 2 → (nd0 n).kind ≠ .array → ∀ a, some a ∈ (nd0 n).args → st.memo a = 1 → Ready st.nd st.moved a) :
    Inv nd0 N ix ends none st :=
  { h with
    done := by
      intro m h1 _ h3 a h4 h5
      by_cases e : m = n
      · subst e
        exact hd h1 h3 a h4 h5
      · exact h.done m h1 (fun e' => e (by simpa using e'.symm)) h3 a h4 h5 }

theorem find_ok (hg : Graph nd0 N) (hix : ix < N) (hik : (nd0 ix).kind = .index) {R : Nat → Nat}
    (hR : ∀ n < N, ∀ a, some a ∈ (nd0 n).args → R a < R n) :
    ∀ (f n : Nat), n < N → R n < f → InLoop nd0 ends n → FindOk nd0 N ix ends (find ix f) n
  | 0, n, _, hf, _ => by omega
  | f + 1, n, hn, hf, hl => by
    intro st h
    have hsz := h.size
    have hc : ¬ st.cap ≤ n := by omega
    unfold find
    by_cases hm : st.memo n > 0
    · refine ⟨_, st, by simp only [hc, hm, if_false, if_true]; rfl, h, .refl, by omega, by simp⟩
    have hm0 : st.memo n = 0 := by omega
    have hnd : st.nd n = nd0 n := h.same n hn (by omega)
    by_cases hi : (st.nd n).kind = .index ∧ n = ix
    · obtain ⟨hi1, rfl⟩ := hi
      have hargs := hg.index n hn hik
      obtain ⟨h1, h2⟩ := h.mark hn (v := 2) (.inr rfl) (by simp [Depends.index]) (by simp [hargs]) hl
      refine ⟨false, _, by simp only [hc, hm, hi1, if_false, if_true, and_self], h1.finish (by simp [hargs]), h2, ?_, ?_⟩
      · show put st.memo n 2 n ≠ 0
        rw [put_same]
        simp
      · show _ ↔ put st.memo n 2 n = 1
        rw [put_same]
        simp
    have hne : n ≠ ix := fun e => hi ⟨by rw [hnd, e, hik], e⟩
    obtain ⟨na, ip, s, v1, v2, v3, v4, v5, v6⟩ := visitArgs_ok (g := find ix f) (st.nd n).args false false st (fun a ha => by
      rw [hnd] at ha
      exact find_ok hg hix hik hR f a (hg.closed n hn a ha) (by have := hR n hn a ha; omega) (.arg hl ha)) h
    rw [hnd] at v4 v5 v6
    simp only [Bool.false_eq_true, false_or] at v5 v6
    have hdep : ip = true ↔ Depends nd0 ix n := by
      rw [v6]
      constructor
      · rintro ⟨a, h1, h2⟩
        exact .arg h1 ((v2.dep a (by omega)).1 h2)
      · intro hd
        cases hd with
        | index => exact absurd rfl hne
        | arg h1 h2 => exact ⟨_, h1, (v2.dep _ (v4 _ h1)).2 h2⟩
    have hv : (if ip then 2 else 1) = 2 ↔ Depends nd0 ix n := by
      rw [← hdep]
      cases ip <;> simp
    obtain ⟨m1, m2⟩ := v2.mark hn (v := if ip then 2 else 1) (by cases ip <;> simp) hv v4 hl
    have hn' : put s.memo n (if ip then 2 else 1) n = if ip then 2 else 1 := put_same
    have hb : ((!ip) = true ↔ put s.memo n (if ip then 2 else 1) n = 1) := by
      rw [hn']
      cases ip <;> simp
    have hn0 : put s.memo n (if ip then 2 else 1) n ≠ 0 := by
      rw [hn']
      cases ip <;> simp
    have hk : (s.nd n).kind = (nd0 n).kind := v2.kind n hn
    -- the marks of the arguments
    have hmemo : ∀ a, some a ∈ (nd0 n).args → put s.memo n (if ip then 2 else 1) a = s.memo a := fun a ha => m2.memo a (v4 a ha)
    simp only [hc, hm, hi, if_false, v1]
    by_cases hka : (s.nd n).kind = .array
    · refine ⟨!ip, _, by simp only [hka, if_true], m1.finish ?_, v3.trans m2, hn0, hb⟩
      intro _ h2
      exact absurd (hk ▸ hka) h2
    by_cases hboth : (ip && na) = true
    · have hip : ip = true := by simp at hboth; exact hboth.1
      have hsn : s.nd n = nd0 n := m1.same n hn (by
        show put s.memo n (if ip then 2 else 1) n ≠ 1
        rw [hn', hip]
        simp)
      obtain ⟨s', k1, k2, k3, k4, k5, k6, k7⟩ := keepAll_ok hg (s.nd n).args _ m1 (fun a ha => hg.closed n hn a (by rw [← hsn]; exact ha))
      refine ⟨!ip, s', by simp only [hka, hboth, if_false, if_true, k1], k2.finish ?_, v3.trans (m2.trans ⟨fun m _ => by rw [k3], k4, k5⟩), ?_, ?_⟩
      · intro _ _ a ha h1
        rw [k3] at h1
        exact k6 a (by rw [hsn]; exact ha) h1
      · rw [k3]
        exact hn0
      · rw [k3]
        exact hb
    · refine ⟨!ip, _, by simp only [hka, hboth, if_false]; rfl, m1.finish ?_, v3.trans m2, hn0, hb⟩
      intro h1 _ a ha h2
      replace h1 : put s.memo n (if ip then 2 else 1) n = 2 := h1
      replace h2 : put s.memo n (if ip then 2 else 1) a = 1 := h2
      rw [hn'] at h1
      rw [hmemo a ha] at h2
      have hip : ip = true := by
        cases ip with
        | true => rfl
        | false => simp at h1
      have hna := v5.2 ⟨a, ha, h2⟩
      exact absurd (by simp [hip, hna]) hboth

theorem findEnds_ok (hg : Graph nd0 N) (hix : ix < N) (hik : (nd0 ix).kind = .index) {R : Nat → Nat}
    (hR : ∀ n < N, ∀ a, some a ∈ (nd0 n).args → R a < R n) {f : Nat} (hf : ∀ n < N, R n < f) :
    ∀ (l : List Nat) (st : St), (∀ n ∈ l, n < N ∧ n ∈ ends) → Inv nd0 N ix ends none st →
    ∃ st', findEnds f ix l st = .ok st' ∧ Inv nd0 N ix ends none st' ∧ (∀ n, st.memo n ≠ 0 → st'.memo n ≠ 0) ∧ ∀ n ∈ l, st'.memo n ≠ 0
  | [], st, _, h => ⟨st, rfl, h, fun _ h => h, fun n hn => by simp at hn⟩
  | n :: l, st, hl, h => by
    have hn := hl n (by simp)
    have hsz := h.size
    have h' : Inv nd0 N ix ends none { st with cap := st.size } :=
      { h with size := ⟨by show N ≤ st.size; omega, Nat.le_refl _⟩ }
    obtain ⟨b, s, g1, g2, g3, g4, _⟩ := find_ok hg hix hik hR f n hn.1 (hf n hn.1) (.last hn.2) _ h'
    obtain ⟨st', k1, k2, k3, k4⟩ := findEnds_ok hg hix hik hR hf l s (fun m hm => hl m (List.mem_cons_of_mem _ hm)) g2
    refine ⟨st', by unfold findEnds; simp only [g1]; exact k1, k2, ?_, ?_⟩
    · intro m hm
      exact k3 m (by rw [g3.memo m hm]; exact hm)
    · intro m hm
      rcases List.mem_cons.1 hm with rfl | hm
      · exact k3 _ g4
      · exact k4 m hm

theorem inv_init (hk : ∀ n < N, ∀ a, some a ∈ (nd0 n).args → a < N) : Inv nd0 N ix ends none ⟨nd0, N, fun _ => 0, N, []⟩ where
  size := ⟨Nat.le_refl _, Nat.le_refl _⟩
  kind := fun _ _ => rfl
  args := by
    intro n hn
    have : ∀ l : List (Option Nat), (∀ a, some a ∈ l → a < N) → List.Forall₂ (W N nd0 N) l l := by
      intro l
      induction l with
      | nil => exact fun _ => .nil
      | cons x l ih =>
        intro h
        refine .cons ?_ (ih fun a ha => h a (List.mem_cons_of_mem _ ha))
        cases x with
        | none => exact .none
        | some x => exact .node (h x (by simp))
    exact this _ (hk n hn)
  same := fun _ _ _ => rfl
  lt := fun _ h => absurd rfl h
  le := fun _ => Nat.zero_le _
  dep := fun _ h => absurd rfl h
  margs := fun _ h => absurd rfl h
  loop := fun _ h => absurd rfl h
  new := fun k h1 h2 => by
    replace h2 : k < N := h2
    omega
  moved := fun m hm => by simp at hm
  done := fun _ h => by simp at h

theorem forall2_mem {α β : Type} {P : α → β → Prop} {l : List α} {m : List β} (h : List.Forall₂ P l m) {b : β} (hb : b ∈ m) :
    ∃ a ∈ l, P a b := by
  induction h with
  | nil => simp at hb
  | cons h _ ih =>
    rcases List.mem_cons.1 hb with rfl | hb
    · exact ⟨_, by simp, h⟩
    · obtain ⟨a, h1, h2⟩ := ih hb
      exact ⟨a, List.mem_cons_of_mem _ h1, h2⟩

theorem forall2_mem' {α β : Type} {P : α → β → Prop} {l : List α} {m : List β} (h : List.Forall₂ P l m) {a : α} (ha : a ∈ l) :
    ∃ b ∈ m, P a b := by
  induction h with
  | nil => simp at ha
  | cons h _ ih =>
    rcases List.mem_cons.1 ha with rfl | ha
    · exact ⟨_, by simp, h⟩
    · obtain ⟨b, h1, h2⟩ := ih ha
      exact ⟨b, List.mem_cons_of_mem _ h1, h2⟩

section final
variable {e : Option Nat} {st : St} (h : Inv nd0 N ix ends e st)
include h

/-- the arguments in the graph afterwards stand for arguments in the first graph -/
theorem Inv.origin {n a : Nat} (hn : n < N) (ha : some a ∈ (st.nd n).args) :
    ∃ x, some x ∈ (nd0 n).args ∧ W N st.nd st.size (some x) (some a) := by
  obtain ⟨x, h1, h2⟩ := forall2_mem (h.args n hn) ha
  cases x with
  | some x => exact ⟨x, h1, h2⟩
  | none =>
    cases h2 with
    | assign h3 h4 h5 h6 =>
      obtain ⟨_, x, _, _, _, _, hw⟩ := h.new a h3 h4
      exact absurd (W.unique hw (.assign h3 h4 h5 h6)) (by simp)

theorem Inv.depends_fwd {n : Nat} (hd : Depends nd0 ix n) (hn : n < N) (hcl : ∀ n < N, ∀ a, some a ∈ (nd0 n).args → a < N) :
    Depends st.nd ix n := by
  induction hd with
  | index => exact .index
  | arg h1 _ ih =>
    have hd := ih (hcl _ hn _ h1)
    obtain ⟨b, h2, h3⟩ := forall2_mem' (h.args _ hn) h1
    -- the argument afterwards depends on the index too
    have : ∀ {x z}, W N st.nd st.size x z → ∀ a, x = some a → Depends st.nd ix a → ∃ c, z = some c ∧ Depends st.nd ix c := by
      intro x z hw
      induction hw with
      | none => intro a h; cases h
      | node _ => intro a h hd; cases h; exact ⟨_, rfl, hd⟩
      | assign _ _ h5 _ ih =>
        intro a h hd
        obtain ⟨c, rfl, hc⟩ := ih a h hd
        exact ⟨_, rfl, .arg (by rw [h5]; simp) hc⟩
    obtain ⟨c, rfl, hc⟩ := this h3 _ rfl hd
    exact .arg h2 hc

theorem Inv.depends_back {n : Nat} (hd : Depends st.nd ix n) (hix : ix < N) (hs : n < st.size) :
    ∀ x, W N st.nd st.size (some x) (some n) → Depends nd0 ix x := by
  induction hd with
  | index =>
    intro x hw
    cases hw with
    | node _ => exact .index
    | assign h1 _ _ _ => omega
  | @arg n a h1 hda ih =>
    have bound : ∀ {x a}, W N st.nd st.size x (some a) → a < st.size := by
      intro x a hw
      have := h.size
      cases hw with
      | node h => omega
      | assign _ h _ _ => exact h
    intro x hw
    cases hw with
    | node hx =>
      obtain ⟨y, h2, h3⟩ := h.origin hx h1
      exact .arg h2 (ih (bound h3) y h3)
    | assign h2 h3 h4 h5 =>
      rw [h4] at h1
      simp only [List.mem_cons, List.not_mem_nil, or_false] at h1
      subst h1
      exact ih (bound h5) x h5

theorem Inv.depends_old {n : Nat} (hn : n < N) (hix : ix < N) (hcl : ∀ n < N, ∀ a, some a ∈ (nd0 n).args → a < N) :
    Depends st.nd ix n ↔ Depends nd0 ix n :=
  ⟨fun hd => h.depends_back hd hix (by have := h.size; omega) n (.node hn), fun hd => h.depends_fwd hd hn hcl⟩

theorem Inv.depends_new {k : Nat} (h1 : N ≤ k) (h2 : k < st.size) (hix : ix < N) : ¬ Depends st.nd ix k := by
  intro hd
  obtain ⟨_, x, _, h3, _, _, h4⟩ := h.new k h1 h2
  exact (h.one (n := x) (by omega)).1 h3 (h.depends_back hd hix h2 x h4)

theorem Inv.moved_dep {m : Nat} (hm : m ∈ st.moved) (hix : ix < N) (hcl : ∀ n < N, ∀ a, some a ∈ (nd0 n).args → a < N) :
    ¬ Depends st.nd ix m := by
  obtain ⟨h1, h2⟩ := h.moved m hm
  by_cases hN : m < N
  · rw [h.depends_old hN hix hcl]
    exact (h.one (n := m) (by have := (h2 hN).1; omega)).1 (h2 hN).1
  · exact h.depends_new (by omega) h1 hix

/-- nodes of the loop afterwards are marked, or new -/
theorem Inv.inLoop {l : List Nat}
    (hl : ∀ n ∈ l, n < st.size ∧ (n < N → st.memo n ≠ 0)) {n : Nat} (hn : InLoop st.nd l n) :
    n < st.size ∧ (n < N → st.memo n ≠ 0) := by
  have hsz := h.size
  have mem : ∀ {x a}, W N st.nd st.size (some x) (some a) → st.memo x ≠ 0 → a < st.size ∧ (a < N → st.memo a ≠ 0) := by
    intro x a hw hx
    cases hw with
    | node h1 => exact ⟨by omega, fun _ => hx⟩
    | assign h1 h2 _ _ => exact ⟨h2, fun h3 => by omega⟩
  induction hn with
  | last h1 => exact hl _ h1
  | @arg n a _ ha ih =>
    by_cases hN : n < N
    · obtain ⟨x, h1, h2⟩ := h.origin hN ha
      exact mem h2 (h.margs n (ih.2 hN) x h1)
    · obtain ⟨_, x, t, h3, _, _, hw⟩ := h.new n (by omega) ih.1
      cases hw with
      | node h1 => omega
      | assign _ _ h5 h6 =>
        rw [h5] at ha
        simp only [List.mem_cons, List.not_mem_nil, or_false] at ha
        subst ha
        exact mem h6 (by omega)

/-- equations for the values afterwards are equations for the values before -/
theorem Inv.values {V : Type} {val : Nat → V} (hk : ∀ k, N ≤ k → k < st.size → ∀ z, st.nd k = ⟨.assign, [some z]⟩ → val k = val z) {n : Nat}
    (hn : n < N) : (st.nd n).args.map (Option.map val) = (nd0 n).args.map (Option.map val) := by
  have key : ∀ {x z}, W N st.nd st.size x z → Option.map val z = Option.map val x := by
    intro x z hw
    induction hw with
    | none => rfl
    | node _ => rfl
    | @assign x y z h1 h2 h3 h4 ih =>
      cases z with
      | some z => rw [← ih, Option.map_some, Option.map_some, hk y h1 h2 z h3]
      | none =>
        obtain ⟨_, w, _, _, _, _, hw⟩ := h.new y h1 h2
        have := W.unique hw (.assign h1 h2 h3 h4)
        subst this
        cases h4
  have := h.args n hn
  generalize (nd0 n).args = l at this ⊢
  generalize (st.nd n).args = m at this ⊢
  induction this with
  | nil => rfl
  | cons h1 _ ih => rw [List.map_cons, List.map_cons, key h1, ih]

end final

theorem rank_bound (R : Nat → Nat) (N : Nat) : ∃ fuel, ∀ n < N, R n < fuel := by
  induction N with
  | zero => exact ⟨0, fun n h => by omega⟩
  | succ N ih =>
    obtain ⟨f, hf⟩ := ih
    refine ⟨max f (R N + 1), fun n hn => ?_⟩
    by_cases h : n = N
    · subst h
      omega
    · have := hf n (by omega)
      omega

theorem visitArgs_mono {g g' : Nat → St → Except Err (Bool × St)} (h : ∀ a st r, g a st = .ok r → g' a st = .ok r) :
    ∀ (l : List (Option Nat)) (na ip : Bool) (st : St) (r), visitArgs g l na ip st = .ok r → visitArgs g' l na ip st = .ok r
  | [], _, _, _, _, hr => hr
  | none :: l, na, ip, st, r, hr => visitArgs_mono h l na ip st r hr
  | some a :: l, na, ip, st, r, hr => by
    unfold visitArgs at hr ⊢
    cases hga : g a st with
    | error e => simp only [hga] at hr; cases hr
    | ok p =>
      simp only [hga] at hr
      simp only [h a st p hga]
      exact visitArgs_mono h l _ _ _ r hr

theorem find_mono {ix : Nat} : ∀ (f n : Nat) (st : St) (r), find ix f n st = .ok r → find ix (f + 1) n st = .ok r
  | 0, _, _, _, hr => by cases hr
  | f + 1, n, st, r, hr => by
    unfold find at hr ⊢
    by_cases h1 : st.cap ≤ n
    · simp only [h1, if_true] at hr; cases hr
    simp only [h1, if_false] at hr ⊢
    by_cases h2 : st.memo n > 0
    · simp only [h2, if_true] at hr ⊢; exact hr
    simp only [h2, if_false] at hr ⊢
    by_cases h3 : (st.nd n).kind = .index ∧ n = ix
    · rw [if_pos h3] at hr ⊢; exact hr
    rw [if_neg h3] at hr ⊢
    cases hv : visitArgs (find ix f) (st.nd n).args false false st with
    | error e => simp only [hv] at hr; cases hr
    | ok p =>
      simp only [hv] at hr
      simp only [visitArgs_mono (find_mono f) _ _ _ _ _ hv]
      exact hr

theorem findEnds_mono {ix f f' : Nat} (hf : f ≤ f') : ∀ (l : List Nat) (st r : St), findEnds f ix l st = .ok r → findEnds f' ix l st = .ok r
  | [], _, _, hr => hr
  | n :: l, st, r, hr => by
    have up : ∀ d n st r, find ix f n st = .ok r → find ix (f + d) n st = .ok r := by
      intro d
      induction d with
      | zero => exact fun _ _ _ h => h
      | succ d ih => exact fun n st r h => find_mono _ _ _ _ (ih n st r h)
    unfold findEnds at hr ⊢
    cases hg : find ix f n { st with cap := st.size } with
    | error e => simp only [hg] at hr; cases hr
    | ok p =>
      obtain ⟨d, rfl⟩ := Nat.exists_eq_add_of_le hf
      simp only [hg] at hr
      simp only [up d _ _ _ hg]
      exact findEnds_mono hf l _ r hr

/-- a search which ended has the invariant, whatever the fuel -/
theorem locate_inv {nd : Nat → Node} {N ix : Nat} {ends : List Nat} (hg : Graph nd N) (hix : ix < N) (hik : (nd ix).kind = .index)
    (he : ∀ n ∈ ends, n < N) {f : Nat} {st : St} (h : locate f ix nd N ends = .ok st) :
    Inv nd N ix ends none st ∧ ∀ n ∈ ends, st.memo n ≠ 0 := by
  obtain ⟨R, hR⟩ := hg.acyclic
  obtain ⟨fuel, hf⟩ := rank_bound R N
  obtain ⟨st', h1, h2, _, h3⟩ := findEnds_ok (ends := ends) hg hix hik hR (f := max f fuel) (fun n hn => by have := hf n hn; omega) ends _
    (fun n hn => ⟨he n hn, hn⟩) (inv_init hg.closed)
  have h4 := findEnds_mono (Nat.le_max_left f fuel) ends _ _ h
  rw [h1] at h4
  cases h4
  exact ⟨h2, h3⟩

end Verif.Scopes.Move
