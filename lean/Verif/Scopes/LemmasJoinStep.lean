import Verif.Scopes.LemmasJoin

/-
Lemmas about the joining of conditionals: one step of the algorithm.
-/
namespace Verif.Scopes.Join

open Verif.Scopes Verif.Scopes.Order

/-- number of nodes below `N` with a property -/
def left (N : Nat) (p : Nat → Bool) : Nat := (List.range N).countP p

theorem left_mono {N : Nat} {p q : Nat → Bool} (h : ∀ i, q i = true → p i = true) : left N q ≤ left N p :=
  List.countP_mono_left fun i _ hi => h i hi

theorem countP_lt {l : List Nat} {p q : Nat → Bool} (h : ∀ i, q i = true → p i = true) {n : Nat} (hn : n ∈ l) (hp : p n = true)
    (hq : q n = false) : l.countP q < l.countP p := by
  induction l with
  | nil => cases hn
  | cons x l ih =>
    rw [List.countP_cons, List.countP_cons]
    have hm : l.countP q ≤ l.countP p := List.countP_mono_left fun i _ hi => h i hi
    rcases List.mem_cons.1 hn with rfl | hn
    · rw [hp, hq]; simp; omega
    · have := ih hn
      by_cases hx : q x = true
      · rw [hx, h x hx]; simp; omega
      · rw [if_neg hx]; omega

theorem left_lt {N : Nat} {p q : Nat → Bool} (h : ∀ i, q i = true → p i = true) {n : Nat} (hn : n < N) (hp : p n = true)
    (hq : q n = false) : left N q < left N p := countP_lt h (List.mem_range.2 hn) hp hq

/-- arguments of nodes in a set are in it -/
def Closed (K : Nat → Prop) (nd : Nat → Node) : Prop := ∀ n, K n → ∀ a ∈ (nd n).args, K a

/-- what the moved conditional changes -/
structure Keeps (s s1 : Nat) (st st' : JSt) : Prop where
  path : st'.path = st.path
  queue : st'.queue = st.queue
  op : ∀ n, (st'.nd n).op = (st.nd n).op
  sub : ∀ n, ∀ a ∈ (st'.nd n).args, a ∈ (st.nd n).args
  args : ∀ n, (st.nd n).op.isEnd = true ∨ (st.nd n).op = .condRes → (st'.nd n).args = (st.nd n).args
  scope : ∀ n, st.scope n ≠ s → st'.scope n = st.scope n
  moved : ∀ n, st'.scope n = st.scope n ∨ st'.scope n = s1
  visited : ∀ n, st.visited n = true → st'.visited n = true

theorem Keeps.rfl' {s s1 : Nat} {st : JSt} : Keeps s s1 st st :=
  ⟨rfl, rfl, fun _ => rfl, fun _ _ h => h, fun _ _ => rfl, fun _ _ => rfl, fun _ => .inl rfl, fun _ h => h⟩

theorem Keeps.trans {s s1 : Nat} {st st' st'' : JSt} (h : Keeps s s1 st st') (h' : Keeps s s1 st' st'') : Keeps s s1 st st'' := by
  refine ⟨h'.path.trans h.path, h'.queue.trans h.queue, fun n => (h'.op n).trans (h.op n), fun n a ha => h.sub n a (h'.sub n a ha), ?_, ?_, ?_,
    fun n hn => h'.visited n (h.visited n hn)⟩
  · intro n hn
    rw [h'.args n (by rw [h.op]; exact hn), h.args n hn]
  · intro n hn
    rw [h'.scope n (by rw [h.scope n hn]; exact hn), h.scope n hn]
  · intro n
    rcases h'.moved n with h1 | h1
    · rw [h1]; exact h.moved n
    · exact .inr h1

theorem Keeps.closed {s s1 : Nat} {st st' : JSt} (h : Keeps s s1 st st') {K : Nat → Prop} (hK : Closed K st.nd) : Closed K st'.nd :=
  fun n hn a ha => hK n hn a (h.sub n a ha)

theorem cutTmp_keeps {s s1 e1 n : Nat} (st : JSt) : Keeps s s1 st { st with visited := set1 st.visited n true, nd := cutTmp e1 n st.nd } := by
  have hop : ∀ m, (cutTmp e1 n st.nd m).op = (st.nd m).op := by
    intro m
    unfold cutTmp
    split
    · unfold set1; split
      · rename_i h; rw [h]
      · rfl
    · rfl
  refine ⟨rfl, rfl, hop, ?_, ?_, fun _ _ => rfl, fun _ => .inl rfl, ?_⟩
  · intro m a ha
    simp only at ha
    unfold cutTmp at ha
    split at ha
    · unfold set1 at ha
      split at ha
      · rename_i h; rw [h]; exact List.mem_of_mem_eraseIdx ha
      · exact ha
    · exact ha
  · intro m hm
    simp only
    unfold cutTmp
    split
    · rename_i hc
      unfold set1; split
      · rename_i h
        rw [h, hc.1] at hm
        rcases hm with h | h <;> cases h
      · rfl
    · rfl
  · intro m hm
    simp only
    unfold set1; split
    · rfl
    · exact hm

theorem cutStart_cases (e1 n : Nat) (nd : Nat → Node) : cutStart e1 n nd = nd ∨ ((nd n).op.isEnd = false ∧ (nd n).op ≠ .condRes ∧
    cutStart e1 n nd = set1 nd n ⟨(nd n).op, (nd n).args.filter (· ≠ e1)⟩) := by
  unfold cutStart
  cases h : (nd n).op <;> first | exact .inl rfl | exact .inr ⟨rfl, by simp, rfl⟩

theorem cutStart_keeps {s s1 e1 n : Nat} (st : JSt) : Keeps s s1 st { st with nd := cutStart e1 n st.nd } := by
  rcases cutStart_cases e1 n st.nd with h | ⟨h1, h2, h⟩
  · rw [h]; exact .rfl'
  rw [h]
  refine ⟨rfl, rfl, ?_, ?_, ?_, fun _ _ => rfl, fun _ => .inl rfl, fun _ h => h⟩
  · intro m
    simp only
    unfold set1; split
    · rename_i h; rw [h]
    · rfl
  · intro m a ha
    simp only at ha
    unfold set1 at ha
    split at ha
    · rename_i h; rw [h]; exact (List.mem_filter.1 ha).1
    · exact ha
  · intro m hm
    simp only
    unfold set1; split
    · rename_i h
      rw [h, h1] at hm
      rcases hm with h | h
      · cases h
      · exact absurd h h2
    · rfl

theorem contained_ok {path : Nat → List (Nat × Nat)} {n c : Nat} (hc : path c ≠ []) : ∃ r, contained path n c = .ok r := by
  unfold contained
  split
  · exact ⟨_, rfl⟩
  split
  · exact ⟨_, rfl⟩
  rename_i h
  have hl : 0 < (path c).length := List.length_pos_iff.2 hc
  have : (path c).length - 1 < (path n).length := by omega
  rw [List.getElem?_eq_getElem this]
  exact ⟨_, rfl⟩

/-- `breakCyclicDependency` ends and only cuts arguments -/
theorem breakCycle_ok {K : Nat → Prop} {N : Nat} (hKN : ∀ n, K n → n < N) {s s1 e1 : Nat} : ∀ f n (st : JSt), K n → Closed K st.nd →
    st.path s ≠ [] → left N (fun i => !st.visited i) < f → ∃ st', breakCycle s e1 f n st = .ok st' ∧ Keeps s s1 st st' := by
  intro f
  induction f with
  | zero => intro n st _ _ _ h; omega
  | succ f ih =>
    intro n st hn hcl hp hf
    unfold breakCycle
    by_cases hv : st.visited n = true
    · rw [if_pos hv]; exact ⟨st, rfl, .rfl'⟩
    rw [if_neg hv]
    simp only
    have k1 := cutTmp_keeps (s := s) (s1 := s1) (e1 := e1) (n := n) st
    obtain ⟨r, hr⟩ := contained_ok (path := st.path) (n := st.scope n) hp
    rw [hr]
    cases r with
    | false => exact ⟨_, rfl, k1⟩
    | true =>
      simp only
      have k2 := cutStart_keeps (s := s) (s1 := s1) (e1 := e1) (n := n)
        { st with visited := set1 st.visited n true, nd := cutTmp e1 n st.nd }
      have k3 := k1.trans k2
      have hm : left N (fun i => !(set1 st.visited n true) i) < f := by
        have : left N (fun i => !(set1 st.visited n true) i) < left N (fun i => !st.visited i) := by
          apply left_lt (n := n) _ (hKN n hn) (by simp [hv]) (by simp [set1])
          intro i hi
          unfold set1 at hi
          split at hi
          · cases hi
          · exact hi
        omega
      have hargs : ∀ a ∈ ((cutTmp e1 n st.nd n).args.filter (· ≠ e1)), K a := fun a ha => hcl n hn a (k1.sub n a (List.mem_filter.1 ha).1)
      have fold : ∀ (l : List Nat) (t : JSt), (∀ a ∈ l, K a) → Keeps s s1 st t → left N (fun i => !t.visited i) < f →
          ∃ t', l.foldlM (fun s' a => breakCycle s e1 f a s') t = .ok t' ∧ Keeps s s1 st t' := by
        intro l
        induction l with
        | nil => intro t _ ht _; exact ⟨t, rfl, ht⟩
        | cons a l ih2 =>
          intro t hl ht htf
          obtain ⟨u, hu, hku⟩ := ih a t (hl a (by simp)) (ht.closed hcl) (by rw [ht.path]; exact hp) htf
          rw [List.foldlM_cons, hu]
          refine ih2 u (fun x hx => hl x (by simp [hx])) (ht.trans hku) ?_
          refine Nat.lt_of_le_of_lt (left_mono fun i hi => ?_) htf
          cases hvi : t.visited i with
          | false => rfl
          | true => rw [hku.visited i hvi] at hi; cases hi
      exact fold _ _ hargs k3 hm

theorem setScope_keeps {s s1 n : Nat} (st : JSt) (h : st.scope n = s) : Keeps s s1 st { st with scope := set1 st.scope n s1 } := by
  refine ⟨rfl, rfl, fun _ => rfl, fun _ _ h => h, fun _ _ => rfl, ?_, ?_, fun _ h => h⟩
  · intro m hm
    exact set1_ne _ _ (by rintro rfl; exact hm h)
  · intro m
    by_cases hm : m = n
    · subst hm; exact .inr (set1_self _ _ _)
    · exact .inl (set1_ne _ _ hm)

/-- `replaceScope` ends and only changes scopes -/
theorem replaceScope_ok {K : Nat → Prop} {N : Nat} (hKN : ∀ n, K n → n < N) {s s1 : Nat} (hss : s ≠ s1) : ∀ f n (st : JSt), K n → Closed K st.nd →
    left N (fun i => decide (st.scope i = s)) < f → ∃ st', replaceScope s s1 f n st = .ok st' ∧ Keeps s s1 st st' := by
  intro f
  induction f with
  | zero => intro n st _ _ h; omega
  | succ f ih =>
    intro n st hn hcl hf
    unfold replaceScope
    by_cases hv : st.scope n = s
    · rw [if_neg (by simpa using hv)]
      have k1 := setScope_keeps (s1 := s1) st hv
      have hm : left N (fun i => decide ((set1 st.scope n s1) i = s)) < f := by
        have : left N (fun i => decide ((set1 st.scope n s1) i = s)) < left N (fun i => decide (st.scope i = s)) := by
          apply left_lt (n := n) _ (hKN n hn) (by simp [hv]) (by simp [set1, hss.symm])
          intro i hi
          unfold set1 at hi
          split at hi
          · simp [hss.symm] at hi
          · exact hi
        omega
      have fold : ∀ (l : List Nat) (t : JSt), (∀ a ∈ l, K a) → Keeps s s1 st t → left N (fun i => decide (t.scope i = s)) < f →
          ∃ t', l.foldlM (fun s' a => replaceScope s s1 f a s') t = .ok t' ∧ Keeps s s1 st t' := by
        intro l
        induction l with
        | nil => intro t _ ht _; exact ⟨t, rfl, ht⟩
        | cons a l ih2 =>
          intro t hl ht htf
          obtain ⟨u, hu, hku⟩ := ih a t (hl a (by simp)) (ht.closed hcl) htf
          rw [List.foldlM_cons, hu]
          refine ih2 u (fun x hx => hl x (by simp [hx])) (ht.trans hku) ?_
          refine Nat.lt_of_le_of_lt (left_mono fun i hi => ?_) htf
          rcases hku.moved i with h | h
          · rw [← h]; exact hi
          · rw [h] at hi; simp [hss.symm] at hi
      exact fold _ _ (fun a ha => hcl n hn a ha) k1 hm
    · rw [if_pos hv]; exact ⟨st, rfl, .rfl'⟩

theorem left_le {N : Nat} (p : Nat → Bool) : left N p ≤ N := by
  have := List.countP_le_length (p := p) (l := List.range N)
  rw [List.length_range] at this
  exact this

theorem moveResults_ok {K : Nat → Prop} {N : Nat} (hKN : ∀ n, K n → n < N) {s s1 e1 fuel : Nat} (hss : s ≠ s1) (hf : N < fuel)
    {results : List Nat} (hr : ∀ r ∈ results, K r) {st : JSt} (hcl : Closed K st.nd) (hp : st.path s ≠ []) :
    ∃ st', moveResults fuel s s1 e1 results st = .ok st' ∧ Keeps s s1 { st with visited := fun _ => false } st' := by
  unfold moveResults
  have fold : ∀ (l : List Nat) (t : JSt), (∀ a ∈ l, K a) → Keeps s s1 { st with visited := fun _ => false } t →
      ∃ t', l.foldlM (fun st r =>
        match breakCycle s e1 fuel r st with
        | .error x => .error x
        | .ok st => replaceScope s s1 fuel r st) t = Except.ok t' ∧ Keeps s s1 { st with visited := fun _ => false } t' := by
    intro l
    induction l with
    | nil => intro t _ ht; exact ⟨t, rfl, ht⟩
    | cons a l ih =>
      intro t hl ht
      have hct : Closed K t.nd := ht.closed hcl
      obtain ⟨u, hu, hku⟩ := breakCycle_ok (s1 := s1) (e1 := e1) hKN fuel a t (hl a (by simp)) hct (by rw [ht.path]; exact hp)
        (Nat.lt_of_le_of_lt (left_le _) hf)
      obtain ⟨w, hw, hkw⟩ := replaceScope_ok hKN hss fuel a u (hl a (by simp)) (hku.closed hct) (Nat.lt_of_le_of_lt (left_le _) hf)
      rw [List.foldlM_cons, hu]
      simp only
      rw [hw]
      exact ih w (fun x hx => hl x (by simp [hx])) ((ht.trans hku).trans hkw)
  exact fold results _ hr .rfl'

/-- the first argument of the results is replaced -/
structure Starts (b1 : Nat) (results : List Nat) (st st' : JSt) : Prop where
  path : st'.path = st.path
  queue : st'.queue = st.queue
  scope : st'.scope = st.scope
  op : ∀ n, (st'.nd n).op = (st.nd n).op
  other : ∀ n, n ∉ results → st'.nd n = st.nd n
  ne : ∀ n, (st.nd n).args ≠ [] → (st'.nd n).args ≠ []
  sub : ∀ n, ∀ a ∈ (st'.nd n).args, a ∈ (st.nd n).args ∨ a = b1

theorem setStart_ok {b1 : Nat} : ∀ (results : List Nat) (st : JSt), (∀ r ∈ results, (st.nd r).args ≠ []) →
    ∃ st', setStart b1 results st = .ok st' ∧ Starts b1 results st st' := by
  intro results
  induction results with
  | nil => intro st _; exact ⟨st, rfl, rfl, rfl, rfl, fun _ => rfl, fun _ _ => rfl, fun _ h => h, fun _ _ h => .inl h⟩
  | cons r l ih =>
    intro st h
    unfold setStart
    rw [List.foldlM_cons]
    cases hn : st.nd r with
    | mk op args =>
      cases args with
      | nil => exact absurd (by rw [hn]) (h r (by simp))
      | cons a as =>
        obtain ⟨st', h1, h2⟩ := ih { st with nd := set1 st.nd r ⟨op, b1 :: as⟩ } (by
          intro r' hr'
          simp only
          unfold set1; split
          · simp
          · exact h r' (by simp [hr']))
        refine ⟨st', h1, h2.path, h2.queue, h2.scope, ?_, ?_, ?_, ?_⟩
        · intro n
          rw [h2.op]
          simp only
          unfold set1; split
          · rename_i h; rw [h, hn]
          · rfl
        · intro n hnr
          rw [h2.other n (by simp at hnr; exact hnr.2)]
          exact set1_ne _ _ (by simp at hnr; exact hnr.1)
        · intro n hne
          apply h2.ne
          simp only
          unfold set1; split
          · simp
          · exact hne
        · intro n x hx
          rcases h2.sub n x hx with h | h
          · simp only at h
            unfold set1 at h
            split at h
            · rename_i hnr
              rw [hnr, hn]
              rcases List.mem_cons.1 h with h | h
              · exact .inr h
              · exact .inl (by simp [h])
            · exact .inl h
          · exact .inr h

/-- the scopes in a state -/
def pl (st : JSt) : Placed := ⟨st.nd, st.scope, st.path⟩

theorem join_ok {K : Nat → Prop} {N fuel : Nat} (hKN : ∀ n, K n → n < N) (hf : N < fuel) {st : JSt} (hcl : Closed K st.nd)
    (hS : Shape (pl st) st.queue) {c e1 b1 e b : Nat} {rs : List (Nat × Nat)} {pre ds post as as1 : List Nat}
    (hq : st.queue c = pre ++ e1 :: (ds ++ e :: post)) (hds : ∀ d ∈ ds, (st.nd d).op = .tmpDcl) (oe : (st.nd e).op = .endIf)
    (oe1 : (st.nd e1).op = .endIf) (ob : (st.nd b).op = .startIf rs) (ob1 : (st.nd b1).op = .startIf rs) (ha : (st.nd e).args = b :: as)
    (ha1 : (st.nd e1).args = b1 :: as1) (ke : K e) (ke1 : K e1) :
    ∃ st' q1 qs, join fuel c pre.length (pre.length + 1 + ds.length) e1 b1 e b st = .ok st' ∧
      Joins (pl st) st.queue (pl st') st'.queue c e1 b1 e b rs pre ds post q1 qs ∧ Closed K st'.nd := by
  have me : e ∈ st.queue c := by rw [hq]; simp
  have me1 : e1 ∈ st.queue c := by rw [hq]; simp
  have ie : ((pl st).nd e).op.isEnd = true := by show (st.nd e).op.isEnd = true; rw [oe]; rfl
  have ie1 : ((pl st).nd e1).op.isEnd = true := by show (st.nd e1).op.isEnd = true; rw [oe1]; rfl
  have ente : ent (pl st) e = st.scope b := ent_eq (P := pl st) ha
  have ente1 : ent (pl st) e1 = st.scope b1 := ent_eq (P := pl st) ha1
  obtain ⟨b', as', qs, h1, hqs, s0, -, hres⟩ := hS.ends c e me ie
  obtain ⟨rfl, rfl⟩ := List.cons.inj (ha.symm.trans h1)
  obtain ⟨b1', as1', q1, h1', hq1, s10, -, -⟩ := hS.ends c e1 me1 ie1
  obtain ⟨rfl, rfl⟩ := List.cons.inj (ha1.symm.trans h1')
  replace hqs : st.queue (st.scope b) = b :: qs := hqs
  replace hq1 : st.queue (st.scope b1) = b1 :: q1 := hq1
  replace hres : ∀ r ∈ as, (st.nd r).op = .condRes ∧ (st.nd r).args ≠ [] := hres oe
  have ee : e1 ≠ e := by
    rintro rfl
    have := hS.nodup c
    rw [hq] at this
    simp [List.nodup_append, List.nodup_cons] at this
  have ss : st.scope b ≠ st.scope b1 := by
    intro h
    exact ee (hS.uniq c c e1 me1 e me ie1 ie (by rw [ente, ente1, h]))
  obtain ⟨R, hR⟩ := hS.rank
  have cs : c ≠ st.scope b := by
    intro h
    have := hR c e me ie
    rw [ente, ← h] at this; omega
  have cs1 : c ≠ st.scope b1 := by
    intro h
    have := hR c e1 me1 ie1
    rw [ente1, ← h] at this; omega
  have kr : ∀ r ∈ as, K r := fun r hr => hcl e ke r (by rw [ha]; simp [hr])
  have kb1 : K b1 := hcl e1 ke1 b1 (by rw [ha1]; simp)
  obtain ⟨t, ht, kt⟩ := moveResults_ok (e1 := e1) hKN ss hf kr hcl (hS.paths _ s0 (by rw [hqs]; simp))
  have tq : t.queue = st.queue := kt.queue
  have tra : ∀ r ∈ as, (t.nd r).args ≠ [] := fun r hr => by
    rw [kt.args r (.inr (hres r hr).1)]; exact (hres r hr).2
  obtain ⟨u, hu, ku⟩ := setStart_ok (b1 := b1) as
    { t with queue := set1 (set1 t.queue (st.scope b1) (t.queue (st.scope b1) ++ qs)) (st.scope b) [] } tra
  have na : ∀ n, (st.nd n).op ≠ .condRes → n ∉ as := fun n hn h => hn (hres n h).1
  have ea1 : (u.nd e1).args = b1 :: as1 := by
    rw [ku.other e1 (na e1 (by rw [oe1]; simp))]
    show (t.nd e1).args = _
    rw [kt.args e1 (.inl ie1)]; exact ha1
  have uop : ∀ n, (u.nd n).op = (st.nd n).op := fun n => (ku.op n).trans (kt.op n)
  have huq : u.queue = set1 (set1 st.queue (st.scope b1) (st.queue (st.scope b1) ++ qs)) (st.scope b) [] := by
    rw [ku.queue]; simp only; rw [tq]
  have huc : u.queue c = pre ++ e1 :: (ds ++ e :: post) := by
    rw [huq, set1_ne _ _ cs, set1_ne _ _ cs1, hq]
  have hrun : join fuel c pre.length (pre.length + 1 + ds.length) e1 b1 e b st = .ok { u with
      nd := set1 (set1 u.nd e1 ⟨(u.nd e1).op, (u.nd e1).args ++ as⟩) e ⟨.plain, [e1]⟩
      queue := set1 u.queue c (pre ++ ds ++ e1 :: post) } := by
    unfold join
    simp only
    rw [show (st.nd e).args.tail = as by rw [ha]; rfl, ht]
    simp only
    rw [show t.queue (st.scope b) = b :: qs by rw [tq, hqs]]
    simp only
    rw [hu]
    simp only
    rw [huc]
    have e1' : (pre ++ e1 :: (ds ++ e :: post)).take pre.length = pre := List.take_left
    have e2' : (pre ++ e1 :: (ds ++ e :: post)).drop (pre.length + 1) = ds ++ e :: post := by
      rw [show pre ++ e1 :: (ds ++ e :: post) = (pre ++ [e1]) ++ (ds ++ e :: post) by simp]
      exact List.drop_left' (by simp)
    have e3' : (pre ++ e1 :: (ds ++ e :: post)).drop (pre.length + 1 + ds.length + 1) = post := by
      rw [show pre ++ e1 :: (ds ++ e :: post) = (pre ++ e1 :: (ds ++ [e])) ++ post by simp]
      exact List.drop_left' (by simp; omega)
    rw [e1', e2', e3', show pre.length + 1 + ds.length - 1 - pre.length = ds.length by omega, List.take_left]
  refine ⟨_, q1, qs, hrun, ?_, ?_⟩
  · constructor
    · exact oe
    · exact oe1
    · exact ob
    · exact ob1
    · exact ⟨_, ha⟩
    · exact ⟨_, ha1⟩
    · exact hq
    · exact hds
    · exact hqs
    · exact hq1
    · show set1 _ _ _ c = _
      rw [set1_self]; simp
    · show set1 _ _ _ (st.scope b) = _
      rw [set1_ne _ _ cs.symm, huq, set1_self]
    · show set1 _ _ _ (st.scope b1) = _
      rw [set1_ne _ _ cs1.symm, huq, set1_ne _ _ ss.symm, set1_self, hq1]; rfl
    · intro x h1 h2 h3
      replace h2 : x ≠ st.scope b := h2
      replace h3 : x ≠ st.scope b1 := h3
      show set1 _ _ _ x = _
      rw [set1_ne _ _ h1, huq, set1_ne _ _ h2, set1_ne _ _ h3]
    · intro n hn
      show Node.op (set1 _ _ _ n) = _
      rw [set1_ne _ _ hn]
      by_cases h : n = e1
      · subst h; rw [set1_self]; exact uop n
      · rw [set1_ne _ _ h]; exact uop n
    · show Node.op (set1 _ _ _ e) = _
      rw [set1_self]
    · intro n hn hen b' as' hb'
      show ∃ as'', Node.args (set1 _ _ _ n) = _ ∧ _
      rw [set1_ne _ _ hn]
      by_cases h : n = e1
      · subst h
        obtain ⟨rfl, rfl⟩ := List.cons.inj (ha1.symm.trans hb')
        refine ⟨as1 ++ as, ?_, ?_⟩
        · rw [set1_self]; simp only; rw [ea1]; rfl
        · intro r hr
          show r ∈ as1 ∨ r ∈ (st.nd e).args.tail
          rw [ha]
          exact List.mem_append.1 hr
      · refine ⟨as', ?_, fun r hr => .inl hr⟩
        rw [set1_ne _ _ h, ku.other n (na n (by intro hc; replace hen : (st.nd n).op.isEnd = true := hen; rw [hc] at hen; cases hen))]
        show (t.nd n).args = _
        rw [kt.args n (.inl hen)]; exact hb'
    · intro r hr hne
      show Node.args (set1 _ _ _ r) ≠ []
      replace hr : (st.nd r).op = .condRes := hr
      rw [set1_ne _ _ (by rintro rfl; rw [oe] at hr; cases hr), set1_ne _ _ (by rintro rfl; rw [oe1] at hr; cases hr)]
      apply ku.ne
      show (t.nd r).args ≠ []
      rw [kt.args r (.inr hr)]; exact hne
    · intro x hx
      show u.scope x = _
      rw [ku.scope]
      exact kt.scope x hx
    · show u.path = _
      rw [ku.path]; exact kt.path
  · intro n kn a han
    simp only at han
    have hu : ∀ n, K n → ∀ a ∈ (u.nd n).args, K a := by
      intro n kn a h
      rcases ku.sub n a h with h | h
      · exact hcl n kn a (kt.sub n a h)
      · rw [h]; exact kb1
    unfold set1 at han
    split at han
    · simp at han; rw [han]; exact ke1
    · split at han
      · simp only at han
        rcases List.mem_append.1 han with h | h
        · exact hu e1 ke1 a h
        · exact kr a h
      · exact hu n kn a han

theorem previous_some {nd : Nat → Node} {v : List Nat} : ∀ {p p1 : Nat}, p < v.length → previous nd v p = some p1 → ∃ pre e1 ds post,
    v = pre ++ e1 :: (ds ++ post) ∧ pre.length = p1 ∧ pre.length + 1 + ds.length = p ∧ (∀ d ∈ ds, (nd d).op = .tmpDcl) ∧ (nd e1).op ≠ .tmpDcl := by
  intro p
  induction p with
  | zero => intro p1 _ h; cases h
  | succ p ih =>
    intro p1 hp h
    unfold previous at h
    rw [List.getElem?_eq_getElem (by omega)] at h
    simp only at h
    split at h
    · rename_i ht
      obtain ⟨pre, e1, ds, post, h1, h2, h3, h4, h5⟩ := ih (by omega) h
      have hpost : ∃ post', post = v[p] :: post' := by
        cases post with
        | nil =>
          have := congrArg List.length h1
          simp at this; omega
        | cons x post' =>
          refine ⟨post', ?_⟩
          have : v[p]? = some x := by
            rw [h1, List.getElem?_append_right (by omega), List.getElem?_cons]
            rw [if_neg (by omega), List.getElem?_append_right (by omega), show p - pre.length - 1 - ds.length = 0 by omega]
            rfl
          rw [List.getElem?_eq_getElem (by omega)] at this
          simp at this
          rw [this]
      obtain ⟨post', rfl⟩ := hpost
      refine ⟨pre, e1, ds ++ [v[p]], post', by rw [List.append_assoc]; exact h1, h2, by simp; omega, ?_, h5⟩
      intro d hd
      rcases List.mem_append.1 hd with hd | hd
      · exact h4 d hd
      · simp at hd; rw [hd]; exact ht
    · rename_i ht
      cases h
      exact ⟨v.take p, v[p], [], v.drop (p + 1), by simp, by simp; omega, by simp; omega, by simp, ht⟩

theorem previous_none {nd : Nat → Node} {v : List Nat} : ∀ {p : Nat}, p < v.length → previous nd v p = none → ∀ i, (h : i < p) → ∃ n, v[i]? = some n ∧ (nd n).op = .tmpDcl := by
  intro p
  induction p with
  | zero => intro _ _ i h; omega
  | succ p ih =>
    intro hp h i hi
    unfold previous at h
    rw [List.getElem?_eq_getElem (by omega)] at h
    simp only at h
    split at h
    · rename_i ht
      by_cases hip : i = p
      · subst hip; exact ⟨v[i], List.getElem?_eq_getElem (by omega), ht⟩
      · exact ih (by omega) h i (by omega)
    · cases h

end Verif.Scopes.Join
