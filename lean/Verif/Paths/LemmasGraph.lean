import Verif.Paths.Lemmas
/- What `findPathGraph` computes. -/
namespace Verif.Paths
open Verif.Codegen

variable {α : Type} {G : Graph α}

theorem Reaches.refl (n : Nat) : Reaches G n n := ⟨[], route_nil.mpr rfl⟩

theorem Reaches.trans {a b c : Nat} (h : Reaches G a b) (h' : Reaches G b c) : Reaches G a c := by
  obtain ⟨p, hp⟩ := h
  obtain ⟨q, hq⟩ := h'
  exact ⟨p ++ q, route_append.mpr ⟨b, hp, hq⟩⟩

theorem Reaches.step {n i m : Nat} (h : (G n).args[i]? = some (.node m)) : Reaches G n m :=
  ⟨[i], route_cons.mpr ⟨m, h, route_nil.mpr rfl⟩⟩

theorem Reaches.rank_le {rank : Nat → Nat} (hr : Ranked G rank) {a b : Nat} (h : Reaches G a b) :
    rank b ≤ rank a := by
  obtain ⟨p, hp⟩ := h
  have := route_rank hr hp
  omega

theorem Reaches.antisymm {rank : Nat → Nat} (hr : Ranked G rank) {a b : Nat} (h : Reaches G a b)
    (h' : Reaches G b a) : a = b := by
  obtain ⟨p, hp⟩ := h
  have h1 := route_rank hr hp
  have h2 := h'.rank_le hr
  have : p = [] := by rw [← List.length_eq_zero_iff]; omega
  subst this
  exact route_nil.mp hp

/-- recorded arguments of a node -/
def argsOf (g : PGraph) (v : Nat) : List Nat := match g v with | some e => e.arguments | none => []
/-- recorded usages of a node -/
def useOf (g : PGraph) (v : Nat) : List (Nat × Nat) := match g v with | some e => e.usage | none => []

theorem argsOf_connect (g : PGraph) (n i m v : Nat) :
    argsOf (g.connect n i m) v = if v = n then argsOf g n ++ [i] else argsOf g v := by
  unfold argsOf PGraph.connect PGraph.modify
  by_cases h1 : v = m
  · subst h1
    by_cases h2 : v = n
    · subst h2; cases h : g v <;> simp
    · cases h : g v <;> simp [h2, h]
  · by_cases h2 : v = n
    · subst h2; cases h : g v <;> simp [h1]
    · simp [h1, h2]

theorem useOf_connect (g : PGraph) {n m : Nat} (hnm : m ≠ n) (i v : Nat) :
    useOf (g.connect n i m) v = if v = m then useOf g m ++ [(n, i)] else useOf g v := by
  unfold useOf PGraph.connect PGraph.modify
  by_cases h1 : v = m
  · subst h1
    cases h : g v <;> simp [hnm, h]
  · by_cases h2 : v = n
    · subst h2; cases h : g v <;> simp [h1]
    · simp [h1, h2]

theorem isSome_connect (g : PGraph) (n i m v : Nat) :
    (g.connect n i m v).isSome = true ↔ v = n ∨ v = m ∨ (g v).isSome = true := by
  unfold PGraph.connect PGraph.modify
  by_cases h1 : v = m
  · subst h1; simp
  · by_cases h2 : v = n
    · subst h2; simp [h1]
    · simp [h1, h2]

theorem argsOf_start (g : PGraph) (n v : Nat) : argsOf (g.modify n id) v = argsOf g v := by
  unfold argsOf PGraph.modify
  by_cases h1 : v = n
  · subst h1; cases h : g v <;> simp
  · simp [h1]

theorem useOf_start (g : PGraph) (n v : Nat) : useOf (g.modify n id) v = useOf g v := by
  unfold useOf PGraph.modify
  by_cases h1 : v = n
  · subst h1; cases h : g v <;> simp
  · simp [h1]

theorem isSome_start (g : PGraph) (n v : Nat) :
    (g.modify n id v).isSome = true ↔ v = n ∨ (g v).isSome = true := by
  unfold PGraph.modify
  by_cases h1 : v = n
  · subst h1; simp
  · simp [h1]

theorem argsOf_erase (g : PGraph) (n v : Nat) : argsOf (g.erase n) v = if v = n then [] else argsOf g v := by
  unfold argsOf PGraph.erase
  by_cases h1 : v = n <;> simp [h1]

theorem useOf_erase (g : PGraph) (n v : Nat) : useOf (g.erase n) v = if v = n then [] else useOf g v := by
  unfold useOf PGraph.erase
  by_cases h1 : v = n <;> simp [h1]

theorem isSome_erase (g : PGraph) (n v : Nat) :
    (g.erase n v).isSome = true ↔ v ≠ n ∧ (g v).isSome = true := by
  unfold PGraph.erase
  by_cases h1 : v = n <;> simp [h1]

theorem isSome_of_args {g : PGraph} {v : Nat} (h : argsOf g v ≠ []) : (g v).isSome = true := by
  unfold argsOf at h
  cases hg : g v with
  | none => rw [hg] at h; exact absurd rfl h
  | some e => rfl

/-- number of additional arguments over the nodes `l` -/
def extra (g : PGraph) (l : List Nat) : Nat := (l.map fun v => (argsOf g v).length - 1).sum

theorem extra_congr {g g' : PGraph} {l : List Nat} (h : ∀ v ∈ l, (argsOf g' v).length - 1 = (argsOf g v).length - 1) :
    extra g' l = extra g l := by
  unfold extra
  congr 1
  exact List.map_congr_left h

theorem extra_change {g g' : PGraph} {n : Nat} {l : List Nat} (hn : l.Nodup) (hm : n ∈ l)
    (h : ∀ v ∈ l, v ≠ n → argsOf g' v = argsOf g v) :
    extra g' l + ((argsOf g n).length - 1) = extra g l + ((argsOf g' n).length - 1) := by
  induction l with
  | nil => cases hm
  | cons a l ih =>
    rw [List.nodup_cons] at hn
    by_cases ha : a = n
    · subst ha
      have : extra g' l = extra g l := extra_congr fun v hv => by
        rw [h v (List.mem_cons_of_mem _ hv) (by rintro rfl; exact hn.1 hv)]
      unfold extra at this ⊢
      simp only [List.map_cons, List.sum_cons]
      omega
    · have hm' : n ∈ l := by
        rcases List.mem_cons.mp hm with h1 | h1
        · exact absurd h1.symm ha
        · exact h1
      have := ih hn.2 hm' fun v hv => h v (List.mem_cons_of_mem _ hv)
      have h2 := h a List.mem_cons_self ha
      unfold extra at this ⊢
      simp only [List.map_cons, List.sum_cons, h2]
      omega

/-- facts which hold at all times -/
structure Inv (G : Graph α) (T b0 : Nat) (st : GSt) : Prop where
  nodup : st.visited.Nodup
  target : T ∉ st.visited
  marked : ∀ v, v ≠ T → (st.graph v).isSome = true → v ∈ st.visited
  usage : ∀ m p i, (p, i) ∈ useOf st.graph m ↔ i ∈ argsOf st.graph p ∧ (G p).args[i]? = some (.node m)
  sound : ∀ p i, i ∈ argsOf st.graph p → ∃ m, (G p).args[i]? = some (.node m) ∧ (st.graph m).isSome = true ∧
    Reaches G m T
  sorted : ∀ p, (argsOf st.graph p).Pairwise (· < ·)
  leaf : argsOf st.graph T = []
  used : (st.graph T).isSome = true → useOf st.graph T ≠ []
  count : st.bifs = b0 + extra st.graph st.visited

/-- `v` has been searched completely -/
structure Exact (G : Graph α) (T : Nat) (st : GSt) (v : Nat) : Prop where
  closed : ∀ (i : Nat) m, (G v).args[i]? = some (.node m) → m = T ∨ m ∈ st.visited
  all : ∀ i is, Route G v (i :: is) T → i ∈ argsOf st.graph v
  none : (st.graph v).isSome = true → argsOf st.graph v ≠ []

/-- what a search below `n` changes -/
structure Frame (G : Graph α) (T n : Nat) (st st' : GSt) : Prop where
  keep : ∀ v ∈ st.visited, v ∈ st'.visited
  new : ∀ v ∈ st'.visited, v ∈ st.visited ∨ Reaches G n v
  args : ∀ v ∈ st.visited, argsOf st'.graph v = argsOf st.graph v
  some : ∀ v ∈ st.visited, (st'.graph v).isSome = (st.graph v).isSome
  mono : st.bifs ≤ st'.bifs

theorem Exact.frame {T n : Nat} {st st' : GSt} {v : Nat} (h : Exact G T st v) (hv : v ∈ st.visited)
    (hf : Frame G T n st st') : Exact G T st' v := by
  refine ⟨?_, ?_, ?_⟩
  · intro i m hi
    rcases h.closed i m hi with h1 | h1
    · exact .inl h1
    · exact .inr (hf.keep _ h1)
  · intro i is hi
    rw [hf.args v hv]; exact h.all i is hi
  · rw [hf.args v hv, hf.some v hv]; exact h.none

theorem Frame.refl (T n : Nat) (st : GSt) : Frame G T n st st :=
  ⟨fun _ h => h, fun _ h => .inl h, fun _ _ => rfl, fun _ _ => rfl, Nat.le_refl _⟩

structure GPost (G : Graph α) (rank : Nat → Nat) (T b0 maxB n : Nat) (st st' : GSt) (b : Bool) : Prop where
  inv : Inv G T b0 st'
  frame : Frame G T n st st'
  yes : b = true → Reaches G n T ∧ (n = T ∨ (st'.graph n).isSome = true)
  no : b = false → st'.bifs < maxB → ¬ Reaches G n T
  done : st'.bifs < maxB → (n = T ∨ n ∈ st'.visited) ∧
    ∀ v ∈ st'.visited, Exact G T st' v ∨ (v ∈ st.visited ∧ rank n < rank v)

/-- state within the loop over the arguments of `n` -/
structure GMid (G : Graph α) (rank : Nat → Nat) (T b0 maxB n i : Nat) (st0 st : GSt) (found : Bool) : Prop where
  inv : Inv G T b0 st
  frame : Frame G T n st0 st
  self : n ∈ st.visited
  some : (st.graph n).isSome = true
  old : n ∉ st0.visited
  bound : ∀ j ∈ argsOf st.graph n, j < i
  found : found = true ↔ argsOf st.graph n ≠ []
  fresh : useOf st.graph n = []
  args : st.bifs < maxB → ∀ j is, j < i → Route G n (j :: is) T → j ∈ argsOf st.graph n
  closed : st.bifs < maxB → ∀ (j : Nat) m, j < i → (G n).args[j]? = Option.some (.node m) → m = T ∨ m ∈ st.visited
  done : st.bifs < maxB → ∀ v ∈ st.visited, v = n ∨ Exact G T st v ∨ (v ∈ st0.visited ∧ rank n < rank v)

theorem graphArgs_spec {rank : Nat → Nat} (hrank : Ranked G rank) {T b0 maxB n : Nat} (hT : n ≠ T)
    {st0 : GSt} (f : Nat → GSt → Option (Bool × GSt))
    (hf : ∀ m st, rank m < rank n → Inv G T b0 st →
      (st.bifs < maxB → ∀ v ∈ st.visited, Exact G T st v ∨ rank m < rank v) →
      ∃ b st', f m st = some (b, st') ∧ GPost G rank T b0 maxB m st st' b)
    (hdone0 : st0.bifs < maxB → ∀ v ∈ st0.visited, Exact G T st0 v ∨ rank n < rank v) :
    ∀ (as : List (Arg α)) (i : Nat) (found : Bool) (st : GSt), (G n).args.drop i = as →
      GMid G rank T b0 maxB n i st0 st found →
      ∃ b st', graphArgs f n as i found st = some (b, st') ∧
        GMid G rank T b0 maxB n (G n).args.length st0 st' b := by
  intro as
  induction as with
  | nil =>
    intro i found st has h
    rw [List.drop_eq_nil_iff] at has
    refine ⟨found, st, rfl, { h with bound := ?_, args := ?_, closed := ?_ }⟩
    · intro j hj
      obtain ⟨m, hm, _⟩ := h.inv.sound n j hj
      exact (List.getElem?_eq_some_iff.mp hm).1
    · intro hb j is hj; exact h.args hb j is (by omega)
    · intro hb j m hj; exact h.closed hb j m (by omega)
  | cons a as ih =>
    intro i found st has h
    have hget : (G n).args[i]? = some a := by
      have := congrArg List.head? has
      rw [List.head?_drop] at this
      simpa using this
    have hdrop : (G n).args.drop (i + 1) = as := by
      rw [← List.drop_drop, has]; rfl
    cases a with
    | param v =>
      refine ih (i + 1) found st hdrop { h with bound := ?_, args := ?_, closed := ?_ }
      · intro j hj; have := h.bound j hj; omega
      · intro hb j is hj hr
        by_cases hji : j = i
        · subst hji
          obtain ⟨m, hm, _⟩ := route_cons.mp hr
          rw [hget] at hm; cases hm
        · exact h.args hb j is (by omega) hr
      · intro hb j m hj hm
        by_cases hji : j = i
        · subst hji; rw [hget] at hm; cases hm
        · exact h.closed hb j m (by omega) hm
    | node m =>
      have hrm : rank m < rank n := hrank n m (mem_kids_of hget)
      have hmn : m ≠ n := by rintro rfl; omega
      have hpred : st.bifs < maxB → ∀ v ∈ st.visited, Exact G T st v ∨ rank m < rank v := by
        intro hb v hv
        rcases h.done hb v hv with rfl | h1 | ⟨_, h1⟩
        · exact .inr hrm
        · exact .inl h1
        · exact .inr (by omega)
      obtain ⟨b, st', e, hp⟩ := hf m st hrm h.inv hpred
      have hbm : st'.bifs < maxB → st.bifs < maxB := fun hb => Nat.lt_of_le_of_lt hp.frame.mono hb
      have hself : n ∈ st'.visited := hp.frame.keep n h.self
      have hargs : argsOf st'.graph n = argsOf st.graph n := hp.frame.args n h.self
      have hsome : (st'.graph n).isSome = true := by rw [hp.frame.some n h.self]; exact h.some
      have hframe : Frame G T n st0 st' := by
        refine ⟨fun v hv => hp.frame.keep v (h.frame.keep v hv), ?_, ?_, ?_,
          Nat.le_trans h.frame.mono hp.frame.mono⟩
        · intro v hv
          rcases hp.frame.new v hv with h1 | h1
          · exact h.frame.new v h1
          · exact .inr ((Reaches.step hget).trans h1)
        · intro v hv; rw [hp.frame.args v (h.frame.keep v hv), h.frame.args v hv]
        · intro v hv; rw [hp.frame.some v (h.frame.keep v hv), h.frame.some v hv]
      have hfresh : useOf st'.graph n = [] := by
        rw [List.eq_nil_iff_forall_not_mem]
        rintro ⟨p, k⟩ hpk
        obtain ⟨h1, h2⟩ := (hp.inv.usage n p k).mp hpk
        have hrp : rank n < rank p := hrank p n (mem_kids_of h2)
        have hps : (st'.graph p).isSome = true := isSome_of_args (by intro h0; rw [h0] at h1; cases h1)
        by_cases hpT : p = T
        · subst hpT; rw [hp.inv.leaf] at h1; cases h1
        · rcases hp.frame.new p (hp.inv.marked p hpT hps) with h3 | h3
          · rw [hp.frame.args p h3] at h1
            have := (h.inv.usage n p k).mpr ⟨h1, h2⟩
            rw [h.fresh] at this; cases this
          · have := h3.rank_le hrank; omega
      have hdone : st'.bifs < maxB → ∀ v ∈ st'.visited, v = n ∨ Exact G T st' v ∨
          (v ∈ st0.visited ∧ rank n < rank v) := by
        intro hb v hv
        rcases (hp.done hb).2 v hv with h1 | ⟨h1, h2⟩
        · exact .inr (.inl h1)
        · rcases h.done (hbm hb) v h1 with h3 | h3 | h3
          · exact .inl h3
          · exact .inr (.inl (h3.frame h1 hp.frame))
          · exact .inr (.inr h3)
      rw [graphArgs, e]
      cases b with
      | false =>
        simp only
        refine ih (i + 1) found st' hdrop
          ⟨hp.inv, hframe, hself, hsome, h.old, ?_, ?_, hfresh, ?_, ?_, hdone⟩
        · rw [hargs]; intro j hj; have := h.bound j hj; omega
        · rw [hargs]; exact h.found
        · intro hb j is hj hr
          rw [hargs]
          by_cases hji : j = i
          · subst hji
            obtain ⟨m', hm', hr'⟩ := route_cons.mp hr
            rw [hget] at hm'; cases hm'
            exact absurd ⟨is, hr'⟩ (hp.no rfl hb)
          · exact h.args (hbm hb) j is (by omega) hr
        · intro hb j m' hj hm'
          by_cases hji : j = i
          · subst hji; rw [hget] at hm'; cases hm'
            exact (hp.done hb).1
          · rcases h.closed (hbm hb) j m' (by omega) hm' with h1 | h1
            · exact .inl h1
            · exact .inr (hp.frame.keep _ h1)
      | true =>
        simp only
        obtain ⟨hreach, hms⟩ := hp.yes rfl
        -- the state after `connect`, with a number of bifurcations `B`
        have hbound : ∀ j ∈ argsOf st'.graph n, j < i := by rw [hargs]; exact h.bound
        have hmid : ∀ B, B = st'.bifs + (if argsOf st.graph n = [] then 0 else 1) →
            GMid G rank T b0 maxB n (i + 1) st0
              { graph := st'.graph.connect n i m, bifs := B, visited := st'.visited } true := by
          intro B hB
          have hBle : st'.bifs ≤ B := by rw [hB]; omega
          have hinv : Inv G T b0 { graph := st'.graph.connect n i m, bifs := B, visited := st'.visited } := by
            refine ⟨hp.inv.nodup, hp.inv.target, ?_, ?_, ?_, ?_, ?_, ?_, ?_⟩
            · intro v hvT hv
              rcases (isSome_connect _ _ _ _ _).mp hv with h1 | h1 | h1
              · rw [h1]; exact hself
              · subst h1
                rcases hms with h2 | h2
                · exact absurd h2 hvT
                · exact hp.inv.marked v hvT h2
              · exact hp.inv.marked v hvT h1
            · intro m' p k
              simp only
              rw [useOf_connect _ hmn, argsOf_connect]
              by_cases h1 : m' = m
              · subst h1
                rw [if_pos rfl]
                simp only [List.mem_append, List.mem_singleton, Prod.mk.injEq]
                rw [hp.inv.usage]
                constructor
                · rintro (⟨h2, h3⟩ | ⟨rfl, rfl⟩)
                  · refine ⟨?_, h3⟩
                    split
                    · rename_i hpn; subst hpn; exact List.mem_append_left _ h2
                    · exact h2
                  · rw [if_pos rfl]; exact ⟨by simp, hget⟩
                · rintro ⟨h2, h3⟩
                  by_cases hpn : p = n
                  · subst hpn
                    rw [if_pos rfl] at h2
                    rcases List.mem_append.mp h2 with h2 | h2
                    · exact .inl ⟨h2, h3⟩
                    · simp only [List.mem_singleton] at h2; exact .inr ⟨rfl, h2⟩
                  · rw [if_neg hpn] at h2; exact .inl ⟨h2, h3⟩
              · rw [if_neg h1, hp.inv.usage]
                by_cases hpn : p = n
                · subst hpn
                  rw [if_pos rfl]
                  constructor
                  · rintro ⟨h2, h3⟩; exact ⟨List.mem_append_left _ h2, h3⟩
                  · rintro ⟨h2, h3⟩
                    rcases List.mem_append.mp h2 with h2 | h2
                    · exact ⟨h2, h3⟩
                    · simp only [List.mem_singleton] at h2; subst h2
                      rw [hget] at h3; cases h3; exact absurd rfl h1
                · rw [if_neg hpn]
            · intro p k hk
              simp only at hk ⊢
              rw [argsOf_connect] at hk
              by_cases hpn : p = n
              · subst hpn
                rw [if_pos rfl] at hk
                rcases List.mem_append.mp hk with hk | hk
                · obtain ⟨m', h1, h2, h3⟩ := hp.inv.sound p k hk
                  exact ⟨m', h1, (isSome_connect _ _ _ _ _).mpr (.inr (.inr h2)), h3⟩
                · simp only [List.mem_singleton] at hk; subst hk
                  exact ⟨m, hget, (isSome_connect _ _ _ _ _).mpr (.inr (.inl rfl)), hreach⟩
              · rw [if_neg hpn] at hk
                obtain ⟨m', h1, h2, h3⟩ := hp.inv.sound p k hk
                exact ⟨m', h1, (isSome_connect _ _ _ _ _).mpr (.inr (.inr h2)), h3⟩
            · intro p
              simp only
              rw [argsOf_connect]
              split
              · rw [List.pairwise_append]
                refine ⟨hp.inv.sorted n, by simp, ?_⟩
                intro a ha b hb
                simp only [List.mem_singleton] at hb; subst hb
                exact hbound a ha
              · exact hp.inv.sorted p
            · simp only
              rw [argsOf_connect, if_neg (fun h => hT h.symm)]; exact hp.inv.leaf
            · intro h1
              simp only at h1 ⊢
              rw [useOf_connect _ hmn]
              by_cases hTm : T = m
              · rw [if_pos hTm]; simp
              · rw [if_neg hTm]
                apply hp.inv.used
                rcases (isSome_connect _ _ _ _ _).mp h1 with h2 | h2 | h2
                · exact absurd h2.symm hT
                · exact absurd h2 hTm
                · exact h2
            · simp only
              have h1 := extra_change (g := st'.graph) (g' := st'.graph.connect n i m) hp.inv.nodup hself
                (fun v _ hv => by rw [argsOf_connect, if_neg hv])
              rw [argsOf_connect, if_pos rfl, List.length_append, List.length_singleton] at h1
              have h2 := hp.inv.count
              rw [hB]
              by_cases h0 : argsOf st.graph n = []
              · rw [if_pos h0]
                rw [hargs, h0] at h1
                simp at h1
                omega
              · rw [if_neg h0]
                have : (argsOf st'.graph n).length ≠ 0 := by
                  rw [hargs]; intro h3; exact h0 (List.length_eq_zero_iff.mp h3)
                omega
          refine ⟨hinv, ?_, hself, ?_, h.old, ?_, ?_, ?_, ?_, ?_, ?_⟩
          · refine ⟨hframe.keep, hframe.new, ?_, ?_, Nat.le_trans hframe.mono hBle⟩
            · intro v hv
              simp only
              rw [argsOf_connect, if_neg (by rintro rfl; exact h.old hv)]
              exact hframe.args v hv
            · intro v hv
              rw [← hframe.some v hv]
              simp only
              rw [Bool.eq_iff_iff, isSome_connect]
              constructor
              · rintro (h1 | h1 | h1)
                · subst h1; exact absurd hv h.old
                · subst h1
                  rcases hms with h2 | h2
                  · subst h2
                    exact absurd (hframe.keep _ hv) hp.inv.target
                  · exact h2
                · exact h1
              · intro h1; exact .inr (.inr h1)
          · simp only; rw [isSome_connect]; exact .inl rfl
          · simp only
            rw [argsOf_connect, if_pos rfl]
            intro j hj
            rcases List.mem_append.mp hj with hj | hj
            · have := hbound j hj; omega
            · simp only [List.mem_singleton] at hj; omega
          · simp only
            rw [argsOf_connect, if_pos rfl]; simp
          · simp only
            rw [useOf_connect _ hmn, if_neg (fun h => hmn h.symm)]; exact hfresh
          · intro hb j is hj hr
            simp only at hb ⊢
            rw [argsOf_connect, if_pos rfl]
            by_cases hji : j = i
            · rw [hji]; simp
            · apply List.mem_append_left
              rw [hargs]
              exact h.args (hbm (by omega)) j is (by omega) hr
          · intro hb j m' hj hm'
            simp only at hb ⊢
            by_cases hji : j = i
            · subst hji; rw [hget] at hm'; cases hm'
              exact (hp.done (by omega)).1
            · rcases h.closed (hbm (by omega)) j m' (by omega) hm' with h1 | h1
              · exact .inl h1
              · exact .inr (hp.frame.keep _ h1)
          · intro hb v hv
            simp only at hb hv ⊢
            by_cases hvn : v = n
            · exact .inl hvn
            · rcases hdone (by omega) v hv with h1 | h1 | h1
              · exact absurd h1 hvn
              · refine .inr (.inl ⟨h1.closed, ?_, ?_⟩)
                · intro k is hk
                  simp only
                  rw [argsOf_connect, if_neg hvn]; exact h1.all k is hk
                · intro h2
                  simp only at h2 ⊢
                  rw [argsOf_connect, if_neg hvn]
                  apply h1.none
                  rcases (isSome_connect _ _ _ _ _).mp h2 with h3 | h3 | h3
                  · exact absurd h3 hvn
                  · subst h3
                    rcases hms with h4 | h4
                    · subst h4; exact absurd hv hp.inv.target
                    · exact h4
                  · exact h3
              · exact .inr (.inr h1)
        by_cases hfd : found = true
        · rw [if_pos hfd]
          exact ih (i + 1) true _ hdrop (hmid (st'.bifs + 1) (by rw [if_neg (h.found.mp hfd)]))
        · rw [if_neg hfd]
          refine ih (i + 1) true _ hdrop (hmid st'.bifs ?_)
          have : argsOf st.graph n = [] := Classical.byContradiction fun h0 => hfd (h.found.mpr h0)
          rw [if_pos this]; rfl

theorem graphSearch_spec {rank : Nat → Nat} (hrank : Ranked G rank) {T b0 maxB : Nat} :
    ∀ (fuel n : Nat) (st : GSt), rank n < fuel → Inv G T b0 st →
      (st.bifs < maxB → ∀ v ∈ st.visited, Exact G T st v ∨ rank n < rank v) →
      ∃ b st', graphSearch G T maxB fuel n st = some (b, st') ∧ GPost G rank T b0 maxB n st st' b := by
  intro fuel
  induction fuel with
  | zero => intro n st h; omega
  | succ fuel ih =>
    intro n st hfuel hinv hpre
    rw [graphSearch]
    by_cases h1 : st.bifs ≥ maxB
    · rw [if_pos h1]
      exact ⟨false, st, rfl, hinv, .refl _ _ _, by simp, fun _ hb => by omega, fun hb => by omega⟩
    · rw [if_neg h1]
      have hlt : st.bifs < maxB := by omega
      have hsame : ∀ v ∈ st.visited, Exact G T st v ∨ (v ∈ st.visited ∧ rank n < rank v) := by
        intro v hv
        rcases hpre hlt v hv with h | h
        · exact .inl h
        · exact .inr ⟨hv, h⟩
      by_cases h2 : n = T
      · rw [if_pos h2]
        exact ⟨true, st, rfl, hinv, .refl _ _ _, fun _ => ⟨by rw [h2]; exact .refl _, .inl h2⟩, by simp,
          fun _ => ⟨.inl h2, hsame⟩⟩
      · rw [if_neg h2]
        by_cases h3 : (st.graph n).isSome = true
        · rw [if_pos h3]
          have hv := hinv.marked n h2 h3
          have hex : Exact G T st n := by
            rcases hpre hlt n hv with h | h
            · exact h
            · omega
          refine ⟨true, st, rfl, hinv, .refl _ _ _, fun _ => ⟨?_, .inr h3⟩, by simp,
            fun _ => ⟨.inr hv, hsame⟩⟩
          obtain ⟨i, hi⟩ := List.exists_mem_of_ne_nil _ (hex.none h3)
          obtain ⟨m, hm, _, hr⟩ := hinv.sound n i hi
          exact (Reaches.step hm).trans hr
        · rw [if_neg h3]
          by_cases h4 : n ∈ st.visited
          · rw [if_pos h4]
            have hex : Exact G T st n := by
              rcases hpre hlt n h4 with h | h
              · exact h
              · omega
            refine ⟨false, st, rfl, hinv, .refl _ _ _, by simp, ?_, fun _ => ⟨.inr h4, hsame⟩⟩
            rintro _ _ ⟨is, his⟩
            cases is with
            | nil => exact h2 (route_nil.mp his)
            | cons i is =>
              have := hex.all i is his
              exact h3 (isSome_of_args (by intro h0; rw [h0] at this; cases this))
          · rw [if_neg h4]
            have hgn : st.graph n = none := by
              cases hg : st.graph n with
              | none => rfl
              | some e => rw [hg] at h3; simp at h3
            have hargn : argsOf st.graph n = [] := by unfold argsOf; rw [hgn]
            have husen : useOf st.graph n = [] := by unfold useOf; rw [hgn]
            have hstart : GMid G rank T b0 maxB n 0 st
                { st with visited := n :: st.visited, graph := st.graph.modify n id } false := by
              refine ⟨⟨?_, ?_, ?_, ?_, ?_, ?_, ?_, ?_, ?_⟩, ⟨?_, ?_, ?_, ?_, Nat.le_refl _⟩, List.mem_cons_self, ?_, h4, ?_,
                ?_, ?_, ?_, ?_, ?_⟩
              · exact List.nodup_cons.mpr ⟨h4, hinv.nodup⟩
              · intro h5
                rcases List.mem_cons.mp h5 with h5 | h5
                · exact h2 h5.symm
                · exact hinv.target h5
              · intro v hvT hv
                rcases (isSome_start _ _ _).mp hv with h5 | h5
                · rw [h5]; exact List.mem_cons_self
                · exact List.mem_cons_of_mem _ (hinv.marked v hvT h5)
              · intro m p i
                simp only
                rw [useOf_start, argsOf_start]; exact hinv.usage m p i
              · intro p i hi
                simp only at hi ⊢
                rw [argsOf_start] at hi
                obtain ⟨m, h5, h6, h7⟩ := hinv.sound p i hi
                exact ⟨m, h5, (isSome_start _ _ _).mpr (.inr h6), h7⟩
              · intro p; simp only; rw [argsOf_start]; exact hinv.sorted p
              · simp only; rw [argsOf_start]; exact hinv.leaf
              · intro h5
                simp only at h5 ⊢
                rw [useOf_start]
                rcases (isSome_start _ _ _).mp h5 with h6 | h6
                · exact absurd h6.symm h2
                · exact hinv.used h6
              · simp only
                rw [hinv.count]
                have : extra (st.graph.modify n id) st.visited = extra st.graph st.visited :=
                  extra_congr fun v _ => by rw [argsOf_start]
                have h5 : argsOf (st.graph.modify n id) n = [] := by rw [argsOf_start]; exact hargn
                unfold extra at this ⊢
                rw [List.map_cons, List.sum_cons, h5]
                simp only [List.length_nil]
                omega
              · intro v hv; exact List.mem_cons_of_mem _ hv
              · intro v hv
                rcases List.mem_cons.mp hv with h5 | h5
                · right; rw [h5]; exact .refl _
                · exact .inl h5
              · intro v _; simp only; rw [argsOf_start]
              · intro v hv
                simp only
                rw [Bool.eq_iff_iff, isSome_start]
                constructor
                · rintro (h5 | h5)
                  · subst h5; exact absurd hv h4
                  · exact h5
                · exact .inr
              · simp only; rw [isSome_start]; exact .inl rfl
              · simp only; rw [argsOf_start, hargn]; intro j hj; cases hj
              · simp only; rw [argsOf_start, hargn]; simp
              · simp only; rw [useOf_start, husen]
              · intro _ j is hj; omega
              · intro _ j m hj; omega
              · intro _ v hv
                simp only at hv ⊢
                rcases List.mem_cons.mp hv with h5 | h5
                · exact .inl h5
                · rcases hpre hlt v h5 with h6 | h6
                  · refine .inr (.inl ⟨?_, ?_, ?_⟩)
                    · intro i m hi
                      rcases h6.closed i m hi with h7 | h7
                      · exact .inl h7
                      · exact .inr (List.mem_cons_of_mem _ h7)
                    · intro i is hi; simp only; rw [argsOf_start]; exact h6.all i is hi
                    · intro h7
                      simp only at h7 ⊢
                      rw [argsOf_start]
                      rcases (isSome_start _ _ _).mp h7 with h8 | h8
                      · subst h8; exact absurd h5 h4
                      · exact h6.none h8
                  · exact .inr (.inr ⟨h5, h6⟩)
            have hf : ∀ m st, rank m < rank n → Inv G T b0 st →
                (st.bifs < maxB → ∀ v ∈ st.visited, Exact G T st v ∨ rank m < rank v) →
                ∃ b st', graphSearch G T maxB fuel m st = some (b, st') ∧ GPost G rank T b0 maxB m st st' b :=
              fun m st hm => ih m st (by omega)
            obtain ⟨b, st', e, hm⟩ := graphArgs_spec hrank h2 (graphSearch G T maxB fuel) hf hpre
              (G n).args 0 false _ rfl hstart
            rw [e]
            have hexn : st'.bifs < maxB → b = true → Exact G T st' n := by
              intro hb hbt
              refine ⟨?_, ?_, fun _ => hm.found.mp hbt⟩
              · intro i m hi
                exact hm.closed hb i m (List.getElem?_eq_some_iff.mp hi).1 hi
              · intro i is hi
                obtain ⟨m, hm', _⟩ := route_cons.mp hi
                exact hm.args hb i is (List.getElem?_eq_some_iff.mp hm').1 hi
            cases b with
            | true =>
              simp only
              refine ⟨true, st', rfl, hm.inv, hm.frame, fun _ => ⟨?_, .inr hm.some⟩, by simp, ?_⟩
              · obtain ⟨i, hi⟩ := List.exists_mem_of_ne_nil _ (hm.found.mp rfl)
                obtain ⟨m, h5, _, h6⟩ := hm.inv.sound n i hi
                exact (Reaches.step h5).trans h6
              · intro hb
                refine ⟨.inr hm.self, ?_⟩
                intro v hv
                rcases hm.done hb v hv with rfl | h5 | h5
                · exact .inl (hexn hb rfl)
                · exact .inl h5
                · exact .inr h5
            | false =>
              simp only
              have hnil : argsOf st'.graph n = [] := by
                apply Classical.byContradiction
                intro h5
                have := hm.found.mpr h5
                cases this
              have hargs : ∀ v, argsOf (st'.graph.erase n) v = argsOf st'.graph v := by
                intro v
                rw [argsOf_erase]
                split
                · rename_i h5; rw [h5, hnil]
                · rfl
              have huse : ∀ v, useOf (st'.graph.erase n) v = useOf st'.graph v := by
                intro v
                rw [useOf_erase]
                split
                · rename_i h5; rw [h5, hm.fresh]
                · rfl
              refine ⟨false, _, rfl, ⟨hm.inv.nodup, hm.inv.target, ?_, ?_, ?_, ?_, ?_, ?_, ?_⟩,
                ⟨hm.frame.keep, hm.frame.new, ?_, ?_, hm.frame.mono⟩, by simp, ?_, ?_⟩
              · intro v hvT hv; exact hm.inv.marked v hvT ((isSome_erase _ _ _).mp hv).2
              · intro m p i
                simp only
                rw [huse, hargs]; exact hm.inv.usage m p i
              · intro p i hi
                simp only at hi ⊢
                rw [hargs] at hi
                obtain ⟨m, h5, h6, h7⟩ := hm.inv.sound p i hi
                refine ⟨m, h5, (isSome_erase _ _ _).mpr ⟨?_, h6⟩, h7⟩
                rintro rfl
                have := (hm.inv.usage m p i).mpr ⟨hi, h5⟩
                rw [hm.fresh] at this; cases this
              · intro p; simp only; rw [hargs]; exact hm.inv.sorted p
              · simp only; rw [hargs]; exact hm.inv.leaf
              · intro h5
                simp only at h5 ⊢
                rw [huse]
                exact hm.inv.used ((isSome_erase _ _ _).mp h5).2
              · simp only
                rw [hm.inv.count]
                congr 1
                exact (extra_congr fun v _ => by rw [hargs]).symm
              · intro v hv; simp only; rw [hargs]; exact hm.frame.args v hv
              · intro v hv
                rw [← hm.frame.some v hv]
                simp only
                rw [Bool.eq_iff_iff, isSome_erase]
                constructor
                · exact fun h5 => h5.2
                · intro h5; exact ⟨by rintro rfl; exact h4 hv, h5⟩
              · rintro _ hb ⟨is, his⟩
                cases is with
                | nil => exact h2 (route_nil.mp his)
                | cons i is =>
                  obtain ⟨m, hm', _⟩ := route_cons.mp his
                  have := hm.args hb i is (List.getElem?_eq_some_iff.mp hm').1 his
                  rw [hnil] at this; cases this
              · intro hb
                refine ⟨.inr hm.self, ?_⟩
                intro v hv
                simp only at hb hv ⊢
                rcases hm.done hb v hv with rfl | h5 | h5
                · refine .inl ⟨?_, ?_, ?_⟩
                  · intro i m hi
                    exact hm.closed hb i m (List.getElem?_eq_some_iff.mp hi).1 hi
                  · intro i is hi
                    simp only
                    rw [hargs]
                    obtain ⟨m, hm', _⟩ := route_cons.mp hi
                    exact hm.args hb i is (List.getElem?_eq_some_iff.mp hm').1 hi
                  · intro h6
                    exact absurd rfl ((isSome_erase _ _ _).mp h6).1
                · refine .inl ⟨h5.closed, ?_, ?_⟩
                  · intro i is hi; simp only; rw [hargs]; exact h5.all i is hi
                  · intro h6
                    simp only at h6 ⊢
                    rw [hargs]; exact h5.none ((isSome_erase _ _ _).mp h6).2
                · exact .inr h5

end Verif.Paths
