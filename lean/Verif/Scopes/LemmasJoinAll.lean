import Mathlib.Data.List.Nodup
import Verif.Scopes.LemmasJoinStep
import Verif.Scopes.LemmasFlat

/-
Lemmas about the joining of conditionals: all steps.
-/
namespace Verif.Scopes.Join

open Verif.Scopes Verif.Scopes.Order

/-- a state with code which does the same as `l0` -/
structure Good (op : Nat → Op) (K : Nat → Prop) (l0 : List Nat) (fuel size : Nat) (st : JSt) : Prop where
  shape : Shape (pl st) st.queue
  closed : Closed K st.nd
  known : ∀ c, ∀ x ∈ st.queue c, K x
  top : ∀ x ∈ st.queue 0, (st.nd x).op ≠ .endIf
  few : ∀ c, size ≤ c → st.queue c = []
  code : ∃ l, flat (pl st) st.queue fuel 0 = .ok l ∧ Same op l0 l ∧ (∀ n ∈ l, (st.nd n).op = op n) ∧ ∀ x, x ∈ l ↔ ∃ c, x ∈ st.queue c

section
variable {op : Nat → Op} {K : Nat → Prop} {N fuel size : Nat} {l0 : List Nat} {st : JSt}

theorem Good.join (hG : Good op K l0 fuel size st) {st' : JSt} {c e1 b1 e b : Nat} {rs : List (Nat × Nat)} {pre ds post q1 qs : List Nat}
    (hJ : Joins (pl st) st.queue (pl st') st'.queue c e1 b1 e b rs pre ds post q1 qs) (hK : Closed K st'.nd) : Good op K l0 fuel size st' := by
  have hS := hG.shape
  have hap := hJ.apart hS
  have hmem : ∀ x, (∃ c', x ∈ st'.queue c') ↔ (∃ c', x ∈ st.queue c') ∧ x ≠ b ∧ x ≠ e := by
    intro x
    constructor
    · rintro ⟨c', hx⟩
      obtain ⟨h1, h2, -, h3⟩ := hJ.mem hS hx
      refine ⟨?_, h2, h1⟩
      rcases h3 with h3 | h3
      · exact ⟨_, h3⟩
      · exact ⟨_, h3.2⟩
    · rintro ⟨⟨c', hx⟩, hb, he⟩
      by_cases h1 : c' = c
      · refine ⟨c, ?_⟩
        rw [hJ.qc']
        rw [h1, hJ.qc] at hx
        simp only [List.mem_append, List.mem_cons] at hx ⊢
        rcases hx with h | h | h | h | h
        · exact .inl h
        · exact .inr (.inr (.inl h))
        · exact .inr (.inl h)
        · exact absurd h he
        · exact .inr (.inr (.inr h))
      · by_cases h2 : c' = (pl st).scope b
        · refine ⟨(pl st).scope b1, ?_⟩
          rw [hJ.q1']
          rw [h2, hJ.hqs] at hx
          rcases List.mem_cons.1 hx with h | h
          · exact absurd h hb
          · simp [h]
        · by_cases h3 : c' = (pl st).scope b1
          · refine ⟨(pl st).scope b1, ?_⟩
            rw [hJ.q1']
            rw [h3, hJ.hq1] at hx
            rcases List.mem_cons.1 hx with h | h
            · simp [h]
            · simp [h]
          · exact ⟨c', by rw [hJ.other c' h1 h2 h3]; exact hx⟩
  obtain ⟨l, hl, hs, ho, hm⟩ := hG.code
  obtain ⟨l', hl', hR⟩ := hJ.flat hS fuel 0 hap.s0.symm hap.s10.symm l hl
  have hlm : ∀ x, x ∈ l' ↔ x ∈ l ∧ x ≠ b ∧ x ≠ e := fun x => hR.mem
  have bl : b ∈ l := (hm b).2 ⟨_, by rw [hJ.hqs]; simp⟩
  have el : e ∈ l := (hm e).2 ⟨_, hap.me⟩
  have ob : op b = .startIf rs := (ho b bl).symm.trans hJ.ob
  have oe : op e = .endIf := (ho e el).symm.trans hJ.oe
  refine ⟨hJ.shape hS, hK, ?_, ?_, ?_, l', hl', ⟨?_, ?_, ?_, ?_, ?_⟩, ?_, ?_⟩
  · intro c' x hx
    obtain ⟨⟨c'', h⟩, -⟩ := (hmem x).1 ⟨c', hx⟩
    exact hG.known _ x h
  · intro x hx
    obtain ⟨h1, -, -, h2⟩ := hJ.mem hS hx
    have : (st'.nd x).op = (st.nd x).op := hJ.op' x h1
    rw [this]
    rcases h2 with h2 | h2
    · exact hG.top x h2
    · exact absurd h2.1.symm hap.s10
  · intro c' hc'
    apply List.eq_nil_iff_forall_not_mem.2
    intro x hx
    obtain ⟨-, -, -, h⟩ := hJ.mem hS hx
    rcases h with h | ⟨h, -⟩
    · rw [hG.few c' hc'] at h; cases h
    · have := hG.few c' hc'
      rw [h, hJ.hq1] at this; cases this
  · intro it
    obtain ⟨t, h1, h2⟩ := hs.runs it
    refine ⟨t, h1, ?_⟩
    have c1 := runs_congr (op := op) (op' := fun x => ((pl st).nd x).op) it l [] ho
    have c2 := runs_congr (op := op) (op' := fun x => ((pl st).nd x).op) it l' [] fun n hn => ho n ((hlm n).1 hn).1
    have := hR.sim it []
    rw [c1, c2, h2] at this
    exact this.symm
  · intro x hx
    exact hs.old x ((hlm x).1 hx).1
  · intro x hx hi
    refine (hlm x).2 ⟨hs.kept x hx hi, ?_, ?_⟩
    · rintro rfl; rw [ob] at hi; cases hi
    · rintro rfl; rw [oe] at hi; cases hi
  · exact hR.perm.nodup_iff.2 (hs.once.filter _)
  · intro d x hd hx hxl hB
    have hxl' := (hlm x).1 hxl
    have hB' := hs.declared d x hd hx hxl'.1 hB
    have hdl : d ∈ l := by
      obtain ⟨l₁, l₂, l₃, h⟩ := hB'
      rw [h]; simp
    refine hR.decl d x ?_ ?_ hxl'.2.1 hxl'.2.2 hB'
    · exact (ho d hdl).trans hd
    · show (st.nd x).op ≠ _
      rw [ho x hxl'.1]; exact hx
  · intro n hn
    have hn' := (hlm n).1 hn
    exact (hJ.op' n hn'.2.2).trans (ho n hn'.1)
  · intro x
    rw [hlm, hmem, hm]

theorem step_ok (hKN : ∀ n, K n → n < N) (hf : N < fuel) (hG : Good op K l0 fuel size st) {c p : Nat} (hp : p + 1 < (st.queue c).length) :
    ∃ st', step fuel c (p + 1) st = .ok st' ∧ Good op K l0 fuel size st' ∧ (st.queue c).length ≤ (st'.queue c).length + 1 := by
  unfold step
  simp only
  rw [List.getElem?_eq_getElem hp]
  simp only
  by_cases he : (st.nd (st.queue c)[p + 1]).op = .endIf
  swap
  · rw [if_pos he]; exact ⟨st, rfl, hG, by omega⟩
  rw [if_neg (by simpa using he)]
  have hem : (st.queue c)[p + 1] ∈ st.queue c := List.getElem_mem _
  have hc0 : c ≠ 0 := by
    rintro rfl
    exact hG.top _ hem he
  cases hprev : previous st.nd (st.queue c) (p + 1) with
  | none =>
    exfalso
    obtain ⟨n, hn, ht⟩ := previous_none hp hprev 0 (by omega)
    clear hem he
    cases hq : st.queue c with
    | nil => rw [hq] at hp; simp at hp
    | cons x q =>
      rw [hq] at hn
      simp at hn
      have := (hG.shape.first c hc0 x q hq).1
      replace this : (st.nd x).op.begins = true := this
      rw [hn, ht] at this
      cases this
  | some p1 =>
    obtain ⟨pre, e1, ds, post0, h1, h2, h3, h4, h5⟩ := previous_some hp hprev
    have hpost : ∃ post, post0 = (st.queue c)[p + 1] :: post := by
      cases post0 with
      | nil =>
        have := congrArg List.length h1
        simp at this; omega
      | cons x post =>
        refine ⟨post, ?_⟩
        have : (st.queue c)[p + 1]? = some x := by
          rw [h1, List.getElem?_append_right (by omega), List.getElem?_cons]
          rw [if_neg (by omega), List.getElem?_append_right (by omega), show p + 1 - pre.length - 1 - ds.length = 0 by omega]
          rfl
        rw [List.getElem?_eq_getElem hp] at this
        simp at this
        rw [this]
    obtain ⟨post, rfl⟩ := hpost
    generalize (st.queue c)[p + 1] = e at *
    have g1 : (st.queue c)[p1]? = some e1 := by
      rw [h1, List.getElem?_append_right (by omega), show p1 - pre.length = 0 by omega]; rfl
    simp only
    rw [g1]
    simp only
    have hem1 : e1 ∈ st.queue c := by rw [h1]; simp
    by_cases he1 : (st.nd e1).op = .endIf
    swap
    · rw [if_pos he1]; exact ⟨st, rfl, hG, by omega⟩
    rw [if_neg (by simpa using he1)]
    obtain ⟨b, as, -, ha, -⟩ := hG.shape.ends c e hem (by show (st.nd e).op.isEnd = true; rw [he]; rfl)
    obtain ⟨b1, as1, -, ha1, -⟩ := hG.shape.ends c e1 hem1 (by show (st.nd e1).op.isEnd = true; rw [he1]; rfl)
    replace ha : (st.nd e).args = b :: as := ha
    replace ha1 : (st.nd e1).args = b1 :: as1 := ha1
    rw [ha, ha1]
    simp only
    split
    · rename_i rs rs1 hb hb1
      split
      · rename_i hrs
        subst hrs
        obtain ⟨st', q1, qs, hj, hJ, hK⟩ := join_ok hKN hf hG.closed hG.shape h1 h4 he he1 hb hb1 ha ha1 (hG.known c e hem) (hG.known c e1 hem1)
        rw [show pre.length = p1 from h2, show p1 + 1 + ds.length = p + 1 by omega] at hj
        refine ⟨st', hj, hG.join hJ hK, ?_⟩
        rw [hJ.qc', hJ.qc]
        simp
        omega
      · exact ⟨st, rfl, hG, by omega⟩
    · exact ⟨st, rfl, hG, by omega⟩

theorem positions_ok (hKN : ∀ n, K n → n < N) (hf : N < fuel) {c : Nat} : ∀ p (st : JSt), Good op K l0 fuel size st → p < (st.queue c).length ∨ p = 0 →
    ∃ st', positions fuel c p st = .ok st' ∧ Good op K l0 fuel size st' := by
  intro p
  induction p with
  | zero => intro st h _; exact ⟨st, rfl, h⟩
  | succ p ih =>
    intro st hG hp
    obtain ⟨st', h1, h2, h3⟩ := step_ok hKN hf hG (c := c) (p := p) (by omega)
    obtain ⟨st'', h4, h5⟩ := ih st' h2 (by omega)
    refine ⟨st'', ?_, h5⟩
    unfold positions
    rw [h1]
    exact h4

theorem optimizeIfs_ok (hKN : ∀ n, K n → n < N) (hf : N < fuel) (hG : Good op K l0 fuel size st) (n : Nat) :
    ∃ st', optimizeIfs fuel n st = .ok st' ∧ Good op K l0 fuel size st' := by
  unfold optimizeIfs
  split
  · exact ⟨st, rfl, hG⟩
  have : ∀ (l : List Nat) (t : JSt), Good op K l0 fuel size t → ∃ t', l.foldlM (fun st c => positions fuel c ((st.queue c).length - 1) st) t = Except.ok t' ∧
      Good op K l0 fuel size t' := by
    intro l
    induction l with
    | nil => intro t ht; exact ⟨t, rfl, ht⟩
    | cons c l ih =>
      intro t ht
      obtain ⟨u, h1, h2⟩ := positions_ok hKN hf (c := c) ((t.queue c).length - 1) t ht (by omega)
      rw [List.foldlM_cons, h1]
      exact ih u h2
  exact this _ _ hG

theorem Good.length (hG : Good op K l0 fuel size st) {l : List Nat} (hl : flat (pl st) st.queue fuel 0 = .ok l) :
    l.length = ((List.range size).map fun c => (st.queue c).length).sum := by
  obtain ⟨l', h1, h2, -, h3⟩ := hG.code
  rw [hl] at h1
  cases h1
  rw [← List.length_flatMap]
  apply List.Perm.length_eq
  rw [List.perm_ext_iff_of_nodup h2.once]
  · intro x
    rw [h3, List.mem_flatMap]
    constructor
    · rintro ⟨c, hc⟩
      refine ⟨c, List.mem_range.2 (Nat.lt_of_not_le fun h => ?_), hc⟩
      rw [hG.few c h] at hc; cases hc
    · rintro ⟨c, -, hc⟩
      exact ⟨c, hc⟩
  · rw [List.nodup_flatMap]
    refine ⟨fun c _ => hG.shape.nodup c, ?_⟩
    refine List.Pairwise.imp (R := fun a b => a ≠ b) ?_ List.nodup_range
    intro a b hab x hx hy
    exact hab (hG.shape.place _ _ x hx hy)

end

/-! ### the first state -/

/-- the queues of a graph in which every value is in a scope around its uses -/
theorem Final.shape {P : Placed} {roots : List Nat} {queue : Nat → List Nat} {log : List Nat} (hF : Final P roots queue log)
    (hM : Matched P.nd (Reach P.nd roots)) : Shape P queue := by
  have hN := hF.nested
  obtain ⟨R, hR⟩ := hN.acyclic
  have hq : ∀ {c x}, x ∈ queue c → x ∈ log ∧ P.scope x = c := fun h => hF.mem.1 h
  refine ⟨?_, ?_, ?_, ?_, ?_, ?_, ?_, ?_⟩
  · intro c hc b q h
    refine ⟨hF.first hc h, (hq (c := c) (by rw [h]; simp)).2, fun x hx => hF.rest h hx⟩
  · intro x hx
    obtain ⟨h1, h2⟩ := hq hx
    cases hb : (P.nd x).op.begins with
    | false => rfl
    | true =>
      obtain ⟨p, e, as, hp, -⟩ := hN.begins x (hF.reach x h1) hb
      rw [h2, hN.top] at hp
      simp at hp
  · intro c e he hen
    obtain ⟨h1, h2⟩ := hq he
    have hre := hF.reach e h1
    obtain ⟨b, p, hE⟩ := hN.ended hre hen
    obtain ⟨as, ha⟩ := hE.args
    have hrb : Reach P.nd roots b := .arg hre (by rw [ha]; simp)
    have hbl : b ∈ log := hF.all b hrb (by simp [printed, hE.begins])
    have hbq : b ∈ queue (P.scope b) := hF.mem.2 ⟨hbl, rfl⟩
    cases hqb : queue (P.scope b) with
    | nil => rw [hqb] at hbq; cases hbq
    | cons x q =>
      have hxm := hq (c := P.scope b) (x := x) (by rw [hqb]; simp)
      have hxb : x = b := hF.one (hF.reach x hxm.1) hrb (hF.first hE.ne hqb) hE.begins hxm.2
      subst hxb
      exact ⟨x, as, q, ha, hqb, hE.ne, hM.loops e x as hre hen ha, fun ho r hr => hM.results e x as hre ho ha r hr⟩
  · intro c c' e he e' he' hen hen' hent
    obtain ⟨b, p, hE⟩ := hN.ended (hF.reach e (hq he).1) hen
    obtain ⟨b', p', hE'⟩ := hN.ended (hF.reach e' (hq he').1) hen'
    obtain ⟨as, ha⟩ := hE.args
    obtain ⟨as', ha'⟩ := hE'.args
    rw [ent_eq ha, ent_eq ha'] at hent
    exact hE.same hE' hent
  · intro c c' x hx hx'
    rw [← (hq hx).2, (hq hx').2]
  · intro c
    rw [hF.q]
    exact hF.nodup.filter _
  · -- the rank of a scope is the rank of its last node
    refine ⟨fun c => match (P.path c).getLast? with | some el => R el.2 | none => (roots.map R).sum + 1, ?_⟩
    intro c e he hen
    obtain ⟨h1, h2⟩ := hq he
    have hre := hF.reach e h1
    obtain ⟨b, p, hE⟩ := hN.ended hre hen
    obtain ⟨as, ha⟩ := hE.args
    rw [ent_eq ha]
    simp only
    rw [hE.path]
    simp only [List.getLast?_append, List.getLast?_singleton, Option.some_or]
    by_cases hc : c = 0
    · rw [hc, hN.top]
      simp only [List.getLast?_nil]
      obtain ⟨r, hr, h⟩ := reach_root hre
      have hle : R r ≤ (roots.map R).sum := le_sum_mem (List.mem_map.2 ⟨r, hr, rfl⟩)
      rcases h with rfl | h
      · omega
      · have := h.rank hR (.root hr); omega
    · obtain ⟨p', e', hp'⟩ := hN.last e hre (hF.needed e h1) (by rw [h2]; exact hc)
      rw [h2] at hp'
      rw [hp']
      simp only [List.getLast?_append, List.getLast?_singleton, Option.some_or]
      have hd : Desc P.nd e' e := hN.below hp' hre (hF.needed e h1) (by unfold Placed.In; rw [h2]; exact List.prefix_rfl)
      have hre' : Reach P.nd roots e' := by
        obtain ⟨-, -, h, -⟩ := hN.outer e hre (hF.needed e h1) p' (c, e') [] (by rw [h2]; exact hp')
        exact h
      exact hd.rank hR hre'
  · intro c hc hne
    cases hqc : queue c with
    | nil => exact absurd hqc hne
    | cons x q =>
      obtain ⟨h1, h2⟩ := hq (c := c) (x := x) (by rw [hqc]; simp)
      obtain ⟨p, e, hp⟩ := hN.last x (hF.reach x h1) (hF.needed x h1) (by rw [h2]; exact hc)
      rw [h2] at hp
      rw [hp]; simp

theorem flat_balanced {P : Placed} {queue : Nat → List Nat} (hS : Shape P queue) {f : Nat} {l : List Nat} (h : flat P queue f 0 = .ok l) :
    Bal (fun x => (P.nd x).op) l := by
  cases f with
  | zero => simp [flat] at h
  | succ f =>
    unfold flat at h
    refine lay_bal _ _ ?_ hS.top ?_ h
    · intro n hn he b as ha l hl
      obtain ⟨b2, as2, q2, h1, h2, h3, -⟩ := hS.ends _ n hn he
      rw [ha] at h1
      obtain ⟨rfl, -⟩ := List.cons.inj h1
      exact flat_opens hS f b l q2 h3 h2 hl
    · intro n hn he b as ha
      obtain ⟨b2, as2, q2, h1, -, -, h4, -⟩ := hS.ends _ n hn he
      rw [ha] at h1
      obtain ⟨rfl, -⟩ := List.cons.inj h1
      exact h4

end Verif.Scopes.Join
