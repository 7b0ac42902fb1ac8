import Verif.Dae.LemmasRemove5
/-
Helper lemmas C77: the information is right.
-/
namespace Verif.Dae.Remove
open Verif.Dae.Soares

variable {info : List VarInfo} {m : Nat} {inc : Nat → Nat → Bool} {g G : BG} {R : List Nat} {M : Mem}

/-! ### sorted lists -/

theorem sorted_le {l : List Nat} (h : l.Pairwise (· < ·)) : ∀ (p i : Nat), l[p]? = some i → p ≤ i := by
  intro p
  induction p with
  | zero => intro i _; exact Nat.zero_le _
  | succ p ih =>
    intro i hi
    obtain ⟨h1, h2⟩ := List.getElem?_eq_some_iff.mp hi
    have h3 := ih _ (List.getElem?_eq_getElem (show p < l.length by omega))
    have := (List.pairwise_iff_getElem.mp h) p (p + 1) (by omega) h1 (by omega)
    omega

theorem sorted_first {l : List Nat} (h : l.Pairwise (· < ·)) {m : Nat} (hm : ∀ i < m, i ∈ l) : ∀ i < m, l[i]? = some i := by
  intro i
  induction i using Nat.strong_induction_on with
  | _ i ih =>
    intro hi
    obtain ⟨q, hq⟩ := List.mem_iff_getElem?.mp (hm i hi)
    have h1 := sorted_le h q i hq
    by_cases h2 : q < i
    · have := ih q h2 (by omega)
      rw [hq] at this
      have := Option.some.inj this
      omega
    · have : q = i := by omega
      rw [this] at hq
      exact hq

theorem sorted_lt {l : List Nat} (h : l.Pairwise (· < ·)) {p q i k : Nat} (hp : l[p]? = some i) (hq : l[q]? = some k) : p < q ↔ i < k := by
  obtain ⟨h1, h2⟩ := List.getElem?_eq_some_iff.mp hp
  obtain ⟨h3, h4⟩ := List.getElem?_eq_some_iff.mp hq
  have hh := List.pairwise_iff_getElem.mp h
  constructor
  · intro hlt
    have := hh p q h1 h3 hlt
    omega
  · intro hlt
    by_contra hc
    by_cases he : p = q
    · subst he
      omega
    · have := hh q p h3 h1 (by omega)
      omega

/-! ### equations -/

theorem Ctx.lt_stays (h : Ctx info m inc g G R M) {i : Nat} (hi : i < m) : i ∉ R := by
  intro hh
  obtain ⟨h1, _, f, _, _, h2⟩ := h.basis.mem i hh
  rw [(h.s.frame.lk.first i h1).mpr hi] at h2
  cases h2

theorem Ctx.el_first (h : Ctx info m inc g G R M) : ∀ i < m, M.el[i]? = some i :=
  sorted_first h.e.sorted fun i hi => (h.e.mem i).mpr ⟨Nat.lt_of_lt_of_le hi h.s.frame.lk.le, h.lt_stays hi⟩

theorem Ctx.el_lt (h : Ctx info m inc g G R M) {p i : Nat} (hp : M.el[p]? = some i) : p < m ↔ i < m := by
  constructor
  · intro hlt
    have := h.el_first p hlt
    rw [hp] at this
    exact Option.some.inj this ▸ hlt
  · intro hlt
    have h1 := h.el_first i hlt
    have := (sorted_lt h.e.sorted hp h1)
    have h2 := sorted_le h.e.sorted p i hp
    omega

/-- the parent of an equation which stays, stays -/
theorem Ctx.el_parent (h : Ctx info m inc g G R M) {i f : Nat} (hd : (G.e f).diff = some i) : f ∈ M.el := by
  refine (h.e.mem f).mpr ⟨(h.s.frame.lk.link f i hd).1, fun hh => ?_⟩
  rw [(h.basis.mem f hh).2.1] at hd
  cases hd

theorem es_get {p : Nat} {e : EqOut} : (M.el.mapIdx (eqOut M))[p]? = some e ↔ ∃ i, M.el[p]? = some i ∧ e = eqOut M p i := by
  rw [List.getElem?_mapIdx, Option.map_eq_some_iff]
  exact exists_congr fun i => and_congr_right fun _ => eq_comm

theorem Ctx.es_anti (h : Ctx info m inc g G R M) {p i q : Nat} (hp : M.el[p]? = some i) : (eqOut M p i).anti = some q ↔
    ∃ f, M.el[q]? = some f ∧ (G.e f).diff = some i := by
  show (M.g.e i).diffOf.map M.ei = some q ↔ _
  rw [h.e.diffOf, Option.map_eq_some_iff]
  have hi := ((h.e.mem i).mp (List.mem_of_getElem? hp)).1
  constructor
  · rintro ⟨f, h1, rfl⟩
    have hd := h.s.frame.lk.unlink f i hi h1
    obtain ⟨q, hq⟩ := List.mem_iff_getElem?.mp (h.el_parent hd)
    exact ⟨f, by rw [h.e.ei q f hq]; exact hq, hd⟩
  · rintro ⟨f, h1, h2⟩
    exact ⟨f, (h.s.frame.lk.link f i h2).2.2.1, h.e.ei q f h1⟩

theorem Ctx.eqDer (h : Ctx info m inc g G R M) {i : Nat} (hi : i < m) : ∀ n k, EqDer (M.el.mapIdx (eqOut M)) n i k ↔
    ∃ j, M.el[k]? = some j ∧ up (dE G) n i = some j := by
  have hle : i < (M.el.mapIdx (eqOut M)).length := by
    rw [List.length_mapIdx]
    exact (List.getElem?_eq_some_iff.mp (h.el_first i hi)).1
  intro n
  induction n with
  | zero =>
    intro k
    constructor
    · rintro ⟨⟩
      exact ⟨i, h.el_first i hi, rfl⟩
    · rintro ⟨j, h1, h2⟩
      cases h2
      have : k = i := by
        have h3 := h.el_first i hi
        obtain ⟨a1, a2⟩ := List.getElem?_eq_some_iff.mp h1
        obtain ⟨b1, b2⟩ := List.getElem?_eq_some_iff.mp h3
        exact (List.Nodup.getElem_inj_iff h.e.nodup).mp (a2.trans b2.symm)
      subst this
      exact .zero hle
  | succ n ih =>
    intro k
    constructor
    · intro hk
      cases hk with
      | succ h1 h2 h3 =>
        obtain ⟨j, h4, rfl⟩ := es_get.mp h2
        obtain ⟨f, h5, h6⟩ := (h.es_anti h4).mp h3
        obtain ⟨f', h7, h8⟩ := (ih _).mp h1
        rw [h5] at h7
        cases h7
        exact ⟨j, h4, by simp only [up, h8, Option.bind_some]; exact h6⟩
    · rintro ⟨j, h1, h2⟩
      simp only [up, Option.bind_eq_some_iff] at h2
      obtain ⟨f, h3, h4⟩ := h2
      obtain ⟨q, hq⟩ := List.mem_iff_getElem?.mp (h.el_parent h4)
      exact .succ ((ih q).mpr ⟨f, hq, h3⟩) (es_get.mpr ⟨j, h1, rfl⟩) ((h.es_anti h1).mpr ⟨f, hq, h4⟩)

/-! ### variables -/

/-- all variables are there -/
structure Final (info : List VarInfo) (G : BG) (R : List Nat) (M : Mem) (vs : List VarOut) : Prop where
  len : vs.length = info.length + (M.vl.length - (tapeOf info).length)
  vars : ∀ j, Left info G R j → ∃ y, vs[M.vt j]? = some y ∧ Entry info G M M.vl j y
  const : ∀ (t : Nat) x, info[t]? = some x → x.timeDep = false → ∃ y, vs[t]? = some y ∧ y.id = t ∧ y.anti = none ∧ y.der = none ∧
    y.dep = false ∧ y.integrated = x.integrated ∧ y.orig = some t ∧ y.order = -1 ∧ y.root = none

theorem Ctx.final (h : Ctx info m inc g G R M) : ∃ vs0 vs, (List.range info.length).mapM (givenVar info) = .ok vs0 ∧
    (M.vl.drop (tapeOf info).length).foldlM (addVar M) vs0 = .ok vs ∧ Final info G R M vs := by
  obtain ⟨vs0, e0, g0⟩ := h.given_vars
  obtain ⟨rest, h1, h2⟩ := h.v.first
  obtain ⟨vs, e1, g1⟩ := h.add_vars rest [] vs0 h1 g0
  have hd : M.vl.drop (tapeOf info).length = rest := by
    rw [h1, List.drop_append_of_le_length (by rw [List.length_range]), List.drop_eq_nil_of_le (by rw [List.length_range]), List.nil_append]
  refine ⟨vs0, vs, e0, by rw [hd]; exact e1, ⟨?_, fun j hj => ?_, g1.const⟩⟩
  · rw [g1.len, ← hd, List.nil_append, List.length_drop]
  · have hm : j < (tapeOf info).length ∨ j ∈ [] ++ rest := by
      have := (h.v.mem j).mpr hj
      rw [h1, List.mem_append, List.mem_range] at this
      simpa using this
    obtain ⟨y, hy, hE⟩ := g1.vars j hj hm
    refine ⟨y, hy, ⟨hE.id, hE.anti, hE.dep, hE.orig, hE.given, hE.added, fun u => ?_, hE.ord⟩⟩
    rw [hE.der]
    refine exists_congr fun k => and_congr_right fun hk => and_congr_left fun _ => ?_
    have hkL : Left info G R k := ((h.v.deriv j hj k).mp hk).2
    have hk1 := (h.v.mem k).mpr hkL
    have hk2 := hk1
    rw [h1, List.mem_append, List.mem_range] at hk2
    simp only [List.nil_append, hk1, or_true, iff_true]
    exact .inr hk2

theorem Ctx.final_der (h : Ctx info m inc g G R M) {j : Nat} {y : VarOut} (hj : Left info G R j) (hE : Entry info G M M.vl j y) (u : Nat) :
    y.der = some u ↔ ∃ k, Left info G R k ∧ (G.v j).deriv = some k ∧ u = M.vt k := by
  rw [hE.der]
  refine exists_congr fun k => ⟨fun hk => ?_, fun hk => ?_⟩
  · obtain ⟨h1, h2⟩ := (h.v.deriv j hj k).mp hk.1
    exact ⟨h2, h1, hk.2.2⟩
  · exact ⟨(h.v.deriv j hj k).mpr ⟨hk.2.1, hk.1⟩, .inr (.inr ((h.v.mem k).mpr hk.1)), hk.2.2⟩

/-- every element of the list -/
theorem Ctx.final_cases (h : Ctx info m inc g G R M) {vs : List VarOut} (hF : Final info G R M vs) {t : Nat} {y : VarOut}
    (hy : vs[t]? = some y) : (∃ x, info[t]? = some x ∧ x.timeDep = false ∧ y.id = t ∧ y.anti = none ∧ y.der = none ∧ y.dep = false ∧
      y.integrated = x.integrated ∧ y.orig = some t ∧ y.order = -1 ∧ y.root = none) ∨ ∃ j, Left info G R j ∧ M.vt j = t ∧ Entry info G M M.vl j y := by
  have hlt := (List.getElem?_eq_some_iff.mp hy).1
  by_cases ht : t < info.length
  · have hx := List.getElem?_eq_getElem ht
    cases hd : (info[t]).timeDep with
    | false =>
      left
      obtain ⟨y', hy', hrest⟩ := hF.const t _ hx hd
      rw [hy] at hy'
      cases hy'
      exact ⟨_, hx, hd, hrest⟩
    | true =>
      right
      obtain ⟨j, hj⟩ := h.node hx hd
      have hL := h.left_lt (Ctx.lt_tape hj)
      obtain ⟨y', hy', hE⟩ := hF.vars j hL
      rw [h.vt_given hj, hy] at hy'
      cases hy'
      exact ⟨j, hL, h.vt_given hj, hE⟩
  · right
    have hlen := hF.len
    have hp : (tapeOf info).length + (t - info.length) < M.vl.length := by omega
    have hget := List.getElem?_eq_getElem hp
    generalize M.vl[(tapeOf info).length + (t - info.length)] = j at hget
    have hL : Left info G R j := (h.v.mem j).mp (List.mem_of_getElem? hget)
    have hjn : ¬ j < (tapeOf info).length := fun x => absurd ((h.v.pos hget).mpr x) (by omega)
    have hvt : M.vt j = t := by
      rw [h.v.vt j hL, if_neg hjn, h.v.vi _ j hget]
      omega
    obtain ⟨y', hy', hE⟩ := hF.vars j hL
    rw [hvt, hy] at hy'
    cases hy'
    exact ⟨j, hL, hvt, hE⟩

theorem Ctx.der_of (h : Ctx info m inc g G R M) {vs : List VarOut} (hF : Final info G R M vs) {j : Nat} : ∀ n k, up (dV G) n j = some k →
    Left info G R k → Der vs n (M.vt j) (M.vt k) := by
  intro n
  induction n with
  | zero =>
    intro k hk hL
    cases hk
    obtain ⟨y, hy, _⟩ := hF.vars j hL
    exact .zero (List.getElem?_eq_some_iff.mp hy).1
  | succ n ih =>
    intro k hk hL
    simp only [up, Option.bind_eq_some_iff] at hk
    obtain ⟨c, h1, h2⟩ := hk
    have ha := (h.basis.w.link c k h2).2.2
    obtain ⟨y, hy, hE⟩ := hF.vars k hL
    exact .succ (ih c h1 (h.left_anti hL ha)) hy (by rw [hE.anti, ha]; rfl)

theorem Ctx.right (h : Ctx info m inc g G R M) {vs : List VarOut} (hF : Final info G R M vs) :
    Right info m inc vs (M.el.mapIdx (eqOut M)) := by
  have hdep : ∀ t, Dep info t ↔ ∃ j : Nat, (tapeOf info)[j]? = some t := by
    intro t
    rw [← List.mem_iff_getElem?, h.built.mem]
    rfl
  have hroot : ∀ p k, M.el[p]? = some k → ∀ j ∈ (G.e k).orig, ∃ n i t, EqDer (M.el.mapIdx (eqOut M)) n i p ∧ i < m ∧ inc i t = true ∧
      Dep info t ∧ Der vs n t (M.vt j) := by
    intro p k hp j hj
    obtain ⟨hk1, hk2⟩ := (h.e.mem k).mp (List.mem_of_getElem? hp)
    obtain ⟨i, hi, n, hn⟩ := h.s.frame.lk.root k hk1
    obtain ⟨a, ha, hu⟩ := h.s.frame.lk.down n k hn j hj
    obtain ⟨t, ht, hinc⟩ := (h.orig hi a).mp ha
    refine ⟨n, i, t, (h.eqDer hi n p).mpr ⟨k, hp, hn⟩, hi, hinc, (hdep t).mpr ⟨a, ht⟩, ?_⟩
    rw [← h.vt_given ht]
    exact h.der_of hF n j hu (h.left_mem hk2 hj)
  have hass : ∀ p i, M.el[p]? = some i → ∃ j ∈ (G.e i).orig, (G.v j).assign = some i ∧ (eqOut M p i).assigned = some (M.vt j) := by
    intro p i hp
    obtain ⟨hi1, hi2⟩ := (h.e.mem i).mp (List.mem_of_getElem? hp)
    cases ha : (G.e i).assign with
    | none => exact absurd ha (h.assigned i hi1)
    | some j =>
      have hj : j ∈ (G.e i).orig := by rw [← h.basis.vars]; exact h.s.inc i j ha
      have hv := (h.s.agree.iff i j).mp ha
      refine ⟨j, hj, hv, ?_⟩
      show (M.vl.reverse.find? fun j => (M.g.v j).assign == some i).map M.vt = _
      cases hf : M.vl.reverse.find? fun j => (M.g.v j).assign == some i with
      | none =>
        have := List.find?_eq_none.mp hf j (by rw [List.mem_reverse]; exact (h.v.mem j).mpr (h.left_mem hi2 hj))
        rw [h.v.assign, hv] at this
        simp at this
      | some j' =>
        have h1 := List.find?_some hf
        rw [beq_iff_eq, h.v.assign, ← h.s.agree.iff, ha] at h1
        cases h1
        rfl
  constructor
  · refine ⟨fun t x hx => ?_, fun k e he => ?_⟩
    · rcases h.final_cases hF hx with ⟨_, _, _, h1, _⟩ | ⟨j, _, rfl, hE⟩
      · exact h1
      · exact hE.id
    · obtain ⟨i, _, rfl⟩ := es_get.mp he
      rfl
  · refine ⟨by rw [hF.len]; omega, fun t x hx => ?_⟩
    cases hd : x.timeDep with
    | false =>
      obtain ⟨y, h1, _, h3, _, h5, h6, h7, _⟩ := hF.const t x hx hd
      exact ⟨y, h1, by rw [h3, h.const x (List.mem_of_getElem? hx) hd], h5, h6, h7⟩
    | true =>
      obtain ⟨j, hj⟩ := h.node hx hd
      obtain ⟨y, hy, hE⟩ := hF.vars j (h.left_lt (Ctx.lt_tape hj))
      have hvt := h.vt_given hj
      rw [hvt] at hy
      refine ⟨y, hy, ?_, hE.dep, ?_, ?_⟩
      · rw [hE.anti, ← h.anti_given hj, hx]; rfl
      · obtain ⟨x', h1, h2⟩ := hE.given (Ctx.lt_tape hj)
        rw [hvt, hx] at h1
        cases h1
        exact h2
      · rw [hE.orig, if_pos (Ctx.lt_tape hj), hvt]
  · intro t y ht hy
    rcases h.final_cases hF hy with ⟨x, h1, _⟩ | ⟨j, hL, rfl, hE⟩
    · have := (List.getElem?_eq_some_iff.mp h1).1
      omega
    · have hjn : ¬ j < (tapeOf info).length := fun x => absurd ((h.vt_lt hL).mp x) (by omega)
      obtain ⟨⟨a, ha1, ha2⟩, _⟩ := h.basis.kept.new j (by omega) hL.1
      have haL := h.left_anti hL ha2
      refine ⟨by rw [hE.orig, if_neg hjn], hE.dep, hE.added (by omega), M.vt a, ?_, by rw [hE.anti, ha2]; rfl⟩
      by_cases han : a < (tapeOf info).length
      · have := (h.vt_lt haL).mp han
        omega
      · rw [h.v.vt a haL, h.v.vt j hL, if_neg han, if_neg hjn]
        obtain ⟨p, hp⟩ := List.mem_iff_getElem?.mp ((h.v.mem a).mpr haL)
        obtain ⟨q, hq⟩ := List.mem_iff_getElem?.mp ((h.v.mem j).mpr hL)
        rw [h.v.vi p a hp, h.v.vi q j hq]
        have := (sorted_lt h.v.sorted hp hq).mpr ha1
        have := h.v.pos hp
        omega
  · intro t y hy hdep'
    rcases h.final_cases hF hy with ⟨_, _, _, _, _, h1, _, _, _, h2⟩ | ⟨j, hL, rfl, hE⟩
    · exact ⟨h1, h2⟩
    · rw [hE.dep] at hdep'
      cases hdep'
  · intro t u
    constructor
    · rintro ⟨x, hx, hu⟩
      rcases h.final_cases hF hx with ⟨_, _, _, _, _, h1, _⟩ | ⟨j, hL, rfl, hE⟩
      · rw [h1] at hu; cases hu
      · obtain ⟨k, hk, h1, rfl⟩ := (h.final_der hL hE u).mp hu
        obtain ⟨y, hy, hE'⟩ := hF.vars k hk
        exact ⟨y, hy, by rw [hE'.anti, (h.basis.w.link j k h1).2.2]; rfl⟩
    · rintro ⟨y, hy, hu⟩
      rcases h.final_cases hF hy with ⟨_, _, _, _, h1, _⟩ | ⟨k, hL, rfl, hE⟩
      · rw [h1] at hu; cases hu
      · rw [hE.anti, Option.map_eq_some_iff] at hu
        obtain ⟨o, ho, rfl⟩ := hu
        have hoL := h.left_anti hL ho
        obtain ⟨x, hx, hE'⟩ := hF.vars o hoL
        exact ⟨x, hx, (h.final_der hoL hE' _).mpr ⟨k, hL, h.basis.w.unlink o k hL.1 ho, rfl⟩⟩
  · intro t y hy hdep'
    rcases h.final_cases hF hy with ⟨_, _, _, _, _, _, h1, _⟩ | ⟨j, hL, rfl, hE⟩
    · rw [h1] at hdep'; cases hdep'
    · obtain ⟨n, b, c1, c2, c3, c4⟩ := hE.ord
      have hbL : Left info G R b := by
        refine h.left_lt ?_
        by_contra hc
        have hb : b < G.nv := by
          cases n with
          | zero => cases c1; exact hL.1
          | succ n =>
            have : ∀ n x, up (dV G) (n + 1) b = some x → b < G.nv := by
              intro n
              induction n with
              | zero => intro x hx; exact (h.basis.w.link b x hx).1
              | succ n ih =>
                intro x hx
                simp only [up, Option.bind_eq_some_iff] at hx
                obtain ⟨c, hc, _⟩ := hx
                exact ih c (by simp only [up, Option.bind_eq_some_iff]; exact hc)
            exact this n j c1
        obtain ⟨⟨_, _, d2⟩, _⟩ := h.basis.kept.new b (by omega) hb
        rw [c2] at d2
        cases d2
      obtain ⟨z, hz, hzE⟩ := hF.vars b hbL
      exact ⟨n, M.vt b, z, h.der_of hF n j c1 hL, hz, by rw [hzE.anti, c2]; rfl, c3, c4⟩
  · refine ⟨?_, fun k e he hk => ?_, fun k e he hk => ?_, fun k k' e e' q he he' hq hq' => ?_⟩
    · rw [List.length_mapIdx]
      by_contra hc
      have := h.el_first (M.el.length) (by omega)
      rw [List.getElem?_eq_none (Nat.le_refl _)] at this
      cases this
    · obtain ⟨i, h1, rfl⟩ := es_get.mp he
      have h2 := (h.el_lt h1).mp hk
      have h3 := (h.s.frame.lk.first i ((h.e.mem i).mp (List.mem_of_getElem? h1)).1).mpr h2
      refine ⟨?_, ?_⟩
      · show (if (M.g.e i).diffOf = none then some k else none) = _
        rw [h.e.diffOf, h3, if_pos rfl]
      · show (M.g.e i).diffOf.map M.ei = none
        rw [h.e.diffOf, h3]; rfl
    · obtain ⟨i, h1, rfl⟩ := es_get.mp he
      have hi := ((h.e.mem i).mp (List.mem_of_getElem? h1)).1
      have h2 : ¬ i < m := fun x => absurd ((h.el_lt h1).mpr x) (by omega)
      cases hf : (G.e i).diffOf with
      | none => exact absurd ((h.s.frame.lk.first i hi).mp hf) h2
      | some f =>
        refine ⟨?_, ?_⟩
        · show (if (M.g.e i).diffOf = none then some k else none) = _
          rw [h.e.diffOf, hf, if_neg (by nofun)]
        · have hd := h.s.frame.lk.unlink f i hi hf
          obtain ⟨q, hq⟩ := List.mem_iff_getElem?.mp (h.el_parent hd)
          exact ⟨q, (sorted_lt h.e.sorted hq h1).mpr (h.s.frame.lk.link f i hd).2.2.2.1, (h.es_anti h1).mpr ⟨f, hq, hd⟩⟩
    · obtain ⟨i, h1, rfl⟩ := es_get.mp he
      obtain ⟨i', h1', rfl⟩ := es_get.mp he'
      obtain ⟨f, h2, h3⟩ := (h.es_anti h1).mp hq
      obtain ⟨f', h2', h3'⟩ := (h.es_anti h1').mp hq'
      rw [h2] at h2'
      cases h2'
      rw [h3] at h3'
      cases h3'
      obtain ⟨a1, a2⟩ := List.getElem?_eq_some_iff.mp h1
      obtain ⟨b1, b2⟩ := List.getElem?_eq_some_iff.mp h1'
      exact (List.Nodup.getElem_inj_iff h.e.nodup).mp (a2.trans b2.symm)
  · intro n i k t hk hi hinc hd
    obtain ⟨j, hj⟩ := (hdep t).mp hd
    obtain ⟨q, h1, h2⟩ := (h.eqDer hi n k).mp hk
    obtain ⟨u, hu1, hu2⟩ := h.s.frame.lk.upw ((h.orig hi j).mpr ⟨t, hj, hinc⟩) n q h2
    refine ⟨M.vt u, ?_⟩
    rw [← h.vt_given hj]
    exact h.der_of hF n u hu2 (h.left_mem ((h.e.mem q).mp (List.mem_of_getElem? h1)).2 hu1)
  · intro u hu hlt
    rcases h.final_cases hF (List.getElem?_eq_getElem hlt) with ⟨x, h1, _⟩ | ⟨j, hL, rfl, hE⟩
    · have := (List.getElem?_eq_some_iff.mp h1).1
      omega
    · rcases hL.2 with x | ⟨i, hi, hiR⟩
      · have := (h.vt_lt hL).mp x
        omega
      · have hine : i < G.ne := by
          by_contra hc
          rw [h.basis.kept.fresh i (by omega)] at hi
          cases hi
        obtain ⟨p, hp⟩ := List.mem_iff_getElem?.mp ((h.e.mem i).mpr ⟨hine, hiR⟩)
        obtain ⟨n, i0, t, r⟩ := hroot p i hp j hi
        exact ⟨n, i0, p, t, r⟩
  · intro k e he
    obtain ⟨i, h1, rfl⟩ := es_get.mp he
    obtain ⟨j, h2, _, h4⟩ := hass k i h1
    exact ⟨M.vt j, h4, hroot k i h1 j h2⟩
  · intro k k' e e' s he he' hs hs'
    obtain ⟨i, h1, rfl⟩ := es_get.mp he
    obtain ⟨i', h1', rfl⟩ := es_get.mp he'
    obtain ⟨j, h2, h3, h4⟩ := hass k i h1
    obtain ⟨j', h2', h3', h4'⟩ := hass k' i' h1'
    rw [hs] at h4
    rw [hs'] at h4'
    cases h4
    have hL := h.left_mem ((h.e.mem i).mp (List.mem_of_getElem? h1)).2 h2
    have hL' := h.left_mem ((h.e.mem i').mp (List.mem_of_getElem? h1')).2 h2'
    have := h.vt_inj hL hL' (Option.some.inj h4')
    subst this
    rw [h3] at h3'
    cases h3'
    obtain ⟨a1, a2⟩ := List.getElem?_eq_some_iff.mp h1
    obtain ⟨b1, b2⟩ := List.getElem?_eq_some_iff.mp h1'
    exact (List.Nodup.getElem_inj_iff h.e.nodup).mp (a2.trans b2.symm)

end Verif.Dae.Remove
