import Verif.Dae.LemmasRemove3
/-
Helper lemmas C77: the state after the removal.
-/
namespace Verif.Dae.Remove
open Verif.Dae.Soares

/-- all that is known -/
structure Ctx (info : List VarInfo) (m : Nat) (inc : Nat → Nat → Bool) (g G : BG) (R : List Nat) (M : Mem) : Prop where
  one : OneDerivative info
  const : ConstantsPlain info
  counts : ∀ (t : Nat) x, info[t]? = some x → x.timeDep = true → ∃ k, antiCount info (info.length + 1) t = .ok k
  built : Built info m inc (tapeOf info) g
  s : SInv m [] G
  ext : Ext g G
  assigned : ∀ q, q < G.ne → (G.e q).assign ≠ none
  basis : Basis (tapeOf info).length G R
  v : VInv (tapeOf info).length info.length (fun j => ((tapeOf info)[j]?).getD 0) G (fun i _ => i ∈ R) M
  e : EInv G R M

theorem construct_ctx {info : List VarInfo} {m : Nat} {inc : Nat → Nat → Bool} {g : BG} (hc : construct info m inc = .ok g)
    (h1 : OneDerivative info) : Built info m inc (tapeOf info) g ∧
      ∀ (t : Nat) x, info[t]? = some x → x.timeDep = true → ∃ k, antiCount info (info.length + 1) t = .ok k := by
  obtain ⟨⟨order, ho, hB⟩, _⟩ := construct_tape hc h1
  have : tapeOf info = new2Tape info.length (fun t => (order[t]?).bind id) ((order.map (·.getD 0)).foldl max 0) := by
    unfold tapeOf; rw [ho]
  refine ⟨this ▸ hB, fun t x hx hd => ?_⟩
  have hlt := (List.getElem?_eq_some_iff.mp hx).1
  obtain ⟨b, hb, _⟩ := (mapM_ok ho).2 t t (by rw [List.getElem?_range hlt])
  unfold diffOrder at hb
  rw [hx] at hb
  simp only [hd, if_true] at hb
  cases ha : antiCount info (info.length + 1) t with
  | error e => rw [ha] at hb; cases hb
  | ok k => exact ⟨k, rfl⟩

theorem filterMap_nodup {f : Nat → Option Nat} (hf : ∀ i j d, f i = some d → f j = some d → i = j) : ∀ {l : List Nat}, l.Nodup →
    (l.filterMap f).Nodup := fun {l} h => h.filterMap fun a a' b ha hb => hf a a' b ha hb

/-- the removal never fails -/
theorem ctx {info : List VarInfo} {m : Nat} {inc : Nat → Nat → Bool} {g : BG}
    (hc : construct info m inc = .ok g) (h1 : OneDerivative info) (hk : ConstantsPlain info) (hg : Occurs info m inc)
    {order order' : List Nat → List Nat} (ho : ∀ l, (order l).Perm l) (ho' : ∀ l, (order' l).Perm l)
    {fuel : Nat} {G : BG} {last : List Nat} (hr : detect false order fuel [] g = .ok (G, last)) (fuel' : Nat) :
    ∃ M, (order' (last.filterMap fun i => (G.e i).diff)).foldlM (remove (fuel' + 2)) (start info G) = .ok M ∧
      Ctx info m inc g G (order' (last.filterMap fun i => (G.e i).diff)) M ∧ Last G last := by
  obtain ⟨hB, hn⟩ := construct_ctx hc h1
  have hne := hB.ne
  have hS0 : SInv m [] g := hne ▸ Soares.start hB.ready (construct_clean hc)
  rcases Soares.detect_ok false ho fuel [] g hS0 with ⟨e, _⟩ | ⟨e, _⟩ | ⟨G', l', e, hS, hE, ha⟩
  · rw [e] at hr; cases hr
  · rw [e] at hr; cases hr
  rw [e] at hr
  cases hr
  obtain ⟨hK, hL⟩ := detect_kept ho fuel [] g hS0 (construct_kept hc) ⟨List.nodup_nil, nofun⟩ G last e
  rw [hB.nv] at hK
  generalize hR : order' (last.filterMap fun i => (G.e i).diff) = R
  have hmem : ∀ d, d ∈ R ↔ ∃ i ∈ last, (G.e i).diff = some d := by
    intro d
    rw [← hR, (ho' _).mem_iff, List.mem_filterMap]
  have hinj : ∀ i f d, (G.e i).diff = some d → (G.e f).diff = some d → i = f := hS.frame.lk.dE_inj
  have hnd : R.Nodup := by
    rw [← hR, (ho' _).nodup_iff]
    exact filterMap_nodup hinj hL.nodup
  have hnone : ∀ d ∈ R, (G.e d).diff = none := by
    intro d hd
    obtain ⟨i, hi, h2⟩ := (hmem d).mp hd
    obtain ⟨d', h3, h4⟩ := hL.diff i hi
    rw [h2] at h3
    cases h3
    exact h4
  have hbas : Basis (tapeOf info).length G R := by
    refine ⟨hS.frame.w, hS.frame.nodel, hS.frame.rank, hK, hB.nv ▸ hE.nv, hnd, ?_, ?_, hinj, ?_, ?_⟩
    · intro d hd
      obtain ⟨i, hi, h2⟩ := (hmem d).mp hd
      have hl := hS.frame.lk.link i d h2
      refine ⟨hl.2.1, hnone d hd, i, fun hh => ?_, h2, hl.2.2.1⟩
      rw [hnone i hh] at h2
      cases h2
    · intro f d hd j
      obtain ⟨_, _, _, _, h5, h6⟩ := hS.frame.lk.link f d hd
      refine ⟨h6 j, ?_⟩
      rintro ⟨a, ha, hx⟩
      obtain ⟨dj, h7, h8⟩ := h5 a ha
      rw [hx] at h7
      cases h7
      exact h8
    · intro k j hk hj
      rw [hE.anti k (hB.nv ▸ hk)] at hj
      obtain ⟨_, _, _, h2, _⟩ := (hB.anti k j).mp hj
      exact (List.getElem?_eq_some_iff.mp h2).1
    · intro j hj hx
      rw [hE.anti j (hB.nv ▸ hj)] at hx
      cases hp : (g.v j).anti with
      | none => exact absurd hp hx
      | some p =>
        obtain ⟨t, a, h2, _, h4⟩ := (hB.anti j p).mp hp
        obtain ⟨x, h5, h6⟩ := (hB.mem t).mp (List.mem_of_getElem? h2)
        rw [h5, Option.bind_some] at h4
        obtain ⟨i, hi, h7⟩ := hg t x h5 h6 (by rw [h4]; nofun)
        have hi' : i < g.ne := hne.symm ▸ hi
        refine ⟨i, fun hh => ?_, by rw [hE.orig i hi']; exact (hB.orig i j).mpr ⟨hi, t, h2, h7⟩⟩
        obtain ⟨f, _, h8⟩ := (hmem i).mp hh
        have := (hS.frame.lk.link f i h8).2.2.1
        rw [(hS.frame.lk.first i (Nat.lt_of_lt_of_le hi' hE.ne)).mpr hi] at this
        cases this
  obtain ⟨s1, s2⟩ := start_ok hbas
  obtain ⟨M, e1, v1, w1⟩ := removeAll_ok hbas fuel' R [] _ s1 s2 nofun (fun _ h => h) hnd
  rw [List.nil_append] at v1 w1
  exact ⟨M, e1, ⟨h1, hk, hn, hB, hS, hE, ha, hbas, v1, w1⟩, hL⟩

/-! ### consequences -/

variable {info : List VarInfo} {m : Nat} {inc : Nat → Nat → Bool} {g G : BG} {R : List Nat} {M : Mem}

/-- the variables left -/
def Left (info : List VarInfo) (G : BG) (R : List Nat) (j : Nat) : Prop := Alive (tapeOf info).length G (fun i _ => i ∈ R) j

theorem Ctx.left_lt (_h : Ctx info m inc g G R M) {j : Nat} (hj : j < (tapeOf info).length) : Left info G R j :=
  ⟨Nat.lt_of_lt_of_le hj _h.basis.le, .inl hj⟩

theorem Ctx.left_mem (h : Ctx info m inc g G R M) {i j : Nat} (hi : i ∉ R) (hj : j ∈ (G.e i).orig) : Left info G R j :=
  ⟨h.basis.w.bound i j hj, .inr ⟨i, hj, hi⟩⟩

/-- variables of given equations are given -/
theorem Ctx.orig (h : Ctx info m inc g G R M) {i : Nat} (hi : i < m) (j : Nat) :
    j ∈ (G.e i).orig ↔ ∃ t, (tapeOf info)[j]? = some t ∧ inc i t = true := by
  rw [h.ext.orig i (h.built.ne.symm ▸ hi), h.built.orig]
  simp [hi]

theorem Ctx.lt_tape {j t : Nat} (ht : (tapeOf info)[j]? = some t) : j < (tapeOf info).length := (List.getElem?_eq_some_iff.mp ht).1

/-- antiderivatives of variables left are left -/
theorem Ctx.left_anti (h : Ctx info m inc g G R M) {k j : Nat} (hk : Left info G R k) (hj : (G.v k).anti = some j) : Left info G R j := by
  by_cases hlt : k < (tapeOf info).length
  · exact h.left_lt (h.basis.low k j hlt hj)
  · rcases hk.2 with x | ⟨i, hi, hiR⟩
    · exact absurd x hlt
    · have hine : i < G.ne := by
        by_contra hc
        rw [h.basis.kept.fresh i (by omega)] at hi
        cases hi
      by_cases him : i < m
      · obtain ⟨t, ht, _⟩ := (h.orig him k).mp hi
        exact absurd (Ctx.lt_tape ht) hlt
      · cases hf : (G.e i).diffOf with
        | none => exact absurd ((h.s.frame.lk.first i hine).mp hf) him
        | some f =>
          have hd := h.s.frame.lk.unlink f i hine hf
          obtain ⟨a, ha, hx⟩ := (h.basis.chain f i hd k).mp hi
          have := (h.basis.w.link a k hx).2.2
          rw [hj] at this
          cases this
          refine h.left_mem (fun hh => ?_) ha
          rw [(h.basis.mem f hh).2.1] at hd
          cases hd

/-- positions on the tape: given variables -/
theorem Ctx.vt_given (h : Ctx info m inc g G R M) {j t : Nat} (ht : (tapeOf info)[j]? = some t) : M.vt j = t := by
  have hj := Ctx.lt_tape ht
  rw [h.v.vt j (h.left_lt hj), if_pos hj, ht]
  rfl

theorem Ctx.vt_lt (h : Ctx info m inc g G R M) {j : Nat} (hj : Left info G R j) : j < (tapeOf info).length ↔ M.vt j < info.length := by
  constructor
  · intro hlt
    obtain ⟨x, hx, _⟩ := (h.built.mem _).mp (List.getElem_mem hlt)
    rw [h.vt_given (List.getElem?_eq_getElem hlt)]
    exact (List.getElem?_eq_some_iff.mp hx).1
  · intro hlt
    by_contra hc
    rw [h.v.vt j hj, if_neg hc] at hlt
    omega

theorem Ctx.vt_inj (h : Ctx info m inc g G R M) {j k : Nat} (hj : Left info G R j) (hk : Left info G R k) (e : M.vt j = M.vt k) : j = k := by
  have hlt : j < (tapeOf info).length ↔ k < (tapeOf info).length := by rw [h.vt_lt hj, h.vt_lt hk, e]
  by_cases hjn : j < (tapeOf info).length
  · have hkn := hlt.mp hjn
    rw [h.vt_given (List.getElem?_eq_getElem hjn), h.vt_given (List.getElem?_eq_getElem hkn)] at e
    exact (List.Nodup.getElem_inj_iff h.built.nodup).mp e
  · have hkn : ¬ k < (tapeOf info).length := fun x => hjn (hlt.mpr x)
    rw [h.v.vt j hj, h.v.vt k hk, if_neg hjn, if_neg hkn] at e
    obtain ⟨p, hp⟩ := List.mem_iff_getElem?.mp ((h.v.mem j).mpr hj)
    obtain ⟨q, hq⟩ := List.mem_iff_getElem?.mp ((h.v.mem k).mpr hk)
    have p1 := h.v.pos hp
    have q1 := h.v.pos hq
    rw [h.v.vi p j hp, h.v.vi q k hq] at e
    have : p = q := by omega
    subst this
    rw [hp] at hq
    exact Option.some.inj hq

end Verif.Dae.Remove
