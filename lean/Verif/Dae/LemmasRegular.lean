import Verif.Dae.LemmasTerm
import Verif.Dae.LemmasConstruct
namespace Verif.Dae

/-- a graph at the start: nothing assigned or differentiated, derivative links without cycles -/
structure Ready (g : BG) : Prop where
  w : W g
  va : ∀ j, (g.v j).assign = none
  ea : ∀ i, (g.e i).assign = none
  diff : ∀ i, (g.e i).diff = none ∧ (g.e i).diffOf = none
  rank : ∃ r : Nat → Nat, ∀ j d, (g.v j).deriv = some d → r j < r d

theorem Built.ready {info : List VarInfo} {m : Nat} {inc : Nat → Nat → Bool} {tape : List Nat} {g : BG}
    (h : Built info m inc tape g) : Ready g := ⟨h.w, h.va, h.ea, h.diff, h.rank⟩

theorem Ready.pinv {g : BG} (h : Ready g) : PInv g.ne (fun k => 0 ≤ k ∧ k < g.ne) g := by
  refine ⟨h.w, ⟨fun k j => by rw [h.va, h.ea]; simp, (fun j k hj => by rw [h.va] at hj; cases hj)⟩,
    (fun k j hj => by rw [h.ea] at hj; cases hj), ⟨?_, ?_, ?_, Nat.le_refl _, ?_⟩, fun k hk => ⟨hk.2, h.ea k, (h.diff k).1⟩,
    fun k hk _ hq => absurd ⟨Nat.zero_le _, hk⟩ hq⟩
  · intro i d _ hd; rw [(h.diff i).1] at hd; cases hd
  · intro i d _ hd; rw [(h.diff d).2] at hd; cases hd
  · intro d hd; rw [(h.diff d).2]; simp [hd]
  · intro i d _ hd; rw [(h.diff d).2] at hd; cases hd

theorem range_eq_range' (n : Nat) : List.range n = List.range' 0 n := List.range_eq_range'

/-! ### chains -/

theorem up_back {f : Nat → Option Nat} (hf : ∀ x y z, f x = some z → f y = some z → x = y) : ∀ (n k a b t : Nat),
    up f n a = some t → up f (k + n) b = some t → up f k b = some a := by
  intro n
  induction n with
  | zero => intro k a b t h1 h2; cases h1; exact h2
  | succ n ih =>
    intro k a b t h1 h2
    rw [← Nat.add_assoc] at h2
    simp only [up, Option.bind_eq_some_iff] at h1 h2
    obtain ⟨x, h3, h4⟩ := h1
    obtain ⟨y, h5, h6⟩ := h2
    have := hf x y t h4 h6
    subst this
    exact ih k a b x h3 h5

theorem W.dV_inj {g : BG} (h : W g) : ∀ x y z, dV g x = some z → dV g y = some z → x = y := by
  intro x y z h1 h2
  have e1 := (h.link x z h1).2.2
  rw [(h.link y z h2).2.2] at e1
  exact (Option.some.inj e1).symm

theorem W.derivOf_of_up {g : BG} (h : W g) {a : Nat} : ∀ n c, up (dV g) n a = some c → DerivOf (fun j => (g.v j).anti) a c := by
  intro n
  induction n with
  | zero => intro c hc; cases hc; exact .refl
  | succ n ih =>
    intro c hc
    simp only [up, Option.bind_eq_some_iff] at hc
    obtain ⟨b, h1, h2⟩ := hc
    exact .step (ih b h1) (h.link b c h2).2.2

theorem W.up_of_derivOf {g : BG} (h : W g) {a c : Nat} (hd : DerivOf (fun j => (g.v j).anti) a c) :
    c < g.nv → ∃ n, up (dV g) n a = some c := by
  induction hd with
  | refl => intro _; exact ⟨0, rfl⟩
  | @step b c _ hbc ih =>
    intro hc
    have h1 := h.unlink b c hc hbc
    obtain ⟨n, hn⟩ := ih (h.link b c h1).1
    exact ⟨n + 1, by simp only [up, hn, Option.bind_some]; exact h1⟩

/-- chains of derivatives end -/
theorem Ready.tops {g : BG} (h : Ready g) : ∀ j, j < g.nv → ∃ n t, up (dV g) n j = some t ∧ (g.v t).deriv = none ∧ t < g.nv := by
  obtain ⟨r, hr⟩ := h.rank
  have hB : ∀ j, j < g.nv → r j ≤ (Finset.range g.nv).sup r := fun j hj => Finset.le_sup (Finset.mem_range.mpr hj)
  suffices H : ∀ b j, j < g.nv → (Finset.range g.nv).sup r - r j = b → ∃ n t, up (dV g) n j = some t ∧ (g.v t).deriv = none ∧ t < g.nv from
    fun j hj => H _ j hj rfl
  intro b
  induction b using Nat.strong_induction_on with
  | _ b ih =>
    intro j hj hb
    cases hd : (g.v j).deriv with
    | none => exact ⟨0, j, rfl, hd, hj⟩
    | some d =>
      have h1 := hr j d hd
      have hdl := (h.w.link j d hd).2.1
      have := hB j hj
      have := hB d hdl
      obtain ⟨n, t, e1, e2, e3⟩ := ih ((Finset.range g.nv).sup r - r d) (by omega) d hdl rfl
      refine ⟨1 + n, t, ?_, e2, e3⟩
      rw [up_add]
      simp only [up, Option.bind_some]
      show ((g.v j).deriv).bind _ = _
      rw [hd]; exact e1

/-- chains of differentiated equations end -/
theorem Links.tops {m : Nat} {g : BG} (h : Links m g) : ∀ i, i < g.ne → ∃ n k, up (dE g) n i = some k ∧ (g.e k).diff = none ∧ k < g.ne := by
  suffices H : ∀ b i, i < g.ne → g.ne - i = b → ∃ n k, up (dE g) n i = some k ∧ (g.e k).diff = none ∧ k < g.ne from
    fun i hi => H _ i hi rfl
  intro b
  induction b using Nat.strong_induction_on with
  | _ b ih =>
    intro i hi hb
    cases hd : (g.e i).diff with
    | none => exact ⟨0, i, rfl, hd, hi⟩
    | some d =>
      obtain ⟨l1, l2, _⟩ := h.link i d hi hd
      have := h.lt i d l1 l2
      obtain ⟨n, t, e1, e2, e3⟩ := ih (g.ne - d) (by omega) d l1 rfl
      refine ⟨1 + n, t, ?_, e2, e3⟩
      rw [up_add]
      simp only [up, Option.bind_some]
      show ((g.e i).diff).bind _ = _
      rw [hd]; exact e1

theorem Links.base_unique {m : Nat} {g : BG} (h : Links m g) {i i' : Nat} (hi : i < m) (hi' : i' < m) : ∀ n n' k,
    up (dE g) n i = some k → up (dE g) n' i' = some k → i = i' := by
  have hlt : ∀ {x}, x < m → x < g.ne := fun hx => Nat.lt_of_lt_of_le hx h.le
  have hpos : ∀ {x}, x < m → ∀ n y, y < m → up (dE g) (n + 1) x = some y → False := by
    intro x hx n y hy hu
    simp only [up, Option.bind_eq_some_iff] at hu
    obtain ⟨b, h1, h2⟩ := hu
    have hb := (h.derivatives (hlt hx) n b h1).1
    have := (h.link b y hb h2).2.1
    rw [(h.first y (hlt hy)).mpr hy] at this
    cases this
  intro n
  induction n with
  | zero =>
    intro n' k h1 h2
    cases h1
    cases n' with
    | zero => cases h2; rfl
    | succ n' => exact absurd h2 (fun h2 => hpos hi' n' i hi h2)
  | succ n ih =>
    intro n' k h1 h2
    cases n' with
    | zero => cases h2; exact absurd h1 (fun h1 => hpos hi n i' hi' h1)
    | succ n' =>
      simp only [up, Option.bind_eq_some_iff] at h1 h2
      obtain ⟨b, h3, h4⟩ := h1
      obtain ⟨b', h5, h6⟩ := h2
      have e1 := (h.link b k (h.derivatives (hlt hi) n b h3).1 h4).2.1
      rw [(h.link b' k (h.derivatives (hlt hi') n' b' h5).1 h6).2.1] at e1
      cases e1
      exact ih n' b h3 h5

/-! ### regular systems -/

theorem Ready.pot {g : BG} (h : Ready g) (hr : Regular g.ne (fun i j => j ∈ (g.e i).orig) (fun j => (g.v j).anti)) :
    ∃ f c e n t, Pot g.ne g f c e n t := by
  obtain ⟨f, h1, h2⟩ := hr
  have hb : ∀ i, i < g.ne → f i < g.nv := fun i hi => h.w.bound i _ (h1 i hi)
  have : ∀ i, ∃ n t, i < g.ne → up (dV g) n (f i) = some t ∧ (g.v t).deriv = none ∧ t < g.nv := by
    intro i
    by_cases hi : i < g.ne
    · obtain ⟨n, t, r⟩ := h.tops (f i) (hb i hi)
      exact ⟨n, t, fun _ => r⟩
    · exact ⟨0, 0, fun x => absurd x hi⟩
  choose n t hnt using this
  refine ⟨f, fun _ => 0, id, n, t, fun i _ => ⟨rfl, (h.diff i).1⟩, fun i hi => hnt i hi, ?_, h1⟩
  intro i i' hi hi' heq
  have e1 := (hnt i hi).1
  have e2 := (hnt i' hi').1
  rw [← heq] at e2
  rcases Nat.le_total (n i) (n i') with hle | hle
  · obtain ⟨k, hk⟩ := Nat.exists_eq_add_of_le hle
    rw [hk, Nat.add_comm] at e2
    exact (h2 i' i hi' hi (h.w.derivOf_of_up _ _ (up_back h.w.dV_inj _ _ _ _ _ e1 e2))).symm
  · obtain ⟨k, hk⟩ := Nat.exists_eq_add_of_le hle
    rw [hk, Nat.add_comm] at e1
    exact h2 i i' hi hi' (h.w.derivOf_of_up _ _ (up_back h.w.dV_inj _ _ _ _ _ e2 e1))

theorem regular_of_done {g g' : BG} (hg : W g) (hP : PInv g.ne (fun _ => False) g') (hE : Ext g g') :
    Regular g.ne (fun i j => j ∈ (g.e i).orig) (fun j => (g.v j).anti) := by
  have : ∀ i, ∃ x n k s j, i < g.ne → x ∈ (g.e i).orig ∧ up (dE g') n i = some k ∧ (g'.e k).assign = some j ∧
      (g'.v j).deriv = none ∧ up (dV g') s x = some j := by
    intro i
    by_cases hi : i < g.ne
    · have hi' := Nat.lt_of_lt_of_le hi hE.ne
      obtain ⟨n, k, h1, h2, h3⟩ := hP.links.tops i hi'
      obtain ⟨j, h4, h5⟩ := hP.top k h3 h2 (fun h => h)
      obtain ⟨x, h6, s, h7⟩ := hP.links.origins hi' n k h1 j (hP.inc k j h4)
      rw [hE.orig i hi] at h6
      exact ⟨x, n, k, s, j, fun _ => ⟨h6, h1, h4, h5, h7⟩⟩
    · exact ⟨0, 0, 0, 0, 0, fun x => absurd x hi⟩
  choose f n k s j hf using this
  refine ⟨f, fun i hi => (hf i hi).1, fun i i' hi hi' hd => ?_⟩
  obtain ⟨a1, a2, a3, a4, a5⟩ := hf i hi
  obtain ⟨b1, b2, b3, b4, b5⟩ := hf i' hi'
  obtain ⟨r, hr⟩ := hg.up_of_derivOf hd (hg.bound i' _ b1)
  have hr' := (up_mono (S := fun _ => True) (f' := dV g') (fun x y _ h => ⟨hE.deriv x y h, trivial⟩) trivial r _ hr).1
  have e1 : up (dV g') (r + s i') (f i) = some (j i') := by rw [up_add, hr', Option.bind_some]; exact b5
  have := (up_end_eq a5 a4 e1 b4).2
  rw [this] at b3
  have e2 := (hP.agree.iff _ _).mp a3
  rw [(hP.agree.iff _ _).mp b3] at e2
  have hk : k i' = k i := Option.some.inj e2
  rw [hk] at b2
  exact hP.links.base_unique hi hi' _ _ _ a2 b2

end Verif.Dae
