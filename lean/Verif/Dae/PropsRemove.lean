import Verif.Dae.LemmasRemove6
import Verif.Dae.PropsSoares
import Verif.Dae.PropsIndex
/-
Property theorems C77: the information about the system reduced by the method of Soares and Secchi.
-/
namespace Verif.Dae.Remove
open Verif.Dae.Soares

theorem Ctx.count {info : List VarInfo} {m : Nat} {inc : Nat → Nat → Bool} {g G : BG} {R : List Nat} {M : Mem}
    (h : Ctx info m inc g G R M) : M.el.length + R.length = G.ne := by
  have hp : (M.el ++ R).Perm (List.range G.ne) := by
    refine (List.perm_ext_iff_of_nodup ?_ List.nodup_range).mpr fun i => ?_
    · exact List.nodup_append'.mpr ⟨h.e.nodup, h.basis.nodup, fun i hi => ((h.e.mem i).mp hi).2⟩
    · rw [List.mem_append, List.mem_range, h.e.mem]
      constructor
      · rintro (⟨x, _⟩ | x)
        · exact x
        · exact (h.basis.mem i x).1
      · intro x
        by_cases hi : i ∈ R
        · exact .inr hi
        · exact .inl ⟨x, hi⟩
  have := hp.length_eq
  rwa [List.length_append, List.length_range] at this

/-- C77: after an accepted system was differentiated, the derivatives differentiated last are removed again without undefined
behaviour, whatever the order; nothing is returned if and only if no derivative of a given equation is left, otherwise the
information is right, and the equations are those which were not removed. -/
theorem reduced_information_right_partial {info : List VarInfo} {m : Nat} {inc : Nat → Nat → Bool} {g : BG}
    (hc : construct info m inc = .ok g) (h1 : OneDerivative info) (hk : ConstantsPlain info) (hg : Occurs info m inc)
    {order order' : List Nat → List Nat} (ho : ∀ l, (order l).Perm l) (ho' : ∀ l, (order' l).Perm l)
    {fuel : Nat} {G : BG} {last : List Nat} (hr : detect false order fuel [] g = .ok (G, last)) {fuel' : Nat} (hf : 2 ≤ fuel') :
    ((∀ i < m, ∀ d, (G.e i).diff = some d → i ∈ last) ∧ finish order' fuel' info m (G, last) = .ok none) ∨
    (¬ (∀ i < m, ∀ d, (G.e i).diff = some d → i ∈ last) ∧
      ∃ vs es, finish order' fuel' info m (G, last) = .ok (some (vs, es)) ∧ Right info m inc vs es ∧ es.length + last.length = G.ne ∧
        ∀ i < m, ∀ n, (∃ k, EqDer es n i k) ↔ ∃ k, Chain (fun i => (G.e i).diff) i n k ∧ ∀ f ∈ last, (G.e f).diff ≠ some k) := by
  obtain ⟨fuel', rfl⟩ : ∃ n, fuel' = n + 2 := ⟨fuel' - 2, by omega⟩
  obtain ⟨M, e, h, hL⟩ := ctx hc h1 hk hg ho ho' hr fuel'
  generalize hR : order' (last.filterMap fun i => (G.e i).diff) = R at e h
  have hmem : ∀ d, d ∈ R ↔ ∃ i ∈ last, (G.e i).diff = some d := by
    intro d
    rw [← hR, (ho' _).mem_iff, List.mem_filterMap]
  have hlen : R.length = last.length := by
    rw [← hR, (ho' _).length_eq]
    have : ∀ l : List Nat, (∀ i ∈ l, ∃ d, (G.e i).diff = some d) → (l.filterMap fun i => (G.e i).diff).length = l.length := by
      intro l
      induction l with
      | nil => intro _; rfl
      | cons a l ih =>
        intro hl
        obtain ⟨d, hd⟩ := hl a (.head _)
        rw [List.filterMap_cons_some (f := fun i => (G.e i).diff) hd, List.length_cons, List.length_cons, ih fun i hi => hl i (.tail _ hi)]
    exact this last fun i hi => by obtain ⟨d, hd, _⟩ := hL.diff i hi; exact ⟨d, hd⟩
  have hge : ¬ M.el.length < m := by
    intro hlt
    have := h.el_first M.el.length hlt
    rw [List.getElem?_eq_none (Nat.le_refl _)] at this
    cases this
  have hfin : finish order' (fuel' + 2) info m (G, last) = generate info m M := by
    unfold finish
    simp only [hR, e]
  have hdiff : ∀ i d, i < m → ((M.g.e i).diff = some d ↔ (G.e i).diff = some d ∧ d ∉ R) := fun i d hi => h.e.diff i d (h.lt_stays hi)
  have hmt : ∀ i, i ∈ M.el.take m ↔ i < m := by
    intro i
    rw [List.mem_iff_getElem?]
    constructor
    · rintro ⟨p, hp⟩
      rw [List.getElem?_take] at hp
      by_cases hpm : p < m
      · rw [if_pos hpm] at hp
        exact (h.el_lt hp).mp hpm
      · rw [if_neg hpm] at hp; cases hp
    · intro hi
      exact ⟨i, by rw [List.getElem?_take, if_pos hi]; exact h.el_first i hi⟩
  have htake : (M.el.take m).all (fun i => (M.g.e i).diff.isNone) = true ↔ ∀ i < m, ∀ d, (G.e i).diff = some d → i ∈ last := by
    rw [List.all_eq_true]
    constructor
    · intro hall i hi d hd
      have hn := hall i ((hmt i).mpr hi)
      rw [Option.isNone_iff_eq_none] at hn
      by_contra hc'
      have : (M.g.e i).diff = some d := (hdiff i d hi).mpr ⟨hd, fun hh => by
        obtain ⟨f, hf, h2⟩ := (hmem d).mp hh
        exact hc' (h.s.frame.lk.dE_inj f i d h2 hd ▸ hf)⟩
      rw [hn] at this
      cases this
    · intro hall p hp'
      have hp := (hmt p).mp hp'
      rw [Option.isNone_iff_eq_none]
      cases hd : (M.g.e p).diff with
      | none => rfl
      | some d =>
        obtain ⟨h3, h4⟩ := (hdiff p d hp).mp hd
        exact absurd ((hmem d).mpr ⟨p, hall p hp d h3, h3⟩) h4
  rw [hfin]
  unfold generate
  rw [if_neg hge]
  by_cases ha : ∀ i < m, ∀ d, (G.e i).diff = some d → i ∈ last
  · left
    exact ⟨ha, by rw [if_pos (htake.mpr ha)]⟩
  · right
    refine ⟨ha, ?_⟩
    obtain ⟨vs0, vs, h3, h4, hF⟩ := h.final
    rw [if_neg (fun x => ha (htake.mp x))]
    simp only [h3, h4]
    refine ⟨vs, _, rfl, h.right hF, ?_, fun i hi n => ?_⟩
    · rw [List.length_mapIdx, ← hlen, h.count]
    · constructor
      · rintro ⟨k, hk'⟩
        obtain ⟨j, h5, h6⟩ := (h.eqDer hi n k).mp hk'
        refine ⟨j, (up_chain _ _).mp h6, fun f hf hd => ?_⟩
        exact ((h.e.mem j).mp (List.mem_of_getElem? h5)).2 ((hmem j).mpr ⟨f, hf, hd⟩)
      · rintro ⟨j, h5, h6⟩
        have h7 := (up_chain (f := dE G) _ _).mpr h5
        have hj : j < G.ne := by
          cases n with
          | zero => cases h7; exact Nat.lt_of_lt_of_le hi h.s.frame.lk.le
          | succ n =>
            simp only [up, Option.bind_eq_some_iff] at h7
            obtain ⟨c, _, hcj⟩ := h7
            exact (h.s.frame.lk.link c j hcj).2.1
        obtain ⟨p, hp⟩ := List.mem_iff_getElem?.mp ((h.e.mem j).mpr ⟨hj, fun hh => by
          obtain ⟨f, hf, hd⟩ := (hmem j).mp hh
          exact h6 f hf hd⟩)
        exact ⟨p, (h.eqDer hi n p).mpr ⟨j, hp, h7⟩⟩

/-- C77: the whole reduction ends with an exception, with nothing to do, or with right information -/
theorem reduceIndex_right_partial {info : List VarInfo} {m : Nat} {inc : Nat → Nat → Bool} {g : BG}
    (hc : construct info m inc = .ok g) (h1 : OneDerivative info) (hk : ConstantsPlain info) (hg : Occurs info m inc)
    {order order' : List Nat → List Nat} (ho : ∀ l, (order l).Perm l) (ho' : ∀ l, (order' l).Perm l)
    {fuel : Nat} (hf : info.length + 2 ≤ fuel) :
    reduceIndex order order' fuel info m inc = .error .exception ∨ reduceIndex order order' fuel info m inc = .ok none ∨
    ∃ vs es, reduceIndex order order' fuel info m inc = .ok (some (vs, es)) ∧ Right info m inc vs es := by
  unfold reduceIndex
  rw [hc]
  show (detect false order fuel [] g).bind _ = _ ∨ (detect false order fuel [] g).bind _ = _ ∨ ∃ vs es, (detect false order fuel [] g).bind _ = _ ∧ _
  rcases soares_correct hc h1 ho fuel with ⟨_, e⟩ | e | ⟨G, last, e, _⟩
  · omega
  · rw [e]
    exact .inl rfl
  · rw [e]
    rcases reduced_information_right_partial hc h1 hk hg ho ho' e (fuel' := fuel) (by omega) with ⟨_, r⟩ | ⟨_, vs, es, r, r', _⟩
    · exact .inr (.inl r)
    · exact .inr (.inr ⟨vs, es, r, r'⟩)

theorem constantsPlain_of {info : List VarInfo} (h : (info.all fun x => x.timeDep || x.anti.isNone) = true) : ConstantsPlain info := by
  intro x hx hd
  have := List.all_eq_true.mp h x hx
  rw [hd, Bool.false_or, Option.isNone_iff_eq_none] at this
  exact this

theorem occurs_of {info : List VarInfo} {m : Nat} {inc : Nat → Nat → Bool}
    (h : ∀ t < info.length, (info[t]?).bind VarInfo.anti = none ∨ ∃ i < m, inc i t = true) : Occurs info m inc := by
  intro t x hx _ ha
  rcases h t (List.getElem?_eq_some_iff.mp hx).1 with h | h
  · rw [hx] at h
    exact absurd h ha
  · exact h

/-- the pendulum: the theorem applies, and there are 11 variables and 9 equations -/
example : ∃ vs es, reduceIndex id id 20 (vars pendulum) 5 (rows pendulumRows) = .ok (some (vs, es)) ∧
    Right (vars pendulum) 5 (rows pendulumRows) vs es ∧ vs.length = 11 ∧ es.length = 9 := by
  have hl : ((reduceIndex id id 20 (vars pendulum) 5 (rows pendulumRows)).toOption.bind id).map
      (fun r => (r.1.length, r.2.length)) = some (11, 9) := by decide +kernel
  cases hc : construct (vars pendulum) 5 (rows pendulumRows) with
  | error e =>
    have : (construct (vars pendulum) 5 (rows pendulumRows)).isOk = true := by decide +kernel
    rw [hc] at this
    cases this
  | ok g =>
    rcases reduceIndex_right_partial hc (oneDerivative_of (by decide +kernel)) (constantsPlain_of (by decide +kernel))
      (occurs_of (by decide +kernel)) (order := id) (order' := id) (fun _ => .refl _) (fun _ => .refl _) (fuel := 20) (by decide +kernel)
      with e | e | ⟨vs, es, e, hR⟩
    · rw [e] at hl; cases hl
    · rw [e] at hl; cases hl
    · rw [e] at hl
      simp only [Except.toOption, Option.bind_some, id, Option.map_some, Option.some.injEq, Prod.mk.injEq] at hl
      exact ⟨vs, es, e, hR, hl.1, hl.2⟩

/-- C77 fails for a given derivative which occurs in no equation: variables v, v', x, x', z, equations c(v) = 0, a(v', x) = 0,
d(v, z) = 0. x' is removed with the derivative of a, though it is one of the given variables, and the others move up: z' is taken
for a given variable, there is no information about it, and d and its derivative are both assigned to z. -/
theorem unused_derivative_counterexample :
    ∃ vs es, (∀ fuel, reduceIndex id id (fuel + 9) (vars [none, some 0, none, some 2, none]) 3 (rows [[0], [1, 2], [0, 4]]) = .ok (some (vs, es))) ∧
    vs.length = 5 ∧ (∃ e e', es[2]? = some e ∧ es[4]? = some e' ∧ e'.anti = some 2 ∧ e.assigned = some 4 ∧ e'.assigned = some 4) ∧
    ¬ Right (vars [none, some 0, none, some 2, none]) 3 (rows [[0], [1, 2], [0, 4]]) vs es := by
  refine ⟨_, _, fun fuel => rfl, by decide +kernel, ⟨_, _, rfl, rfl, rfl, rfl, rfl⟩, fun h => ?_⟩
  exact absurd (h.distinct 2 4 _ _ 4 rfl rfl rfl rfl) (by decide)

/-- C77, failure: a variable which stays is assigned to an equation which was freed. `printResultInfo`, bipartite_graph.hpp
l.360-363, called if the verbosity is not `None`, follows that pointer. Variables x, x', y, y', equations of x' and y', of x and y:
y' is assigned to the derivative of the second equation. -/
theorem dangling_assignment_counterexample :
    ∃ g G last M i, construct (vars [none, some 0, none, some 2]) 2 (rows [[1, 3], [0, 2]]) = .ok g ∧
    detect false id 6 [] g = .ok (G, last) ∧
    (last.filterMap fun i => (G.e i).diff).foldlM (remove 6) (start (vars [none, some 0, none, some 2]) G) = .ok M ∧
    3 ∈ M.vl ∧ M.vt 3 = 3 ∧ (M.g.v 3).assign = some i ∧ i ∉ M.el := by
  refine ⟨_, _, _, _, 2, rfl, rfl, rfl, ?_, ?_, ?_, ?_⟩ <;> decide +kernel

end Verif.Dae.Remove
