import Verif.Dae.LemmasTape
import Mathlib.Tactic.ByContra
/-
Helper lemmas C78: the loop over the new equations.
-/
namespace Verif.Dae.Tape
open Verif.Dae.Remove

variable {U : Type}

/-! ### equations -/

/-- `Right.eqs` -/
structure Eqs (m : Nat) (es : List EqOut) : Prop where
  le : m ≤ es.length
  given : ∀ (k : Nat) e, es[k]? = some e → k < m → e.anti = none
  new : ∀ (k : Nat) e, es[k]? = some e → m ≤ k → ∃ q < k, e.anti = some q
  inj : ∀ (k k' : Nat) e e' q, es[k]? = some e → es[k']? = some e' → e.anti = some q → e'.anti = some q → k = k'

variable {m : Nat} {es : List EqOut}

theorem Eqs.derivative (h : Eqs m es) {q k : Nat} : derivative es q = some k ↔ ∃ e, es[k]? = some e ∧ e.anti = some q := by
  unfold Tape.derivative
  constructor
  · intro hf
    have h1 := List.find?_some hf
    rw [beq_iff_eq, Option.bind_eq_some_iff] at h1
    exact h1
  · rintro ⟨e, h1, h2⟩
    cases hf : (List.range es.length).find? fun q' => (es[q']?).bind EqOut.anti == some q with
    | none =>
      have := List.find?_eq_none.mp hf k (List.mem_range.mpr (List.getElem?_eq_some_iff.mp h1).1)
      rw [h1] at this
      simp [h2] at this
    | some k' =>
      have h3 := List.find?_some hf
      rw [beq_iff_eq, Option.bind_eq_some_iff] at h3
      obtain ⟨e', h4, h5⟩ := h3
      rw [h.inj k' k e' e q h4 h1 h5 h2]

theorem Eqs.der_lt (h : Eqs m es) {k q : Nat} {e : EqOut} (h1 : es[k]? = some e) (h2 : e.anti = some q) : m ≤ k ∧ q < k := by
  by_cases hk : k < m
  · rw [h.given k e h1 hk] at h2; cases h2
  · obtain ⟨q', h3, h4⟩ := h.new k e h1 (by omega)
    rw [h2] at h4
    cases h4
    exact ⟨by omega, h3⟩

theorem Eqs.unique (h : Eqs m es) {n i k : Nat} (h1 : EqDer es n i k) : ∀ {n' i'}, i < m → i' < m → EqDer es n' i' k → n = n' ∧ i = i' := by
  induction h1 with
  | zero hi =>
    intro n' i' hm hm' h2
    cases h2 with
    | zero _ => exact ⟨rfl, rfl⟩
    | succ a b c =>
      rw [h.given _ _ b hm] at c; cases c
  | succ a b c ih =>
    intro n' i' hm hm' h2
    cases h2 with
    | zero _ => rw [h.given _ _ b hm'] at c; cases c
    | succ a' b' c' =>
      rw [b] at b'
      cases b'
      rw [c] at c'
      cases c'
      obtain ⟨x, y⟩ := ih hm hm' a'
      exact ⟨congrArg _ x, y⟩

/-- the result of `levels` -/
inductive Lv (es : List EqOut) : List Nat → List (List Nat) → Prop
  | nil : Lv es [] []
  | cons {l ls} : l ≠ [] → Lv es (l.filterMap (derivative es)) ls → Lv es l (l :: ls)

theorem Eqs.levels (h : Eqs m es) : ∀ (fuel a : Nat) (l : List Nat), (∀ k ∈ l, a ≤ k ∧ k < es.length) → es.length ≤ fuel + a →
    ∃ ls, levels es (fuel + 1) l = .ok ls ∧ Lv es l ls := by
  intro fuel
  induction fuel with
  | zero =>
    intro a l hl hf
    unfold Tape.levels
    cases l with
    | nil => exact ⟨[], rfl, .nil⟩
    | cons k l => have := hl k (.head _); omega
  | succ fuel ih =>
    intro a l hl hf
    unfold Tape.levels
    by_cases he : l = []
    · rw [if_pos he]
      exact ⟨[], rfl, he ▸ .nil⟩
    · rw [if_neg he]
      obtain ⟨ls, h1, h2⟩ := ih (a + 1) (l.filterMap (Tape.derivative es)) (fun k hk => by
        obtain ⟨q, h3, h4⟩ := List.mem_filterMap.mp hk
        obtain ⟨e, h5, h6⟩ := h.derivative.mp h4
        have := (h.der_lt h5 h6).2
        have := (hl q h3).1
        exact ⟨by omega, (List.getElem?_eq_some_iff.mp h5).1⟩) (by omega)
      rw [h1]
      exact ⟨_, rfl, .cons he h2⟩

/-! ### what the equations are -/

/-- equation `k`, the `n`-th derivative of the given equation `i`, is `f` -/
inductive Val (d : U → U) (vs : List VarOut) (T : Nat) (es : List EqOut) (dep0 : List (Ex U)) : Nat → Nat → Nat → Ex U → Prop
  | zero {i f} : dep0[i]? = some f → Val d vs T es dep0 i 0 i f
  | succ {i n q f k e} : Val d vs T es dep0 i n q f → es[k]? = some e → e.anti = some q → Val d vs T es dep0 i (n + 1) k (dt d vs T f)

variable {d : U → U} {vs : List VarOut} {T : Nat} {dep0 : List (Ex U)}

theorem Val.eqDer (hle : dep0.length ≤ es.length) {i n k : Nat} {f : Ex U} (h : Val d vs T es dep0 i n k f) :
    i < dep0.length ∧ EqDer es n i k := by
  induction h with
  | zero h => exact ⟨(List.getElem?_eq_some_iff.mp h).1, .zero (Nat.lt_of_lt_of_le (List.getElem?_eq_some_iff.mp h).1 hle)⟩
  | succ _ h2 h3 ih => exact ⟨ih.1, .succ ih.2 h2 h3⟩

theorem Val.of {i n k : Nat} (h : EqDer es n i k) (hi : i < dep0.length) : ∃ f, Val d vs T es dep0 i n k f := by
  induction h with
  | zero _ => exact ⟨_, .zero (List.getElem?_eq_getElem hi)⟩
  | succ _ h2 h3 ih =>
    obtain ⟨f, hf⟩ := ih hi
    exact ⟨_, .succ hf h2 h3⟩

theorem Val.prefix {i n k : Nat} {f : Ex U} (h : Val d vs T es dep0 i n k f) : ∀ a ≤ n, ∃ k' f', Val d vs T es dep0 i a k' f' := by
  induction h with
  | zero h =>
    intro a ha
    obtain rfl : a = 0 := by omega
    exact ⟨_, _, .zero h⟩
  | @succ n q f k e h1 h2 h3 ih =>
    intro a ha
    by_cases hc : a ≤ n
    · exact ih a hc
    · obtain rfl : a = n + 1 := by omega
      exact ⟨_, _, .succ h1 h2 h3⟩

theorem Eqs.val (h : Eqs dep0.length es) : ∀ k < es.length, ∃ i n f, Val d vs T es dep0 i n k f := by
  intro k
  induction k using Nat.strong_induction_on with
  | _ k ih =>
    intro hk
    by_cases hm : k < dep0.length
    · exact ⟨k, 0, _, .zero (List.getElem?_eq_getElem hm)⟩
    · obtain ⟨q, h1, h2⟩ := h.new k _ (List.getElem?_eq_getElem hk) (by omega)
      obtain ⟨i, n, f, hf⟩ := ih q h1 (by omega)
      exact ⟨i, n + 1, _, .succ hf (List.getElem?_eq_getElem hk) h2⟩

/-! ### an iteration -/

/-- expressions without `time_var`, of the variables of the new system -/
def Good (vs : List VarOut) (f : Ex U) : Prop := f.Plain ∧ ∀ j ∈ f.occ, j < vs.length

theorem Good.dt (hl : ∀ (j : Nat) x u, vs[j]? = some x → x.der = some u → u < vs.length) {f : Ex U} (h : Good vs f) : Good vs (dt d vs T f) := by
  refine ⟨dt_plain d vs T h.1, fun k hk => ?_⟩
  rcases dt_occ d vs T h.1 k hk with x | ⟨j, _, x⟩
  · exact h.2 k x
  · obtain ⟨y, h1, h2⟩ := Option.bind_eq_some_iff.mp x
    exact hl j y k h1 h2

theorem timeDiff_ok {D : List (Ex U)} : ∀ (l : List Nat) (dep : List (Ex U)),
    (∀ k ∈ l, k < dep.length ∧ ∃ e q f, es[k]? = some e ∧ e.anti = some q ∧ D[q]? = some f) →
    ∃ dep', reverseTimeDiff d T es (D.map (subst' (prep vs T))) l dep = .ok dep' ∧ dep'.length = dep.length ∧
      (∀ k, k ∉ l → dep'[k]? = dep[k]?) ∧
      ∀ k ∈ l, ∀ e q f, es[k]? = some e → e.anti = some q → D[q]? = some f → dep'[k]? = some (dt d vs T f) := by
  intro l
  induction l with
  | nil => intro dep _; exact ⟨dep, rfl, rfl, fun _ _ => rfl, nofun⟩
  | cons a l ih =>
    intro dep hl
    obtain ⟨ha, e, q, f, h1, h2, h3⟩ := hl a (.head _)
    have hstep : timeDiff1 d T es (D.map (subst' (prep vs T))) dep a = .ok (dep.set a (dt d vs T f)) := by
      unfold timeDiff1
      simp only [h1, Option.bind_some, h2, List.getElem?_map, h3, Option.map_some, if_pos ha]
      rfl
    obtain ⟨dep', e1, e2, e3, e4⟩ := ih (dep.set a (dt d vs T f)) fun k hk => by
      rw [List.length_set]
      exact hl k (.tail _ hk)
    refine ⟨dep', ?_, by rw [e2, List.length_set], fun k hk => ?_, fun k hk e' q' f' g1 g2 g3 => ?_⟩
    · unfold reverseTimeDiff
      rw [List.foldlM_cons, hstep]
      exact e1
    · rw [e3 k (fun x => hk (.tail _ x)), List.getElem?_set_ne (fun x : a = k => hk (x ▸ .head _))]
    · by_cases hkl : k ∈ l
      · exact e4 k hkl e' q' f' g1 g2 g3
      · have : k = a := (List.mem_cons.mp hk).resolve_right hkl
        subst this
        rw [h1] at g1
        cases g1
        rw [h2] at g2
        cases g2
        rw [h3] at g3
        cases g3
        rw [e3 k hkl, List.getElem?_set_self ha]

theorem resize_length (l : List (Ex U)) (n : Nat) : (resize l n).length = n := by
  unfold resize
  rw [List.length_append, List.length_take, List.length_replicate]
  omega

theorem resize_get {l : List (Ex U)} {n k : Nat} (h : k < l.length) (hn : k < n) : (resize l n)[k]? = l[k]? := by
  unfold resize
  rw [List.getElem?_append_left (by rw [List.length_take]; omega), List.getElem?_take, if_pos hn]

theorem prepare_ok (hl : ∀ (j : Nat) x u, vs[j]? = some x → x.der = some u → u < vs.length) {n : Nat} (hn : vs.length ≤ n) :
    ∃ σ : List (Ex U), prepare vs n T = .ok σ ∧ σ.length = n ∧ ∀ k < vs.length, σ[k]? = some (prep vs T k) := by
  have h1 : ∀ j, prepare1 (U := U) vs n T j = .ok (if j < vs.length then prep vs T j else if j + 1 = n then .var T else .const 0) := by
    intro j
    unfold prepare1 prep
    cases hx : vs[j]? with
    | none =>
      have := List.getElem?_eq_none_iff.mp hx
      simp only
      rw [if_neg (show ¬ j < vs.length by omega)]
    | some x =>
      have := (List.getElem?_eq_some_iff.mp hx).1
      simp only [Option.bind_some]
      rw [if_pos this]
      cases hd : x.der with
      | none => rfl
      | some u =>
        have := hl j x u hx hd
        simp only
        rw [if_pos (by omega)]
  have h2 : ∀ l : List Nat, l.mapM (prepare1 (U := U) vs n T) =
      .ok (l.map fun j => if j < vs.length then prep vs T j else if j + 1 = n then .var T else .const 0) := by
    intro l
    induction l with
    | nil => rfl
    | cons a l ih => rw [List.mapM_cons, h1, ih]; rfl
  refine ⟨_, h2 _, by rw [List.length_map, List.length_range], fun k hk => ?_⟩
  rw [List.getElem?_map, List.getElem?_range (by omega), Option.map_some, if_pos hk]

theorem map_subst {σ : List (Ex U)} {τ : Nat → Ex U} (hσ : ∀ k < vs.length, σ[k]? = some (τ k)) {D : List (Ex U)} (hD : ∀ f ∈ D, Good vs f) :
    D.map (subst σ) = D.map (subst' τ) := by
  refine List.map_congr_left fun f hf => subst_eq fun k hk => hσ k ((hD f hf).2 k hk)

/-- the equations up to the derivatives of order `n` are there -/
structure Upto (d : U → U) (vs : List VarOut) (T : Nat) (es : List EqOut) (dep0 : List (Ex U)) (n : Nat) (D : List (Ex U)) : Prop where
  len : D.length = es.length
  good : ∀ f ∈ D, Good vs f
  val : ∀ i a k f, Val d vs T es dep0 i a k f → a ≤ n → D[k]? = some f

theorem Upto.round (hE : Eqs dep0.length es) (hl : ∀ (j : Nat) x u, vs[j]? = some x → x.der = some u → u < vs.length)
    {n : Nat} {D : List (Ex U)} (h : Upto d vs T es dep0 n D) {l : List Nat} (hm : ∀ k, k ∈ l ↔ ∃ i < dep0.length, EqDer es (n + 1) i k) :
    ∃ dep, reverseTimeDiff d T es (D.map (subst' (prep vs T))) l ((D.map (subst' (prep vs T))).map fwd) = .ok dep ∧
      Upto d vs T es dep0 (n + 1) dep := by
  have hD : (D.map (subst' (prep vs T))).map fwd = D := by
    rw [List.map_map]
    conv => rhs; rw [← List.map_id D]
    exact List.map_congr_left fun f hf => fwd_subst vs T (h.good f hf).1
  rw [hD]
  have hpar : ∀ k ∈ l, ∃ i e q f, es[k]? = some e ∧ e.anti = some q ∧ D[q]? = some f ∧ Val d vs T es dep0 i n q f := by
    intro k hk
    obtain ⟨i, hi, hd⟩ := (hm k).mp hk
    cases hd with
    | succ h1 h2 h3 =>
      obtain ⟨f, hf⟩ := Val.of (d := d) (vs := vs) (T := T) h1 hi
      exact ⟨i, _, _, f, h2, h3, h.val _ _ _ _ hf (Nat.le_refl _), hf⟩
  obtain ⟨dep, e1, e2, e3, e4⟩ := timeDiff_ok (d := d) (vs := vs) (T := T) (es := es) (D := D) l D fun k hk => by
    obtain ⟨i, e, q, f, h1, h2, h3, _⟩ := hpar k hk
    exact ⟨by rw [h.len]; exact (List.getElem?_eq_some_iff.mp h1).1, e, q, f, h1, h2, h3⟩
  refine ⟨dep, e1, by rw [e2, h.len], fun f hf => ?_, fun i a k f hv ha => ?_⟩
  · obtain ⟨k, hk⟩ := List.mem_iff_getElem?.mp hf
    by_cases hkl : k ∈ l
    · obtain ⟨i, e, q, f', h1, h2, h3, _⟩ := hpar k hkl
      rw [e4 k hkl e q f' h1 h2 h3] at hk
      cases hk
      exact (h.good f' (List.mem_of_getElem? h3)).dt hl
    · rw [e3 k hkl] at hk
      exact h.good f (List.mem_of_getElem? hk)
  · have hq := hv.eqDer hE.le
    by_cases hc : a ≤ n
    · have : k ∉ l := by
        intro hk
        obtain ⟨i', hi', hd⟩ := (hm k).mp hk
        have := (hE.unique hq.2 hq.1 hi' hd).1
        omega
      rw [e3 k this]
      exact h.val i a k f hv hc
    · obtain rfl : a = n + 1 := by omega
      have hk : k ∈ l := (hm k).mpr ⟨i, hq.1, hq.2⟩
      cases hv with
      | succ h1 h2 h3 => exact e4 k hk _ _ _ h2 h3 (h.val _ _ _ _ h1 (Nat.le_refl _))

theorem rounds_cons {added : Bool} {l : List Nat} {ls : List (List Nat)} {n n' : Nat} {out dep σ out' : List (Ex U)}
    (h1 : reverseTimeDiff d T es out l (out.map fwd) = .ok dep) (h2 : nextVars vs T added ls.isEmpty n = .ok (n', σ))
    (h3 : evaluate n σ dep = .ok out') : rounds d vs es T added (l :: ls) n out = rounds d vs es T added ls n' out' := by
  conv => lhs; unfold rounds
  rw [h1]
  show (nextVars vs T added ls.isEmpty n).bind _ = _
  rw [h2]
  show (evaluate n σ dep).bind _ = _
  rw [h3]
  rfl

theorem Lv.empty {l : List Nat} {ls : List (List Nat)} (h : Lv es l ls) (e : ls = []) : l = [] := by
  cases h with
  | nil => rfl
  | cons _ _ => cases e

theorem Lv.head {l l' : List Nat} {ls : List (List Nat)} (h : Lv es l (l' :: ls)) : l' = l := by
  cases h with
  | cons _ _ => rfl

theorem rounds_ok (hE : Eqs dep0.length es) (hl : ∀ (j : Nat) x u, vs[j]? = some x → x.der = some u → u < vs.length)
    {added : Bool} {N : Nat} (hN : N = if added then vs.length + 1 else vs.length) :
    ∀ (ls : List (List Nat)) (l : List Nat) (n : Nat) (D : List (Ex U)), Lv es l (l :: ls) → Upto d vs T es dep0 n D →
      (∀ k, k ∈ l ↔ ∃ i < dep0.length, EqDer es (n + 1) i k) →
      ∃ out, rounds d vs es T added (l :: ls) N (D.map (subst' (prep vs T))) = .ok (vs.length, out) ∧ out.length = es.length ∧
        (∀ f ∈ out, Good vs f) ∧ ∀ i a k f, Val d vs T es dep0 i a k f → out[k]? = some f := by
  have hNle : vs.length ≤ N := by rw [hN]; split <;> omega
  have hnext : ∀ {n : Nat} {l : List Nat}, (∀ k, k ∈ l ↔ ∃ i < dep0.length, EqDer es (n + 1) i k) →
      ∀ k, k ∈ l.filterMap (derivative es) ↔ ∃ i < dep0.length, EqDer es (n + 2) i k := by
    intro n l hm k
    rw [List.mem_filterMap]
    constructor
    · rintro ⟨q, h1, h2⟩
      obtain ⟨i, hi, hd⟩ := (hm q).mp h1
      obtain ⟨e, h3, h4⟩ := hE.derivative.mp h2
      exact ⟨i, hi, .succ hd h3 h4⟩
    · rintro ⟨i, hi, hd⟩
      cases hd with
      | succ g1 g2 g3 => exact ⟨_, (hm _).mpr ⟨i, hi, g1⟩, hE.derivative.mpr ⟨_, g2, g3⟩⟩
  intro ls
  induction ls with
  | nil =>
    intro l n D hL h hm
    obtain ⟨dep, e1, h2⟩ := h.round hE hl hm
    refine ⟨dep, ?_, h2.len, h2.good, fun i a k f hv => ?_⟩
    · have hn' : (if added then N - 1 else N) = vs.length := by rw [hN]; cases added <;> simp
      have hσ : ∀ k < vs.length, (resize ((List.range vs.length).map (Ex.var (U := U))) N)[k]? = some (.var k) := by
        intro k hk
        rw [resize_get (by rw [List.length_map, List.length_range]; exact hk) (by omega), List.getElem?_map,
          List.getElem?_range hk]
        rfl
      have hdep : dep.map (subst' Ex.var) = dep := by
        conv => rhs; rw [← List.map_id dep]
        exact List.map_congr_left fun f _ => subst'_var f
      rw [rounds_cons e1 (n' := vs.length) (σ := resize ((List.range vs.length).map Ex.var) N) (out' := dep)]
      · rfl
      · unfold nextVars
        simp only [List.isEmpty_nil, if_true, hn']
      · unfold evaluate
        rw [if_pos (resize_length _ _), map_subst hσ h2.good, hdep]
    · by_cases ha : a ≤ n + 1
      · exact h2.val i a k f hv ha
      · exfalso
        obtain ⟨k', f', hv'⟩ := hv.prefix (n + 2) (by omega)
        obtain ⟨hi, hd⟩ := hv'.eqDer hE.le
        have hk := (hnext hm k').mpr ⟨i, hi, hd⟩
        cases hL with
        | cons _ hL' => rw [hL'.empty rfl] at hk; cases hk
  | cons l' ls ih =>
    intro l n D hL h hm
    obtain ⟨dep, e1, h2⟩ := h.round hE hl hm
    obtain ⟨σ, p1, p2, p3⟩ := prepare_ok (U := U) (T := T) hl hNle
    cases hL with
    | cons _ hL' =>
      obtain rfl := hL'.head
      obtain ⟨out, r⟩ := ih _ (n + 1) dep hL' h2 (hnext hm)
      refine ⟨out, ?_, r.2⟩
      rw [rounds_cons e1 (n' := N) (σ := σ) (out' := dep.map (subst' (prep vs T)))]
      · exact r.1
      · unfold nextVars
        simp only [List.isEmpty_cons, Bool.false_eq_true, if_false, p1]
      · unfold evaluate
        rw [if_pos p2, map_subst p3 h2.good]

end Verif.Dae.Tape
