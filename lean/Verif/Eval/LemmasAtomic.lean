import Verif.Eval.ModelAtomic

/-
Lemmas about the evaluation of arrays and atomic functions.
-/
namespace Verif.Eval.Atomic

variable {A : Type}

/-- the graph is one which can be evaluated: no cycles, arguments are values, elements are of the array of results of their call, forward mode of order zero of known functions, and
arrays with results belong to one call and are no arguments of a call -/
structure WF (E : Setup A) (rank : Nat → Nat) (U : Nat → Prop) : Prop where
  closed : ∀ n, U n → ∀ k ∈ (E.G n).kids, U k
  acyclic : ∀ n, U n → ∀ k ∈ (E.G n).kids, rank k < rank n
  args : ∀ n k args, U n → (E.G n = .op k args ∨ E.G n = .array args) → ∀ m ∈ argNodes args, (E.G m).scalar = true
  elem : ∀ n a t i, U n → E.G n = .elem a t i → ∃ id x, E.G t = .atomic true id 0 x a
  call : ∀ t fw id p x y, U t → E.G t = .atomic fw id p x y → fw = true ∧ p = 0 ∧ (∃ f, E.fns id = some f ∧ ∀ l m, (f l m).length = m) ∧
    (∃ xs, E.G x = .array xs) ∧ ∃ ys, E.G y = .array ys
  order : ∀ n k args, U n → E.G n = .op k args → (E.ord n).Perm (List.range args.length)
  own : ∀ t t' fw fw' id id' p p' x x' y y', U t → U t' → E.G t = .atomic fw id p x y → E.G t' = .atomic fw' id' p' x' y' → y' ≠ x ∧ (y = y' → t = t')

variable {E : Setup A} {rank : Nat → Nat} {U : Nat → Prop} {val : Nat → A}

/-- a saved array has the values of its elements, or the results if its call was made -/
def Good (E : Setup A) (val : Nat → A) (m : Nat) (l : List A) (atoms : List Nat) : Prop :=
  ∀ ys, E.G m = .array ys →
    (∀ t fw id p x f xs, t ∈ atoms → E.G t = .atomic fw id p x m → E.fns id = some f → E.G x = .array xs → l = f (xs.map (Arg.value val)) ys.length) ∧
    ((∀ t fw id p x, t ∈ atoms → E.G t ≠ .atomic fw id p x m) → l = ys.map (Arg.value val))

structure Inv (E : Setup A) (rank : Nat → Nat) (U : Nat → Prop) (val : Nat → A) (r : Nat) (st : St A) : Prop where
  evals : ∀ n v, U n → st.evals n = some v → v = val n
  atoms : ∀ t ∈ st.atoms, U t ∧ ∃ fw id p x y, E.G t = .atomic fw id p x y ∧ (st.arrays y).isSome = true
  arrays : ∀ m l, U m → rank m < r → st.arrays m = some l → Good E val m l st.atoms
  calls : st.calls.map Prod.fst = st.atoms
  nodup : st.atoms.Nodup
  right : ∀ c ∈ st.calls, ∀ fw id p x y xs, E.G c.1 = .atomic fw id p x y → E.G x = .array xs → c.2 = xs.map (Arg.value val)

structure Frame (P : Nat → Prop) (st st' : St A) : Prop where
  arrays : ∀ m, ¬ P m → st'.arrays m = st.arrays m
  some : ∀ m, (st.arrays m).isSome = true → (st'.arrays m).isSome = true
  atoms : ∀ t ∈ st'.atoms, t ∈ st.atoms ∨ P t
  sub : ∀ t ∈ st.atoms, t ∈ st'.atoms

theorem Frame.refl (P : Nat → Prop) (st : St A) : Frame P st st := ⟨fun _ _ => rfl, fun _ h => h, fun _ h => .inl h, fun _ h => h⟩

theorem Frame.trans {P : Nat → Prop} {a b c : St A} (h : Frame P a b) (g : Frame P b c) : Frame P a c :=
  ⟨fun m hm => (g.arrays m hm).trans (h.arrays m hm), fun m hm => g.some m (h.some m hm),
    fun t ht => (g.atoms t ht).elim (h.atoms t) .inr, fun t ht => g.sub t (h.sub t ht)⟩

theorem Frame.mono {P Q : Nat → Prop} {a b : St A} (h : Frame P a b) (hPQ : ∀ m, P m → Q m) : Frame Q a b :=
  ⟨fun m hm => h.arrays m fun hp => hm (hPQ m hp), h.some, fun t ht => (h.atoms t ht).imp id (hPQ t), h.sub⟩

theorem Inv.down {r R : Nat} {st : St A} (h : Inv E rank U val R st) (hr : r ≤ R) : Inv E rank U val r st :=
  ⟨h.evals, h.atoms, fun m l hm hrk => h.arrays m l hm (by omega), h.calls, h.nodup, h.right⟩

/-- what was right for more arrays still is -/
theorem Inv.lift (W : WF E rank U) {r R : Nat} {st st' : St A} (h : Inv E rank U val R st) (h' : Inv E rank U val r st')
    (f : Frame (fun m => rank m < r) st st') : Inv E rank U val R st' := by
  refine ⟨h'.evals, h'.atoms, fun m l hm hr hl => ?_, h'.calls, h'.nodup, h'.right⟩
  by_cases hlt : rank m < r
  · exact h'.arrays m l hm hlt hl
  rw [f.arrays m hlt] at hl
  intro ys hys
  obtain ⟨h1, h2⟩ := h.arrays m l hm hr hl ys hys
  constructor
  · intro t fw id p x fn xs ht hG hfn hxs
    rcases f.atoms t ht with h3 | h3
    · exact h1 t fw id p x fn xs h3 hG hfn hxs
    · have := W.acyclic t (h'.atoms t ht).1 m (by rw [hG]; simp [Node.kids])
      omega
  · exact fun hno => h2 fun t fw id p x ht => hno t fw id p x (f.sub t ht)

/-- evaluation of the values of lower rank is right -/
def EvOk (E : Setup A) (rank : Nat → Nat) (U : Nat → Prop) (val : Nat → A) (F : Nat) (ev : Nat → St A → Except Err A × St A) : Prop :=
  ∀ n, U n → (E.G n).scalar = true → rank n < F → ∀ st, Inv E rank U val (rank n) st →
    ∃ st', ev n st = (.ok (val n), st') ∧ Inv E rank U val (rank n) st' ∧ Frame (fun m => rank m < rank n) st st'

theorem EvOk.at (W : WF E rank U) {F : Nat} {ev : Nat → St A → Except Err A × St A} (h : EvOk E rank U val F ev) {R n : Nat} (hn : U n)
    (hs : (E.G n).scalar = true) (hF : rank n < F) (hR : rank n < R) {st : St A} (hi : Inv E rank U val R st) :
    ∃ st', ev n st = (.ok (val n), st') ∧ Inv E rank U val R st' ∧ Frame (fun m => rank m < R) st st' := by
  obtain ⟨st', h1, h2, h3⟩ := h n hn hs hF st (hi.down (by omega))
  exact ⟨st', h1, hi.lift W h2 h3, h3.mono fun m hm => by omega⟩

theorem evalArg_ok (W : WF E rank U) {F : Nat} {ev : Nat → St A → Except Err A × St A} (h : EvOk E rank U val F ev) {R : Nat} (a : Arg A)
    (ha : ∀ m ∈ argNodes [a], U m ∧ (E.G m).scalar = true ∧ rank m < F ∧ rank m < R) {st : St A} (hi : Inv E rank U val R st) :
    ∃ st', evalArg ev a st = (.ok (a.value val), st') ∧ Inv E rank U val R st' ∧ Frame (fun m => rank m < R) st st' := by
  cases a with
  | param v => exact ⟨st, rfl, hi, Frame.refl _ _⟩
  | node n =>
    obtain ⟨h1, h2, h3, h4⟩ := ha n (by simp [argNodes])
    exact h.at W h1 h2 h3 h4 hi

theorem argNodes_cons (a : Arg A) (as : List (Arg A)) : argNodes (a :: as) = argNodes [a] ++ argNodes as := by
  cases a <;> simp [argNodes]

theorem evalArgs_ok (W : WF E rank U) {F : Nat} {ev : Nat → St A → Except Err A × St A} (h : EvOk E rank U val F ev) {R : Nat} : ∀ (as : List (Arg A)),
    (∀ m ∈ argNodes as, U m ∧ (E.G m).scalar = true ∧ rank m < F ∧ rank m < R) → ∀ {st : St A}, Inv E rank U val R st →
    ∃ st', evalArgs ev as st = (.ok (as.map (Arg.value val)), st') ∧ Inv E rank U val R st' ∧ Frame (fun m => rank m < R) st st'
  | [], _, st, hi => ⟨st, rfl, hi, Frame.refl _ _⟩
  | a :: as, ha, st, hi => by
    rw [argNodes_cons] at ha
    obtain ⟨st1, h1, h2, h3⟩ := evalArg_ok W h a (fun m hm => ha m (List.mem_append_left _ hm)) hi
    obtain ⟨st2, h4, h5, h6⟩ := evalArgs_ok W h as (fun m hm => ha m (List.mem_append_right _ hm)) h2
    exact ⟨st2, by rw [evalArgs, h1]; simp only [h4, List.map_cons], h5, h3.trans h6⟩

theorem mapM_some {B C : Type} (f : B → Option C) (g : B → C) : ∀ l : List B, (∀ b ∈ l, f b = some (g b)) → l.mapM f = some (l.map g)
  | [], _ => rfl
  | b :: l, h => by
    rw [List.mapM_cons, h b (by simp), mapM_some f g l fun c hc => h c (by simp [hc])]
    rfl

theorem mem_argNodes {m : Nat} : ∀ {as : List (Arg A)}, m ∈ argNodes as ↔ Arg.node m ∈ as
  | [] => by simp [argNodes]
  | .param v :: as => by simp [argNodes, mem_argNodes (as := as)]
  | .node n :: as => by simp [argNodes, mem_argNodes (as := as)]

theorem operands_ok (W : WF E rank U) {F : Nat} {ev : Nat → St A → Except Err A × St A} (h : EvOk E rank U val F ev) {R : Nat} (args : List (Arg A)) (ps : List Nat)
    (hp : ps.Perm (List.range args.length)) (ha : ∀ m ∈ argNodes args, U m ∧ (E.G m).scalar = true ∧ rank m < F ∧ rank m < R) {st : St A}
    (hi : Inv E rank U val R st) :
    ∃ st', operands ev args ps st = (.ok (args.map (Arg.value val)), st') ∧ Inv E rank U val R st' ∧ Frame (fun m => rank m < R) st st' := by
  cases args with
  | nil =>
    have : ps = [] := by simpa using hp
    subst this
    exact ⟨st, rfl, hi, Frame.refl _ _⟩
  | cons a0 as0 =>
    generalize hargs : a0 :: as0 = args at hp ha ⊢
    have hlt : ∀ q ∈ ps, q < args.length := fun q hq => List.mem_range.1 (hp.mem_iff.1 hq)
    have h1 : ps.mapM (args[·]?) = some (ps.map fun q => args.getD q a0) := mapM_some _ _ ps fun q hq => by
      rw [List.getD_eq_getElem?_getD, List.getElem?_eq_getElem (hlt q hq)]
      rfl
    obtain ⟨st', h2, h3, h4⟩ := evalArgs_ok W h (ps.map fun q => args.getD q a0) (fun m hm => by
      obtain ⟨q, hq, hq'⟩ := List.mem_map.1 (mem_argNodes.1 hm)
      rw [List.getD_eq_getElem?_getD, List.getElem?_eq_getElem (hlt q hq), Option.getD_some] at hq'
      exact ha m (mem_argNodes.2 (hq' ▸ List.getElem_mem _))) hi
    have h5 : (List.range args.length).mapM (fun q => ((ps.map fun q => args.getD q a0).map (Arg.value val))[ps.idxOf q]?) =
        some ((List.range args.length).map fun q => (args.getD q a0).value val) := mapM_some _ _ _ fun q hq => by
      have hq' : q ∈ ps := hp.mem_iff.2 hq
      rw [List.getElem?_map, List.getElem?_map, List.getElem?_eq_getElem (List.idxOf_lt_length_of_mem hq'), List.getElem_idxOf]
      rfl
    refine ⟨st', ?_, h3, h4⟩
    rw [operands, h1]
    simp only [h2, h5]
    congr 2
    apply List.ext_getElem
    · simp
    · intro i hi1 hi2
      simp only [List.length_map, List.length_range] at hi1
      simp [List.getD_eq_getElem?_getD, List.getElem?_eq_getElem hi1]

/-- the elements of a new array -/
theorem fill_ok (W : WF E rank U) {F : Nat} {ev : Nat → St A → Except Err A × St A} (h : EvOk E rank U val F ev) (n : Nat) : ∀ (as done : List (Arg A)),
    (∀ m ∈ argNodes as, U m ∧ (E.G m).scalar = true ∧ rank m < F ∧ rank m < rank n) → ∀ (rest : List A) {st : St A}, rest.length = as.length →
    st.arrays n = some (done.map (Arg.value val) ++ rest) → Inv E rank U val (rank n) st →
    ∃ st', fill ev n done.length as st = (.ok (), st') ∧ Inv E rank U val (rank n) st' ∧ Frame (fun m => rank m < rank n ∨ m = n) st st' ∧
      (∀ t ∈ st'.atoms, t ∈ st.atoms ∨ rank t < rank n) ∧ st'.arrays n = some ((done ++ as).map (Arg.value val))
  | [], done, _, rest, st, hl, hs, hi => by
    rw [List.eq_nil_of_length_eq_zero hl, List.append_nil] at hs
    exact ⟨st, rfl, hi, Frame.refl _ _, fun t ht => .inl ht, by rw [List.append_nil]; exact hs⟩
  | a :: as, done, ha, rest, st, hl, hs, hi => by
    rw [argNodes_cons] at ha
    obtain ⟨st1, h1, h2, h3⟩ := evalArg_ok W h a (fun m hm => ha m (List.mem_append_left _ hm)) hi
    have hs1 : st1.arrays n = some (done.map (Arg.value val) ++ rest) := by
      rw [h3.arrays n (Nat.lt_irrefl _), hs]
    obtain ⟨b, rest', rfl⟩ : ∃ b rest', rest = b :: rest' := by
      cases rest with
      | nil => simp at hl
      | cons b r => exact ⟨b, r, rfl⟩
    let st2 : St A := { st1 with arrays := upd st1.arrays n ((done.map (Arg.value val) ++ b :: rest').set done.length (a.value val)) }
    have hi2 : Inv E rank U val (rank n) st2 := by
      refine ⟨h2.evals, fun t ht => ?_, fun m l hm hr hl => ?_, h2.calls, h2.nodup, h2.right⟩
      · obtain ⟨hu, fw, id, p, x, y, hG, hy⟩ := h2.atoms t ht
        refine ⟨hu, fw, id, p, x, y, hG, ?_⟩
        show (if y = n then _ else st1.arrays y).isSome = true
        split
        · rfl
        · exact hy
      · have hne : m ≠ n := fun e => by rw [e] at hr; omega
        refine h2.arrays m l hm hr ?_
        have : (if m = n then some ((done.map (Arg.value val) ++ b :: rest').set done.length (a.value val)) else st1.arrays m) = some l := hl
        rwa [if_neg hne] at this
    have hset : (done.map (Arg.value val) ++ b :: rest').set done.length (a.value val) = (done ++ [a]).map (Arg.value val) ++ rest' := by
      rw [List.set_append_right _ _ (by simp)]
      simp
    have hs2 : st2.arrays n = some ((done ++ [a]).map (Arg.value val) ++ rest') := by
      show (if n = n then _ else _) = _
      rw [if_pos rfl, hset]
    obtain ⟨st3, h4, h5, h6, h7, h8⟩ := fill_ok W h n as (done ++ [a]) (fun m hm => ha m (List.mem_append_right _ hm)) rest' (st := st2)
      (by simpa using hl) hs2 hi2
    have hf2 : Frame (fun m => rank m < rank n ∨ m = n) st1 st2 := by
      refine ⟨fun m hm => ?_, fun m hm => ?_, fun t ht => .inl ht, fun t ht => ht⟩
      · show (if m = n then _ else st1.arrays m) = _
        rw [if_neg fun e => hm (.inr e)]
      · show (if m = n then _ else st1.arrays m).isSome = true
        split
        · rfl
        · exact hm
    refine ⟨st3, ?_, h5, ((h3.mono fun m hm => .inl hm).trans hf2).trans h6, fun t ht => ?_, by rw [h8]; simp⟩
    · rw [fill, h1]
      simp only [hs1]
      rw [List.length_append, List.length_singleton] at h4
      exact h4
    · rcases h7 t ht with h9 | h9
      · exact h3.atoms t h9
      · exact .inr h9

theorem evalArray_ok (W : WF E rank U) {F : Nat} {ev : Nat → St A → Except Err A × St A} (h : EvOk E rank U val F ev) {R n : Nat} (hn : U n) (args : List (Arg A))
    (hG : E.G n = .array args) (hF : rank n ≤ F) (hR : rank n < R) {st : St A} (hi : Inv E rank U val R st) :
    ∃ st', evalArray E ev n st = (.ok (), st') ∧ Inv E rank U val R st' ∧ Frame (fun m => rank m < R) st st' ∧ (st'.arrays n).isSome = true := by
  rw [evalArray, hG]
  cases hs : st.arrays n with
  | some l => exact ⟨st, by simp only [], hi, Frame.refl _ _, by rw [hs]; rfl⟩
  | none =>
    simp only []
    let st0 : St A := { st with arrays := upd st.arrays n (List.replicate args.length E.zero) }
    have hi0 : Inv E rank U val (rank n) st0 := by
      refine ⟨hi.evals, fun t ht => ?_, fun m l hm hr hl => ?_, hi.calls, hi.nodup, hi.right⟩
      · obtain ⟨hu, fw, id, p, x, y, hG, hy⟩ := hi.atoms t ht
        refine ⟨hu, fw, id, p, x, y, hG, ?_⟩
        show (if y = n then _ else st.arrays y).isSome = true
        split
        · rfl
        · exact hy
      · have hne : m ≠ n := fun e => by rw [e] at hr; omega
        refine hi.arrays m l hm (by omega) ?_
        have : (if m = n then some (List.replicate args.length E.zero) else st.arrays m) = some l := hl
        rwa [if_neg hne] at this
    have hk : ∀ m ∈ argNodes args, U m ∧ (E.G m).scalar = true ∧ rank m < F ∧ rank m < rank n := fun m hm => by
      have hkid : m ∈ (E.G n).kids := by rw [hG]; exact hm
      have := W.acyclic n hn m hkid
      exact ⟨W.closed n hn m hkid, W.args n 0 args hn (.inr hG) m hm, by omega, this⟩
    obtain ⟨st', h1, h2, h3, h4, h5⟩ := fill_ok W h n args [] hk (List.replicate args.length E.zero) (st := st0) (by simp)
      (by show (if n = n then _ else _) = _; rw [if_pos rfl]; rfl) hi0
    rw [List.nil_append] at h5
    have hno : ∀ t fw id p x, t ∈ st'.atoms → E.G t ≠ .atomic fw id p x n := by
      intro t fw id p x ht hGt
      rcases h4 t ht with h6 | h6
      · obtain ⟨_, fw', id', p', x', y', hG', hy⟩ := hi.atoms t h6
        rw [hGt] at hG'
        cases hG'
        rw [hs] at hy
        cases hy
      · have := W.acyclic t (h2.atoms t ht).1 n (by rw [hGt]; simp [Node.kids])
        omega
    refine ⟨st', h1, ?_, ?_, by rw [h5]; rfl⟩
    · refine ⟨h2.evals, h2.atoms, fun m l hm hr hl => ?_, h2.calls, h2.nodup, h2.right⟩
      by_cases hlt : rank m < rank n
      · exact h2.arrays m l hm hlt hl
      by_cases hmn : m = n
      · subst hmn
        rw [h5] at hl
        cases hl
        intro ys hys
        rw [hG] at hys
        cases hys
        exact ⟨fun t fw id p x f xs ht hGt => absurd hGt (hno t fw id p x ht), fun _ => rfl⟩
      · rw [h3.arrays m (by simp [hlt, hmn])] at hl
        have hl' : st.arrays m = some l := by
          have : (if m = n then some (List.replicate args.length E.zero) else st.arrays m) = some l := hl
          rwa [if_neg hmn] at this
        intro ys hys
        obtain ⟨h6, h7⟩ := hi.arrays m l hm hr hl' ys hys
        constructor
        · intro t fw id p x fn xs ht hGt
          rcases h4 t ht with h8 | h8
          · exact h6 t fw id p x fn xs h8 hGt
          · have := W.acyclic t (h2.atoms t ht).1 m (by rw [hGt]; simp [Node.kids])
            omega
        · exact fun hno' => h7 fun t fw id p x ht => hno' t fw id p x (h3.sub t ht)
    · refine ⟨fun m hm => ?_, fun m hm => h3.some m ?_, fun t ht => ?_, h3.sub⟩
      · have hmn : m ≠ n := fun e => hm (by rw [e]; exact hR)
        rw [h3.arrays m (by
          rintro (h6 | h6)
          · exact hm (by omega)
          · exact hmn h6)]
        show (if m = n then _ else st.arrays m) = _
        rw [if_neg hmn]
      · show (if m = n then _ else st.arrays m).isSome = true
        split
        · rfl
        · exact hm
      · exact (h4 t ht).imp id fun h6 => by omega

theorem evalAtomic_ok (W : WF E rank U) {F : Nat} {ev : Nat → St A → Except Err A × St A} (h : EvOk E rank U val F ev) {R t : Nat} (ht : U t)
    {fw : Bool} {id p x y : Nat} (hG : E.G t = .atomic fw id p x y) (hF : rank t ≤ F) (hR : rank t < R) {st : St A} (hi : Inv E rank U val R st) :
    ∃ st', evalAtomic E ev t st = (.ok (), st') ∧ Inv E rank U val R st' ∧ Frame (fun m => rank m < R) st st' ∧ t ∈ st'.atoms := by
  rw [evalAtomic]
  by_cases hm : t ∈ st.atoms
  · exact ⟨st, by rw [if_pos hm], hi, Frame.refl _ _, hm⟩
  rw [if_neg hm, hG]
  obtain ⟨rfl, rfl, ⟨f, hf, hlen⟩, ⟨xs, hxs⟩, ⟨ys, hys⟩⟩ := W.call t fw id p x y ht hG
  have hx : x ∈ (E.G t).kids := by rw [hG]; simp [Node.kids]
  have hy : y ∈ (E.G t).kids := by rw [hG]; simp [Node.kids]
  have hrx := W.acyclic t ht x hx
  have hry := W.acyclic t ht y hy
  have hux := W.closed t ht x hx
  have huy := W.closed t ht y hy
  obtain ⟨st1, h1, h2, h3, h4⟩ := evalArray_ok W h hux xs hxs (by omega) hrx (hi.down (r := rank t) (by omega))
  obtain ⟨st2, h5, h6, h7, h8⟩ := evalArray_ok W h huy ys hys (by omega) hry h2
  have hfr := h3.trans h7
  have hi2 : Inv E rank U val R st2 := hi.lift W h6 hfr
  obtain ⟨ax, hax⟩ := Option.isSome_iff_exists.1 (h7.some x h4)
  obtain ⟨ay, hay⟩ := Option.isSome_iff_exists.1 h8
  have hnt : t ∉ st2.atoms := fun hmem => (hfr.atoms t hmem).elim hm fun hlt => Nat.lt_irrefl _ hlt
  have hval : ax = xs.map (Arg.value val) := ((hi2.arrays x ax hux (by omega) hax) xs hxs).2 fun t' fw' id' p' x' ht' hG' =>
    (W.own t t' _ _ _ _ _ _ _ _ _ _ ht (hi2.atoms t' ht').1 hG hG').1 rfl
  have hno : ∀ t' fw' id' p' x', t' ∈ st2.atoms → E.G t' ≠ .atomic fw' id' p' x' y := fun t' fw' id' p' x' ht' hG' =>
    hnt ((W.own t t' _ _ _ _ _ _ _ _ _ _ ht (hi2.atoms t' ht').1 hG hG').2 rfl ▸ ht')
  have hlay : ay.length = ys.length := by
    rw [((hi2.arrays y ay huy (by omega) hay) ys hys).2 hno, List.length_map]
  simp only [hf, h1, h5, hax, hay]
  refine ⟨_, rfl, ⟨hi2.evals, fun t' ht' => ?_, fun m l hum hr hl => ?_, ?_, ?_, fun c hc => ?_⟩, ?_, by simp⟩
  · have hupd : ∀ z, (st2.arrays z).isSome = true → (upd st2.arrays y (f ax ay.length) z).isSome = true := by
      intro z hz
      rw [upd]
      split
      · rfl
      · exact hz
    rcases List.mem_cons.1 ht' with rfl | ht'
    · exact ⟨ht, _, _, _, _, _, hG, hupd y h8⟩
    · obtain ⟨hu, fw', id', p', x', y', hG', hy'⟩ := hi2.atoms t' ht'
      exact ⟨hu, fw', id', p', x', y', hG', hupd y' hy'⟩
  · intro zs hzs
    by_cases hmy : m = y
    · subst hmy
      have hl' : f ax ay.length = l := by
        have : upd st2.arrays m (f ax ay.length) m = some l := hl
        rw [upd, if_pos rfl] at this
        exact Option.some.inj this
      rw [hys] at hzs
      cases hzs
      refine ⟨fun t' fw' id' p' x' f' xs' ht' hG' hf' hxs' => ?_, fun hall => absurd hG (hall t _ _ _ _ (by simp))⟩
      have : t = t' := by
        rcases List.mem_cons.1 ht' with e | ht'
        · exact e.symm
        · exact (W.own t t' _ _ _ _ _ _ _ _ _ _ ht (hi2.atoms t' ht').1 hG hG').2 rfl
      subst this
      rw [hG] at hG'
      cases hG'
      rw [hf] at hf'
      cases hf'
      rw [hxs] at hxs'
      cases hxs'
      rw [← hl', hval, hlay]
    · have hl' : st2.arrays m = some l := by
        have : upd st2.arrays y (f ax ay.length) m = some l := hl
        rwa [upd, if_neg hmy] at this
      obtain ⟨h9, h10⟩ := hi2.arrays m l hum hr hl' zs hzs
      constructor
      · intro t' fw' id' p' x' f' xs' ht' hG' hf' hxs'
        rcases List.mem_cons.1 ht' with rfl | ht'
        · rw [hG] at hG'
          cases hG'
          exact absurd rfl hmy
        · exact h9 t' fw' id' p' x' f' xs' ht' hG' hf' hxs'
      · exact fun hall => h10 fun t' fw' id' p' x' ht' => hall t' fw' id' p' x' (List.mem_cons_of_mem _ ht')
  · show t :: st2.calls.map Prod.fst = t :: st2.atoms
    rw [hi2.calls]
  · exact List.nodup_cons.2 ⟨hnt, hi2.nodup⟩
  · rcases List.mem_cons.1 hc with rfl | hc
    · intro fw' id' p' x' y' xs' hG' hxs'
      simp only at hG'
      rw [hG] at hG'
      cases hG'
      rw [hxs] at hxs'
      cases hxs'
      exact hval
    · exact hi2.right c hc
  · refine ⟨fun m hmR => ?_, fun m hms => ?_, fun t' ht' => ?_, fun t' ht' => List.mem_cons_of_mem _ (hfr.sub t' ht')⟩
    · show upd st2.arrays y _ m = _
      rw [upd, if_neg fun e => hmR (by rw [e]; omega)]
      exact hfr.arrays m fun hlt => hmR (by omega)
    · show (upd st2.arrays y _ m).isSome = true
      rw [upd]
      split
      · rfl
      · exact hfr.some m hms
    · rcases List.mem_cons.1 ht' with rfl | ht'
      · exact .inr hR
      · exact (hfr.atoms t' ht').imp (fun h => h) fun h => by omega

theorem eval_ok (W : WF E rank U) (V : Values E.opf E.fns E.G E.x U val) : ∀ fuel, EvOk E rank U val fuel (eval E fuel)
  | 0 => fun n _ _ h => absurd h (Nat.not_lt_zero _)
  | fuel + 1 => by
    intro n hn hs hr st hi
    have ih := eval_ok W V fuel
    rw [eval]
    cases he : st.evals n with
    | some v => exact ⟨st, by simp only [hi.evals n v hn he], hi, Frame.refl _ _⟩
    | none =>
      simp only
      have hop : ∃ st', evalOperation E (eval E fuel) n st = (.ok (val n), st') ∧ Inv E rank U val (rank n) st' ∧ Frame (fun m => rank m < rank n) st st' := by
        have hv := V n hn
        rw [evalOperation]
        cases hG : E.G n with
        | indep j =>
          rw [hG] at hv
          simp only at hv
          exact ⟨st, by simp only [hv], hi, Frame.refl _ _⟩
        | op k args =>
          rw [hG] at hv
          simp only at hv
          obtain ⟨st1, h1, h2, h3⟩ := operands_ok W ih (R := rank n) args (E.ord n) (W.order n k args hn hG) (fun m hm => by
            have hkid : m ∈ (E.G n).kids := by rw [hG]; exact hm
            have := W.acyclic n hn m hkid
            exact ⟨W.closed n hn m hkid, W.args n k args hn (.inl hG) m hm, by omega, this⟩) hi
          exact ⟨st1, by simp only [h1, hv], h2, h3⟩
        | array args => rw [hG] at hs; cases hs
        | atomic fw id p x y => rw [hG] at hs; cases hs
        | elem a t i =>
          rw [hG] at hv
          simp only at hv
          have ha : a ∈ (E.G n).kids := by rw [hG]; simp [Node.kids]
          have ht : t ∈ (E.G n).kids := by rw [hG]; simp [Node.kids]
          have hra := W.acyclic n hn a ha
          have hrt := W.acyclic n hn t ht
          have hut := W.closed n hn t ht
          obtain ⟨id, x, hGt⟩ := W.elem n a t i hn hG
          obtain ⟨_, _, ⟨f, hf, _⟩, ⟨xs, hxs⟩, ⟨ys, hys⟩⟩ := W.call t _ _ _ _ _ hut hGt
          obtain ⟨st1, h1, h2, h3, h4⟩ := evalArray_ok W ih (W.closed n hn a ha) ys hys (by omega) hra hi
          obtain ⟨st2, h5, h6, h7, h8⟩ := evalAtomic_ok W ih hut hGt (by omega) hrt h2
          obtain ⟨l, hl⟩ := Option.isSome_iff_exists.1 (h7.some a h4)
          have hv' := hv _ _ _ _ _ _ _ _ hGt hxs hys hf
          rw [← ((h6.arrays a l (W.closed n hn a ha) hra hl) ys hys).1 t _ _ _ _ f xs h8 hGt hf hxs] at hv'
          exact ⟨st2, by simp only [evalElem, h1, h5, hl, hv'], h6, h3.trans h7⟩
      obtain ⟨st1, h1, h2, h3⟩ := hop
      refine ⟨{ st1 with evals := upd st1.evals n (val n) }, by rw [h1], ⟨fun m v hm hv => ?_, h2.atoms, h2.arrays, h2.calls, h2.nodup, h2.right⟩,
        h3.arrays, h3.some, h3.atoms, h3.sub⟩
      have hv' : upd st1.evals n (val n) m = some v := hv
      rw [upd] at hv'
      by_cases hmn : m = n
      · rw [if_pos hmn] at hv'
        rw [hmn]
        exact (Option.some.inj hv').symm
      · rw [if_neg hmn] at hv'
        exact h2.evals m v hm hv'

end Verif.Eval.Atomic
