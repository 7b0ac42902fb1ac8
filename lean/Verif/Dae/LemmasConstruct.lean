import Verif.Dae.LemmasGraph
import Mathlib.Data.List.Nodup
import Mathlib.Data.List.Range
import Mathlib.Data.List.Lattice
namespace Verif.Dae

theorem mapM_ok {α β : Type} {f : α → Except Err β} : ∀ {l : List α} {r : List β}, l.mapM f = .ok r →
    r.length = l.length ∧ ∀ (i : Nat) a, l[i]? = some a → ∃ b, f a = .ok b ∧ r[i]? = some b := by
  intro l
  induction l with
  | nil => intro r h; simp only [List.mapM_nil, pure, Except.pure, Except.ok.injEq] at h; subst h; exact ⟨rfl, fun i a h => by simp at h⟩
  | cons x l ih =>
    intro r h
    rw [List.mapM_cons] at h
    cases hx : f x with
    | error e => rw [hx] at h; cases h
    | ok y =>
      rw [hx] at h
      simp only [bind, Except.bind] at h
      cases hl : l.mapM f with
      | error e => rw [hl] at h; cases h
      | ok r' =>
        rw [hl] at h
        simp only [pure, Except.pure, Except.ok.injEq] at h
        subst h
        obtain ⟨h1, h2⟩ := ih hl
        refine ⟨by simp [h1], fun i a hi => ?_⟩
        cases i with
        | zero => simp only [List.getElem?_cons_zero, Option.some.injEq] at hi; subst hi; exact ⟨y, hx, rfl⟩
        | succ i => simp only [List.getElem?_cons_succ] at hi ⊢; exact h2 i a hi

theorem idxOf_nodup {l : List Nat} (h : l.Nodup) {a i : Nat} : l.idxOf? a = some i ↔ l[i]? = some a := by
  rw [List.idxOf?_eq_some_iff]
  constructor
  · rintro ⟨h1, h2, _⟩
    rw [List.getElem?_eq_getElem h1, h2]
  · intro h1
    obtain ⟨h2, h3⟩ := List.getElem?_eq_some_iff.mp h1
    refine ⟨h2, h3, fun j hj hja => ?_⟩
    have := (h.getElem_inj_iff (hi := Nat.lt_trans hj h2) (hj := h2)).mp (by rw [hja, h3])
    omega

theorem foldl_max_le : ∀ (l : List Nat) (a x : Nat), x ≤ a ∨ x ∈ l → x ≤ l.foldl max a := by
  intro l
  induction l with
  | nil => intro a x h; simpa using h
  | cons y l ih =>
    intro a x h
    rw [List.foldl_cons]
    refine ih _ x ?_
    rcases h with h | h
    · left; omega
    · rcases List.mem_cons.mp h with h | h
      · left; omega
      · right; exact h

theorem new2Tape_nodup (n : Nat) (order : Nat → Option Nat) (mx : Nat) : (new2Tape n order mx).Nodup := by
  unfold new2Tape
  rw [List.nodup_flatMap]
  refine ⟨fun o _ => (List.nodup_range).filter _, ?_⟩
  refine List.Pairwise.imp ?_ (List.nodup_range (n := mx + 1))
  intro a b hab
  rw [Function.onFun, List.disjoint_left]
  intro t h1 h2
  rw [List.mem_filter] at h1 h2
  have e1 := h1.2
  have e2 := h2.2
  rw [beq_iff_eq] at e1 e2
  rw [e1] at e2
  exact hab (Option.some.inj e2)

theorem mem_new2Tape {n : Nat} {order : Nat → Option Nat} {mx t : Nat} :
    t ∈ new2Tape n order mx ↔ t < n ∧ ∃ o, o ≤ mx ∧ order t = some o := by
  unfold new2Tape
  simp only [List.mem_flatMap, List.mem_range, List.mem_filter, beq_iff_eq]
  constructor
  · rintro ⟨o, h1, h2, h3⟩; exact ⟨h2, o, by omega, h3⟩
  · rintro ⟨h2, o, h1, h3⟩; exact ⟨o, by omega, h2, h3⟩

/-! ### the nodes -/

/-- antiderivatives of the nodes: different, existing, without cycles -/
structure Antis (anti : List (Option Nat)) : Prop where
  lt : ∀ d p : Nat, anti[d]? = some (some p) → p < anti.length
  inj : ∀ d d' p : Nat, anti[d]? = some (some p) → anti[d']? = some (some p) → d = d'

theorem bind_id {l : List (Option Nat)} {d p : Nat} : (l[d]?).bind id = some p ↔ l[d]? = some (some p) := by
  cases l[d]? <;> simp

theorem nodes_deriv {anti : List (Option Nat)} (h : Antis anti) {m j d : Nat} :
    ((nodes anti m).v j).deriv = some d ↔ anti[d]? = some (some j) := by
  have hd : ∀ d p : Nat, anti[d]? = some (some p) → d < anti.length := fun d p h => (List.getElem?_eq_some_iff.mp h).1
  simp only [nodes]
  split
  · show (List.range anti.length).reverse.find? _ = some d ↔ _
    constructor
    · intro h1
      have := List.find?_some h1
      rw [beq_iff_eq, bind_id] at this
      exact this
    · intro h1
      cases hf : (List.range anti.length).reverse.find? fun d => (anti[d]?).bind id == some j with
      | none =>
        rw [List.find?_eq_none] at hf
        have := hf d (by rw [List.mem_reverse, List.mem_range]; exact hd d j h1)
        rw [beq_iff_eq, bind_id] at this
        exact absurd h1 this
      | some d' =>
        have := List.find?_some hf
        rw [beq_iff_eq, bind_id] at this
        rw [h.inj d' d j this h1]
  · rename_i hj
    refine ⟨(fun h1 => by cases h1), fun h1 => ?_⟩
    exact absurd (h.lt d j h1) hj

theorem nodes_anti {anti : List (Option Nat)} {m j p : Nat} :
    ((nodes anti m).v j).anti = some p ↔ anti[j]? = some (some p) := by
  simp only [nodes]
  split
  · exact bind_id
  · rename_i hj
    rw [List.getElem?_eq_none (by omega)]
    simp

theorem nodes_w {anti : List (Option Nat)} (h : Antis anti) (m : Nat) : W (nodes anti m) := by
  have hf : ∀ j, ((nodes anti m).v j).deleted = false ∧ ((nodes anti m).v j).param = false ∧ ((nodes anti m).v j).eqs = [] := by
    intro j; simp only [nodes]; split <;> exact ⟨rfl, rfl, rfl⟩
  refine ⟨fun _ => List.nodup_nil, fun _ => rfl, fun i j => ?_, fun i j hj => ?_, fun _ _ => rfl, ?_, ?_, fun j => (hf j).2.1, ?_⟩
  · rw [(hf j).2.2]; exact ⟨fun h => (by cases h), fun h => (by cases h)⟩
  · cases hj
  · intro j d hd
    rw [nodes_deriv h] at hd
    exact ⟨h.lt d j hd, (List.getElem?_eq_some_iff.mp hd).1, nodes_anti.mpr hd⟩
  · intro j d _ hd
    rw [nodes_anti] at hd
    exact (nodes_deriv h).mpr hd
  · intro j hj; rw [(hf j).1] at hj; cases hj

/-! ### the edges -/

/-- edges were added -/
structure More (g g' : BG) : Prop where
  w : W g'
  nv : g'.nv = g.nv
  ne : g'.ne = g.ne
  deriv : ∀ j, (g'.v j).deriv = (g.v j).deriv
  anti : ∀ j, (g'.v j).anti = (g.v j).anti
  va : ∀ j, (g'.v j).assign = (g.v j).assign
  ea : ∀ i, (g'.e i).assign = (g.e i).assign
  diff : ∀ i, (g'.e i).diff = (g.e i).diff
  diffOf : ∀ i, (g'.e i).diffOf = (g.e i).diffOf

theorem More.add {g g1 : BG} (h : More g g1) {i j : Nat} (hi : i < g.ne) (hj : j < g.nv) : More g (g1.addVariable i j) := by
  have E := edges_addVariable g1 i j
  refine ⟨h.w.addVariable (by rw [h.ne]; exact hi) (by rw [h.nv]; exact hj), E.nv.trans h.nv, E.ne.trans h.ne,
    fun k => (E.fields k).2.2.2.1.trans (h.deriv k), fun k => (E.fields k).2.2.2.2.1.trans (h.anti k),
    fun k => (E.fields k).2.2.1.trans (h.va k), fun k => (E.fieldsE k).2.1.trans (h.ea k),
    fun k => (E.fieldsE k).2.2.1.trans (h.diff k), fun k => (E.fieldsE k).2.2.2.trans (h.diffOf k)⟩

theorem edges_row {g : BG} {tape : List Nat} (hlen : tape.length = g.nv) {i : Nat} (hi : i < g.ne) {inc : Nat → Nat → Bool} :
    ∀ (ps : List Nat) (g1 : BG), More g g1 →
    let g' := ps.foldl (fun g p =>
      match tape.idxOf? p with
      | some j => if inc i p then g.addVariable i j else g
      | none => g) g1
    More g g' ∧ (∀ k, k ≠ i → g'.e k = g1.e k) ∧
      ∀ j, j ∈ (g'.e i).orig ↔ j ∈ (g1.e i).orig ∨ ∃ p ∈ ps, tape.idxOf? p = some j ∧ inc i p = true := by
  intro ps
  induction ps with
  | nil => intro g1 h; exact ⟨h, fun _ _ => rfl, fun j => by simp⟩
  | cons p ps ih =>
    intro g1 h
    simp only [List.foldl_cons]
    cases hp : tape.idxOf? p with
    | none =>
      obtain ⟨h1, h2, h3⟩ := ih g1 h
      refine ⟨h1, h2, fun j => ?_⟩
      rw [h3]
      simp [hp]
    | some x =>
      simp only
      by_cases hc : inc i p = true
      · rw [if_pos hc]
        have hx : x < g.nv := by
          rw [List.idxOf?_eq_some_iff] at hp
          rw [← hlen]; exact hp.1
        obtain ⟨h1, h2, h3⟩ := ih _ (h.add hi hx)
        refine ⟨h1, fun k hk => by rw [h2 k hk, (edges_addVariable g1 i x).e k hk], fun j => ?_⟩
        rw [h3, addVariable_orig]
        simp only [List.mem_cons, exists_eq_or_imp, hp, hc, and_true, Option.some.injEq]
        constructor
        · rintro ((h | h) | h)
          · exact .inl h
          · exact .inr (.inl h.symm)
          · exact .inr (.inr h)
        · rintro (h | h | h)
          · exact .inl (.inl h)
          · exact .inl (.inr h.symm)
          · exact .inr h
      · rw [if_neg hc]
        obtain ⟨h1, h2, h3⟩ := ih g1 h
        refine ⟨h1, h2, fun j => ?_⟩
        rw [h3]
        simp [hp, hc]

theorem edges_rows {g : BG} {tape : List Nat} (hlen : tape.length = g.nv) {n : Nat} {inc : Nat → Nat → Bool} :
    ∀ (is : List Nat) (g1 : BG), is.Nodup → (∀ i ∈ is, i < g.ne) → More g g1 → (∀ i ∈ is, (g1.e i).orig = []) →
    let g' := is.foldl (fun g i => (List.range n).foldl (fun g p =>
      match tape.idxOf? p with
      | some j => if inc i p then g.addVariable i j else g
      | none => g) g) g1
    More g g' ∧ (∀ k, k ∉ is → g'.e k = g1.e k) ∧
      ∀ i ∈ is, ∀ j, j ∈ (g'.e i).orig ↔ ∃ p, p < n ∧ tape.idxOf? p = some j ∧ inc i p = true := by
  intro is
  induction is with
  | nil => intro g1 _ _ h _; exact ⟨h, fun _ _ => rfl, fun i hi => by cases hi⟩
  | cons a is ih =>
    intro g1 hnd hlt h he
    rw [List.nodup_cons] at hnd
    simp only [List.foldl_cons]
    obtain ⟨r1, r2, r3⟩ := edges_row hlen (hlt a List.mem_cons_self) (inc := inc) (List.range n) g1 h
    obtain ⟨s1, s2, s3⟩ := ih _ hnd.2 (fun i hi => hlt i (List.mem_cons_of_mem _ hi)) r1 (by
      intro i hi
      rw [r2 i (by rintro rfl; exact hnd.1 hi)]
      exact he i (List.mem_cons_of_mem _ hi))
    refine ⟨s1, fun k hk => ?_, fun i hi j => ?_⟩
    · rw [List.mem_cons, not_or] at hk
      rw [s2 k hk.2, r2 k hk.1]
    · rcases List.mem_cons.mp hi with rfl | hi
      · rw [s2 i hnd.1, r3, he i List.mem_cons_self]
        simp only [List.not_mem_nil, false_or, List.mem_range]
      · exact s3 i hi j

/-! ### the constructor -/

/-- the number of antiderivatives -/
theorem antiCount_lt {info : List VarInfo} : ∀ {fuel j k : Nat}, antiCount info fuel j = .ok k →
    ∀ {x : VarInfo} {a : Nat}, info[j]? = some x → x.anti = some a → ∃ k', k = k' + 1 ∧ ∃ fuel', antiCount info fuel' a = .ok k' := by
  intro fuel j k h x a hx ha
  cases fuel with
  | zero => cases h
  | succ fuel =>
    rw [antiCount, hx] at h
    simp only [ha] at h
    cases hr : antiCount info fuel a with
    | error e => rw [hr] at h; cases h
    | ok k' => rw [hr] at h; cases h; exact ⟨k', rfl, fuel, hr⟩

theorem antiCount_det {info : List VarInfo} : ∀ {fuel fuel' j k k' : Nat}, antiCount info fuel j = .ok k →
    antiCount info fuel' j = .ok k' → k = k' := by
  intro fuel
  induction fuel with
  | zero => intro fuel' j k k' h; cases h
  | succ fuel ih =>
    intro fuel' j k k' h h'
    cases fuel' with
    | zero => cases h'
    | succ fuel' =>
      rw [antiCount] at h h'
      cases hx : info[j]? with
      | none => rw [hx] at h; cases h
      | some x =>
        rw [hx] at h h'
        simp only at h h'
        cases ha : x.anti with
        | none => simp only [ha] at h h'; cases h; cases h'; rfl
        | some a =>
          simp only [ha] at h h'
          cases hr : antiCount info fuel a with
          | error e => rw [hr] at h; cases h
          | ok r =>
            cases hr' : antiCount info fuel' a with
            | error e => rw [hr'] at h'; cases h'
            | ok r' =>
              rw [hr] at h; rw [hr'] at h'
              cases h; cases h'
              rw [ih hr hr']

/-- a graph as built: `tape j` is the original number of variable `j` -/
structure Built (info : List VarInfo) (m : Nat) (inc : Nat → Nat → Bool) (tape : List Nat) (g : BG) : Prop where
  w : W g
  ne : g.ne = m
  nv : g.nv = tape.length
  nodup : tape.Nodup
  mem : ∀ t, t ∈ tape ↔ ∃ x, info[t]? = some x ∧ x.timeDep = true
  va : ∀ j, (g.v j).assign = none
  ea : ∀ i, (g.e i).assign = none
  diff : ∀ i, (g.e i).diff = none ∧ (g.e i).diffOf = none
  orig : ∀ i j, j ∈ (g.e i).orig ↔ i < m ∧ ∃ t, tape[j]? = some t ∧ inc i t = true
  anti : ∀ (j p : Nat), (g.v j).anti = some p ↔ ∃ t a, tape[j]? = some t ∧ tape[p]? = some a ∧ (info[t]?).bind VarInfo.anti = some a
  closed : ∀ (j t a : Nat), tape[j]? = some t → (info[t]?).bind VarInfo.anti = some a → ∃ p : Nat, tape[p]? = some a
  rank : ∃ r : Nat → Nat, ∀ j d, (g.v j).deriv = some d → r j < r d

/-- with the list of positions on the tape -/
theorem construct_tape {info : List VarInfo} {m : Nat} {inc : Nat → Nat → Bool} {g : BG} (h : construct info m inc = .ok g)
    (hinj : ∀ (t t' a : Nat) x x', info[t]? = some x → info[t']? = some x' → x.timeDep = true → x'.timeDep = true →
      x.anti = some a → x'.anti = some a → t = t') :
    (∃ order, (List.range info.length).mapM (diffOrder info) = .ok order ∧
      Built info m inc (new2Tape info.length (fun t => (order[t]?).bind id) ((order.map (·.getD 0)).foldl max 0)) g) ∧ unknowns g = m := by
  unfold construct at h
  split at h
  · cases h
  split at h
  · cases h
  cases ho : (List.range info.length).mapM (diffOrder info) with
  | error e => rw [ho] at h; cases h
  | ok order =>
    rw [ho] at h
    simp only [bind, Except.bind] at h
    cases hc : antiNodes info (new2Tape info.length (fun t => (order[t]?).bind id) ((order.map (·.getD 0)).foldl max 0)) with
    | error e => rw [hc] at h; cases h
    | ok anti =>
      rw [hc] at h
      simp only at h
      split at h
      · rename_i hu
        obtain ⟨o1, o2⟩ := mapM_ok ho
        have hnd := new2Tape_nodup info.length (fun t => (order[t]?).bind id) ((order.map (·.getD 0)).foldl max 0)
        have hord : ∀ (t : Nat) x, info[t]? = some x → x.timeDep = true → ∃ k, (order[t]?).bind id = some k ∧
            antiCount info (info.length + 1) t = .ok k := by
          intro t x hx hd
          have hlt := (List.getElem?_eq_some_iff.mp hx).1
          obtain ⟨b, hb, hb'⟩ := o2 t t (by rw [List.getElem?_range hlt])
          unfold diffOrder at hb
          rw [hx] at hb
          simp only [hd, if_true] at hb
          cases ha : antiCount info (info.length + 1) t with
          | error e => rw [ha] at hb; cases hb
          | ok k => rw [ha] at hb; cases hb; exact ⟨k, by rw [hb']; rfl, rfl⟩
        have hmem : ∀ t, t ∈ new2Tape info.length (fun t => (order[t]?).bind id) ((order.map (·.getD 0)).foldl max 0) ↔
            ∃ x, info[t]? = some x ∧ x.timeDep = true := by
          intro t
          rw [mem_new2Tape]
          constructor
          · rintro ⟨hlt, o, _, h2⟩
            refine ⟨_, List.getElem?_eq_getElem hlt, ?_⟩
            obtain ⟨b, hb, hb'⟩ := o2 t t (by rw [List.getElem?_range hlt])
            rw [hb'] at h2
            by_contra hd
            unfold diffOrder at hb
            rw [List.getElem?_eq_getElem hlt] at hb
            simp only [hd, if_false] at hb
            simp only [Bool.false_eq_true, if_false] at hb
            cases hb
            cases h2
          · rintro ⟨x, hx, hd⟩
            obtain ⟨k, hk, _⟩ := hord t x hx hd
            refine ⟨(List.getElem?_eq_some_iff.mp hx).1, k, ?_, hk⟩
            refine foldl_max_le _ _ _ (.inr ?_)
            rw [List.mem_map]
            cases hh : order[t]? with
            | none => rw [hh] at hk; cases hk
            | some q =>
              rw [hh] at hk
              cases q with
              | none => cases hk
              | some q => cases hk; exact ⟨some k, List.mem_of_getElem? hh, rfl⟩
        suffices H : Built info m inc (new2Tape info.length (fun t => (order[t]?).bind id) ((order.map (·.getD 0)).foldl max 0)) g from
          ⟨⟨order, rfl, H⟩, (Except.ok.inj h) ▸ hu⟩
        generalize new2Tape info.length (fun t => (order[t]?).bind id) ((order.map (·.getD 0)).foldl max 0) = tape at *
        obtain ⟨a1, a2⟩ := mapM_ok hc
        -- antiderivatives of the nodes
        have hanti : ∀ d p : Nat, anti[d]? = some (some p) ↔ ∃ t a, tape[d]? = some t ∧ tape[p]? = some a ∧ (info[t]?).bind VarInfo.anti = some a := by
          intro d p
          constructor
          · intro h1
            have hlt : d < tape.length := by rw [← a1]; exact (List.getElem?_eq_some_iff.mp h1).1
            obtain ⟨b, hb, hb'⟩ := a2 d _ (List.getElem?_eq_getElem hlt)
            rw [h1] at hb'
            cases hb'
            cases hx : (info[tape[d]]?).bind VarInfo.anti with
            | none => rw [hx] at hb; cases hb
            | some a =>
              rw [hx] at hb
              simp only at hb
              cases hi : tape.idxOf? a with
              | none => rw [hi] at hb; cases hb
              | some q =>
                rw [hi] at hb
                cases hb
                exact ⟨tape[d], a, List.getElem?_eq_getElem hlt, (idxOf_nodup hnd).mp hi, hx⟩
          · rintro ⟨t, a, h1, h2, h3⟩
            obtain ⟨b, hb, hb'⟩ := a2 d t h1
            rw [h3] at hb
            simp only [(idxOf_nodup hnd).mpr h2] at hb
            cases hb
            exact hb'
        have hA : Antis anti := by
          refine ⟨fun d p h1 => ?_, fun d d' p h1 h2 => ?_⟩
          · obtain ⟨t, a, _, h2, _⟩ := (hanti d p).mp h1
            rw [a1]; exact (List.getElem?_eq_some_iff.mp h2).1
          · obtain ⟨t, a, b1, b2, b3⟩ := (hanti d p).mp h1
            obtain ⟨t', a', c1, c2, c3⟩ := (hanti d' p).mp h2
            rw [b2] at c2; cases c2
            obtain ⟨x, hx, hd⟩ := (hmem t).mp (List.mem_of_getElem? b1)
            obtain ⟨x', hx', hd'⟩ := (hmem t').mp (List.mem_of_getElem? c1)
            rw [hx] at b3; rw [hx'] at c3
            have := hinj t t' a x x' hx hx' hd hd' b3 c3
            subst this
            have e1 := (idxOf_nodup hnd).mpr b1
            rw [(idxOf_nodup hnd).mpr c1] at e1
            exact (Option.some.inj e1).symm
        have hM0 : More (nodes anti m) (nodes anti m) :=
          ⟨nodes_w hA m, rfl, rfl, fun _ => rfl, fun _ => rfl, fun _ => rfl, fun _ => rfl, fun _ => rfl, fun _ => rfl⟩
        obtain ⟨r1, r2, r3⟩ := edges_rows (g := nodes anti m) (tape := tape) a1.symm (n := info.length) (inc := inc)
          (List.range m) (nodes anti m) List.nodup_range (fun i hi => List.mem_range.mp hi) hM0 (fun _ _ => rfl)
        cases h
        refine ⟨r1.w, r1.ne, r1.nv.trans a1, hnd, hmem, fun j => ?_, fun i => r1.ea i,
          fun i => ⟨r1.diff i, r1.diffOf i⟩, ?_, ?_, ?_, ?_⟩
        · refine (r1.va j).trans ?_
          simp only [nodes]; split <;> rfl
        · intro i j
          by_cases hi : i < m
          · refine (r3 i (List.mem_range.mpr hi) j).trans ?_
            simp only [hi, true_and]
            constructor
            · rintro ⟨p, _, h1, h2⟩; exact ⟨p, (idxOf_nodup hnd).mp h1, h2⟩
            · rintro ⟨t, h1, h2⟩
              obtain ⟨x, hx, _⟩ := (hmem t).mp (List.mem_of_getElem? h1)
              exact ⟨t, (List.getElem?_eq_some_iff.mp hx).1, (idxOf_nodup hnd).mpr h1, h2⟩
          · refine ⟨fun hj => ?_, fun hj => absurd hj.1 hi⟩
            have : (edges tape info.length m inc (nodes anti m)).e i = (nodes anti m).e i :=
              r2 i (by rw [List.mem_range]; exact hi)
            rw [this] at hj
            cases hj
        · intro j p
          rw [← hanti, ← nodes_anti (m := m), ← r1.anti]
          rfl
        · intro j t a h1 h2
          obtain ⟨b, hb, _⟩ := a2 j t h1
          rw [h2] at hb
          simp only at hb
          cases hi : tape.idxOf? a with
          | none => rw [hi] at hb; cases hb
          | some q => exact ⟨q, (idxOf_nodup hnd).mp hi⟩
        · refine ⟨fun j => ((tape[j]?).bind fun t => (order[t]?).bind id).getD 0, fun j d hd => ?_⟩
          have hd' : anti[d]? = some (some j) := (nodes_deriv hA (m := m)).mp ((r1.deriv j).symm.trans hd)
          obtain ⟨t, a, b1, b2, b3⟩ := (hanti d j).mp hd'
          obtain ⟨x, hx, hdx⟩ := (hmem t).mp (List.mem_of_getElem? b1)
          obtain ⟨y, hy, hdy⟩ := (hmem a).mp (List.mem_of_getElem? b2)
          obtain ⟨k, hk, hk'⟩ := hord t x hx hdx
          obtain ⟨k2, hk2, hk2'⟩ := hord a y hy hdy
          rw [hx] at b3
          obtain ⟨k3, e3, f3, h3⟩ := antiCount_lt hk' hx b3
          have := antiCount_det hk2' h3
          simp only [b1, b2, Option.bind_some, hk, hk2, Option.getD_some]
          omega
      · cases h

theorem construct_built {info : List VarInfo} {m : Nat} {inc : Nat → Nat → Bool} {g : BG} (h : construct info m inc = .ok g)
    (hinj : ∀ (t t' a : Nat) x x', info[t]? = some x → info[t']? = some x' → x.timeDep = true → x'.timeDep = true →
      x.anti = some a → x'.anti = some a → t = t') :
    (∃ tape, Built info m inc tape g) ∧ unknowns g = m := by
  obtain ⟨⟨order, _, hB⟩, hu⟩ := construct_tape h hinj
  exact ⟨⟨_, hB⟩, hu⟩

end Verif.Dae
