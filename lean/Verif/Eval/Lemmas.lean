import Verif.Eval.Model
import Mathlib.Data.List.Forall2
/- What an evaluation computes, for any kind of results. -/
namespace Verif.Eval
open Verif.Codegen Verif.Cg

variable {α A S : Type}

/-- What is needed of the operations of the results: they succeed on proper operands (`Va`) in a proper
state (`Ok`), only extend the state (`Le`), and denote (`Den`) the operation on the denoted values where
it is defined (`Dom`), provided the final state is interpreted (`Fin`). -/
structure Sound (O : Ops α A S) (I : Interp α) (Le : S → S → Prop) (Ok : S → Prop) (Va : S → A → Prop)
    (Fin : S → Prop) (Den : A → α → Prop) (Dom : Op → List α → Prop) : Prop where
  refl : ∀ s, Le s s
  trans : ∀ {a b c}, Le a b → Le b c → Le a c
  va_mono : ∀ {s s' a}, Le s s' → Va s a → Va s' a
  fin_mono : ∀ {s s'}, Le s s' → Fin s' → Fin s
  va_const : ∀ s v, Va s (O.const v)
  den_const : ∀ v, Den (O.const v) v
  step : ∀ op as s, Ok s → (∀ a ∈ as, Va s a) → as.length = arity op → op ≠ .inv → unsupportedOp op = false →
    ∃ r s', applyOps O op as s = .ok (r, s') ∧ Le s s' ∧ Ok s' ∧ Va s' r ∧
      (Fin s' → ∀ ps p, List.Forall₂ Den as ps → Dom op ps → opSem I op ps = some p → Den r p)

/-- the nodes visited from `roots`, with the path to them -/
inductive Visit (E : Setup α A S) (roots : List Nat) : List (Nat × Nat) → Nat → Prop
  | root {n : Nat} : n ∈ roots → Visit E roots [] n
  | arg {p : List (Nat × Nat)} {n i m : Nat} : Visit E roots p n → E.hook p n = none →
      (E.G n).args[i]? = some (.node m) → Visit E roots (p ++ [(n, i)]) m

/-- what the evaluation should compute: `D n` for the node `n` -/
structure Means (E : Setup α A S) (I : Interp α) (Va : S → A → Prop) (Fin : S → Prop) (Den : A → α → Prop)
    (Dom : Op → List α → Prop) (roots : List Nat) (rank : Nat → Nat) (s0 : S) (D : Nat → α) : Prop where
  hook : ∀ p n r, Visit E roots p n → E.hook p n = some r → Va s0 r ∧ (Fin s0 → Den r (D n))
  indep : ∀ p n, Visit E roots p n → E.hook p n = none → (E.G n).op = .inv →
    ∃ j a, E.indeps.idxOf? n = some j ∧ E.x[j]? = some a ∧ Va s0 a ∧ (Fin s0 → Den a (D n))
  op : ∀ p n, Visit E roots p n → E.hook p n = none → (E.G n).op ≠ .inv →
    (E.G n).args.length = arity (E.G n).op ∧ unsupportedOp (E.G n).op = false ∧
    (E.ord n).Perm (List.range (arity (E.G n).op)) ∧
    (Fin s0 → Dom (E.G n).op ((E.G n).args.map (argVal D)) ∧
    opSem I (E.G n).op ((E.G n).args.map (argVal D)) = some (D n))
  rank : ∀ p n, Visit E roots p n → E.hook p n = none → ∀ m ∈ kids E.G n, rank m < rank n

structure Inv (Le : S → S → Prop) (Ok : S → Prop) (Va : S → A → Prop) (Fin : S → Prop) (Den : A → α → Prop)
    (s0 : S) (D : Nat → α) (st : EState A S) : Prop where
  le : Le s0 st.st
  ok : Ok st.st
  va : ∀ n a, st.memo n = some a → Va st.st a
  den : Fin st.st → ∀ n a, st.memo n = some a → Den a (D n)

section
variable {E : Setup α A S} {I : Interp α} {Le : S → S → Prop} {Ok : S → Prop} {Va : S → A → Prop}
  {Fin : S → Prop} {Den : A → α → Prop} {Dom : Op → List α → Prop} {roots : List Nat} {rank : Nat → Nat}
  {s0 : S} {D : Nat → α}

theorem mem_kids_of {G : Graph α} {n i m : Nat} (h : (G n).args[i]? = some (.node m)) : m ∈ kids G n := by
  unfold kids argNodes
  rw [List.mem_filterMap]
  exact ⟨.node m, List.mem_of_getElem? h, rfl⟩

/-- results so far: the operands at the positions in `ds` -/
structure Acc (Va : S → A → Prop) (Fin : S → Prop) (Den : A → α → Prop) (D : Nat → α) (args : List (Arg α))
    (ds : List Nat) (acc : Nat → Option A) (s : S) : Prop where
  some : ∀ p ∈ ds, ∃ a arg, acc p = Option.some a ∧ args[p]? = Option.some arg ∧ Va s a ∧
    (Fin s → Den a (argVal D arg))

theorem evalArgs_spec (H : Sound E.O I Le Ok Va Fin Den Dom) {args : List (Arg α)}
    (ev : Nat → Arg α → EState A S → Except Err A × EState A S)
    (hev : ∀ (p : Nat) a st, args[p]? = some a → Inv Le Ok Va Fin Den s0 D st →
      ∃ v st', ev p a st = (.ok v, st') ∧ Inv Le Ok Va Fin Den s0 D st' ∧ Le st.st st'.st ∧ Va st'.st v ∧
        (Fin st'.st → Den v (argVal D a))) :
    ∀ (ps ds : List Nat) (acc : Nat → Option A) (st : EState A S), (∀ p ∈ ps, p < args.length) →
      Inv Le Ok Va Fin Den s0 D st → Acc Va Fin Den D args ds acc st.st →
      ∃ acc' st', evalArgs ev args ps acc st = (.ok acc', st') ∧ Inv Le Ok Va Fin Den s0 D st' ∧
        Le st.st st'.st ∧ Acc Va Fin Den D args (ps ++ ds) acc' st'.st := by
  intro ps
  induction ps with
  | nil => intro ds acc st _ hi ha; exact ⟨acc, st, rfl, hi, H.refl _, ha⟩
  | cons p ps ih =>
    intro ds acc st hps hi ha
    have hlt := hps p List.mem_cons_self
    have hget : args[p]? = some args[p] := List.getElem?_eq_getElem hlt
    obtain ⟨v, st', e, hi', hle, hva, hden⟩ := hev p _ st hget hi
    rw [evalArgs, hget]
    simp only
    rw [e]
    simp only
    have hacc : Acc Va Fin Den D args (p :: ds) (fun q => if q = p then some v else acc q) st'.st := by
      constructor
      intro q hq
      by_cases hqp : q = p
      · subst hqp
        exact ⟨v, _, by simp, hget, hva, hden⟩
      · obtain ⟨a, arg, h1, h2, h3, h4⟩ := ha.some q (by
          rcases List.mem_cons.mp hq with h | h
          · exact absurd h hqp
          · exact h)
        exact ⟨a, arg, by simp [hqp, h1], h2, H.va_mono hle h3, fun hf => h4 (H.fin_mono hle hf)⟩
    obtain ⟨acc', st'', e', hi'', hle', hacc'⟩ := ih (p :: ds) _ st'
      (fun q hq => hps q (List.mem_cons_of_mem _ hq)) hi' hacc
    refine ⟨acc', st'', e', hi'', H.trans hle hle', ?_⟩
    constructor
    intro q hq
    apply hacc'.some
    simp only [List.mem_append, List.mem_cons] at hq ⊢
    rcases hq with (h | h) | h
    · exact .inr (.inl h)
    · exact .inl h
    · exact .inr (.inr h)

/-- operands collected in their order -/
theorem collect {args : List (Arg α)} {acc : Nat → Option A} {s : S} (h : Acc Va Fin Den D args (List.range args.length) acc s) :
    ∀ k, k ≤ args.length → ∃ as, (List.range k).mapM acc = some as ∧ as.length = k ∧ (∀ a ∈ as, Va s a) ∧
      (Fin s → List.Forall₂ Den as ((args.take k).map (argVal D))) := by
  intro k
  induction k with
  | zero => intro _; exact ⟨[], rfl, rfl, by simp, fun _ => .nil⟩
  | succ k ih =>
    intro hk
    obtain ⟨as, h1, h2, h3, h4⟩ := ih (by omega)
    obtain ⟨a, arg, h5, h6, h7, h8⟩ := h.some k (by rw [List.mem_range]; omega)
    refine ⟨as ++ [a], ?_, by simp [h2], ?_, ?_⟩
    · rw [List.range_succ, List.mapM_append, h1]
      simp [h5]
    · intro b hb
      rcases List.mem_append.mp hb with hb | hb
      · exact h3 b hb
      · simp only [List.mem_singleton] at hb; subst hb; exact h7
    · intro hf
      rw [List.take_add_one, h6, List.map_append]
      exact List.rel_append (h4 hf) (.cons (h8 hf) .nil)

theorem Inv.save {st : EState A S} (h : Inv Le Ok Va Fin Den s0 D st) {n : Nat} {a : A} (hv : Va st.st a)
    (hd : Fin st.st → Den a (D n)) : Inv Le Ok Va Fin Den s0 D (st.save n a) := by
  refine ⟨h.le, h.ok, ?_, ?_⟩
  · intro m b hm
    simp only [EState.save] at hm ⊢
    by_cases hmn : m = n
    · rw [if_pos hmn] at hm; cases hm; exact hv
    · rw [if_neg hmn] at hm; exact h.va m b hm
  · intro hf m b hm
    simp only [EState.save] at hm hf
    by_cases hmn : m = n
    · rw [if_pos hmn] at hm; cases hm; subst hmn; exact hd hf
    · rw [if_neg hmn] at hm; exact h.den hf m b hm

theorem evalOps_spec (H : Sound E.O I Le Ok Va Fin Den Dom) (M : Means E I Va Fin Den Dom roots rank s0 D) :
    ∀ (fuel : Nat) (p : List (Nat × Nat)) (n : Nat) (st : EState A S), Visit E roots p n → rank n < fuel →
      Inv Le Ok Va Fin Den s0 D st →
      ∃ a st', evalOps E fuel p n st = (.ok a, st') ∧ Inv Le Ok Va Fin Den s0 D st' ∧ Le st.st st'.st ∧
        Va st'.st a ∧ (Fin st'.st → Den a (D n)) := by
  intro fuel
  induction fuel with
  | zero => intro p n st _ h; omega
  | succ fuel ih =>
    intro p n st hv hr hi
    rw [evalOps]
    cases hm : st.memo n with
    | some a => exact ⟨a, st, rfl, hi, H.refl _, hi.va n a hm, fun hf => hi.den hf n a hm⟩
    | none =>
      simp only
      suffices hs : ∃ a st', evalOperation E (evalOps E fuel) p n st = (.ok a, st') ∧
          Inv Le Ok Va Fin Den s0 D st' ∧ Le st.st st'.st ∧ Va st'.st a ∧ (Fin st'.st → Den a (D n)) by
        obtain ⟨a, st', e, h1, h2, h3, h4⟩ := hs
        rw [e]
        exact ⟨a, st'.save n a, rfl, h1.save h3 h4, h2, h3, h4⟩
      unfold evalOperation
      cases hh : E.hook p n with
      | some r =>
        obtain ⟨h1, h2⟩ := M.hook p n r hv hh
        exact ⟨r, st, rfl, hi, H.refl _, H.va_mono hi.le h1, fun hf => h2 (H.fin_mono hi.le hf)⟩
      | none =>
        simp only
        by_cases hinv : (E.G n).op = .inv
        · rw [if_pos hinv]
          obtain ⟨j, a, h1, h2, h3, h4⟩ := M.indep p n hv hh hinv
          refine ⟨a, st, ?_, hi, H.refl _, H.va_mono hi.le h3, fun hf => h4 (H.fin_mono hi.le hf)⟩
          unfold evalIndep
          rw [h1]
          simp only
          rw [h2]
        · rw [if_neg hinv]
          obtain ⟨ha, hu, ho, hsem⟩ := M.op p n hv hh hinv
          rw [hu]
          simp only [Bool.false_eq_true, if_false]
          have hev : ∀ (q : Nat) a st, (E.G n).args[q]? = some a → Inv Le Ok Va Fin Den s0 D st →
              ∃ v st', evalArg E (evalOps E fuel) p n q a st = (.ok v, st') ∧ Inv Le Ok Va Fin Den s0 D st' ∧
                Le st.st st'.st ∧ Va st'.st v ∧ (Fin st'.st → Den v (argVal D a)) := by
            intro q a st hq hi
            cases a with
            | param v => exact ⟨_, st, rfl, hi, H.refl _, H.va_const _ _, fun _ => H.den_const _⟩
            | node m =>
              have hrm := M.rank p n hv hh m (mem_kids_of hq)
              exact ih _ m st (.arg hv hh hq) (by omega) hi
          obtain ⟨acc, st', e, hi', hle, hacc⟩ := evalArgs_spec H _ hev (E.ord n) [] (fun _ => none) st
            (fun q hq => by
              have := (ho.mem_iff).mp hq
              rw [List.mem_range] at this; omega) hi ⟨by simp⟩
          rw [e]
          simp only
          have hacc' : Acc Va Fin Den D (E.G n).args (List.range (E.G n).args.length) acc st'.st := by
            constructor
            intro q hq
            apply hacc.some
            rw [List.append_nil, ho.mem_iff, ← ha]
            exact hq
          obtain ⟨as, h1, h2, h3, h4⟩ := collect hacc' (arity (E.G n).op) (by omega)
          rw [h1]
          simp only
          obtain ⟨r, s', e', h5, h6, h7, h8⟩ := H.step (E.G n).op as st'.st hi'.ok h3 h2 hinv hu
          rw [e']
          simp only
          refine ⟨r, _, rfl, ⟨H.trans hi'.le h5, h6, ?_, ?_⟩, H.trans hle h5, h7, ?_⟩
          · intro m b hm; exact H.va_mono h5 (hi'.va m b hm)
          · intro hf m b hm; exact hi'.den (H.fin_mono h5 hf) m b hm
          · intro hf
            have hf' := H.fin_mono h5 hf
            obtain ⟨hdom, hop⟩ := hsem (H.fin_mono hi'.le hf')
            refine h8 hf _ _ ?_ hdom hop
            have := h4 hf'
            rwa [← ha, List.take_length] at this

theorem evalAll_spec (H : Sound E.O I Le Ok Va Fin Den Dom) (M : Means E I Va Fin Den Dom roots rank s0 D)
    {fuel : Nat} :
    ∀ (deps : List (Cg α)) (st : EState A S), (∀ c ∈ deps, ∀ n, c.node = some n → n ∈ roots ∧ rank n < fuel) →
      (∀ c ∈ deps, c.node = none → c.value.isSome = true) → Inv Le Ok Va Fin Den s0 D st →
      ∃ as st', evalAll E fuel deps st = (.ok as, st') ∧ Inv Le Ok Va Fin Den s0 D st' ∧ Le st.st st'.st ∧
        (∀ a ∈ as, Va st'.st a) ∧ as.length = deps.length ∧
        (Fin st'.st → ∀ (i : Nat) c a, deps[i]? = some c → as[i]? = some a →
          ∀ p, (match c.node with | some n => D n = p | none => c.value = some p) → Den a p) := by
  intro deps
  induction deps with
  | nil => intro st _ _ hi; exact ⟨[], st, rfl, hi, H.refl _, by simp, rfl, by simp⟩
  | cons c cs ih =>
    intro st h1 h2 hi
    have hc : ∃ a st', evalCG E fuel c st = (.ok a, st') ∧ Inv Le Ok Va Fin Den s0 D st' ∧ Le st.st st'.st ∧
        Va st'.st a ∧ (Fin st'.st → ∀ p, (match c.node with | some n => D n = p | none => c.value = some p) →
          Den a p) := by
      unfold evalCG
      cases hn : c.node with
      | none =>
        have := h2 c List.mem_cons_self hn
        rw [Option.isSome_iff_exists] at this
        obtain ⟨v, hv⟩ := this
        simp only [Cg.getValue, hv]
        refine ⟨_, st, rfl, hi, H.refl _, H.va_const _ _, ?_⟩
        intro _ p hp
        cases hp
        exact H.den_const _
      | some n =>
        simp only
        obtain ⟨hr, hf⟩ := h1 c List.mem_cons_self n hn
        obtain ⟨a, st', e, h3, h4, h5, h6⟩ := evalOps_spec H M fuel [] n st (.root hr) hf hi
        exact ⟨a, st', e, h3, h4, h5, fun hf p hp => hp ▸ h6 hf⟩
    obtain ⟨a, st', e, hi', hle, hva, hden⟩ := hc
    obtain ⟨as, st'', e', hi'', hle', hva', hlen, hden'⟩ := ih st'
      (fun c hc => h1 c (List.mem_cons_of_mem _ hc)) (fun c hc => h2 c (List.mem_cons_of_mem _ hc)) hi'
    refine ⟨a :: as, st'', ?_, hi'', H.trans hle hle', ?_, by simp [hlen], ?_⟩
    · rw [evalAll, e]
      simp only
      rw [e']
    · intro b hb
      rcases List.mem_cons.mp hb with rfl | hb
      · exact H.va_mono hle' hva
      · exact hva' b hb
    · intro hf i d b hd hb p hp
      cases i with
      | zero =>
        rw [List.getElem?_cons_zero] at hd hb
        cases hd; cases hb
        exact hden (H.fin_mono hle' hf) p hp
      | succ i =>
        rw [List.getElem?_cons_succ] at hd hb
        exact hden' hf i d b hd hb p hp

end
end Verif.Eval
