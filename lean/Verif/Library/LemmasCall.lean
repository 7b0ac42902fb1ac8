import Verif.Library.ModelCall
import Mathlib.Data.List.Forall2

/-
The steps of the evaluation of compiled models: pointers, memory and calls of compiled functions.
-/
namespace Verif.Library.Call

variable {R α β : Type}

theorem bind_eq (x : M R α) (f : α → M R β) (s : St R) : (x >>= f) s = match x s with
    | .ok a s' => f a s'
    | .error s' => .error s'
    | .ub => .ub := rfl

theorem bind_ok {x : M R α} {f : α → M R β} {s s' : St R} {a : α} (h : x s = .ok a s') : (x >>= f) s = f a s' := by
  rw [bind_eq, h]

theorem bind_error {x : M R α} {f : α → M R β} {s s' : St R} (h : x s = .error s') : (x >>= f) s = .error s' := by
  rw [bind_eq, h]

@[simp] theorem pure_eq (a : α) (s : St R) : (pure a : M R α) s = .ok a s := rfl

@[simp] theorem get_bind (f : St R → M R β) (s : St R) : (get >>= f) s = f s s := rfl

theorem known_bind (b : Bool) (f : Unit → M R β) (s : St R) : (known b >>= f) s = if b then f () s else .error s := by
  rw [bind_eq, known]; cases b <;> rfl

theorem defined_bind (o : Option α) (f : α → M R β) (s : St R) : (defined o >>= f) s = match o with
    | some a => f a s
    | none => .error s := by
  cases o <;> rfl

theorem setIn_bind {i : Nat} {p : Ptr} {f : Unit → M R β} {s : St R} (h : i < s.inp.length) :
    (setIn i p >>= f) s = f () { s with inp := s.inp.set i (some p) } := by
  rw [bind_eq, setIn, if_pos h]

theorem setInHess_bind {i : Nat} {p : Ptr} {f : Unit → M R β} {s : St R} (h : i < s.inHess.length) :
    (setInHess i p >>= f) s = f () { s with inHess := s.inHess.set i (some p) } := by
  rw [bind_eq, setInHess, if_pos h]

theorem setOut_bind {p : Ptr} {f : Unit → M R β} {s : St R} (h : 0 < s.out.length) :
    (setOut p >>= f) s = f () { s with out := s.out.set 0 (some p) } := by
  rw [bind_eq, setOut, if_pos h]

/-! ### memory -/

theorem read_of_holds {H : Heap R} {p : Ptr} {vs : List R} (h : Holds H p vs) : read H p vs.length = some vs := by
  obtain ⟨l, h1, h2, h3⟩ := h
  simp only [read, h1, if_pos h2, Option.some_inj]
  apply List.ext_getElem?
  intro k
  by_cases hk : k < vs.length
  · rw [List.getElem?_take_of_lt hk, List.getElem?_drop, h3 k hk]
  · rw [List.getElem?_eq_none (by simp; omega), List.getElem?_eq_none (by omega)]

theorem holds_of_view {H : Heap R} {v : View} (h : v.Exists H) : ∃ vs, vs.length = v.size ∧ Holds H v.data vs := by
  obtain ⟨l, h1, h2⟩ := h
  refine ⟨(l.drop v.data.off).take v.size, by simp; omega, l, h1, by simp; omega, fun k hk => ?_⟩
  simp only [List.length_take, List.length_drop] at hk
  rw [List.getElem?_take_of_lt (by omega), List.getElem?_drop]

theorem write_of_exists {H : Heap R} {v : View} {vs : List R} (h : v.Exists H) (hs : vs.length = v.size) :
    ∃ H', write H v.data vs = some H' ∧ Holds H' v.data vs ∧ OnlyIn v H H' := by
  obtain ⟨l, h1, h2⟩ := h
  have hb := (List.getElem?_eq_some_iff.1 h1).1
  refine ⟨H.set v.data.buf (l.take v.data.off ++ vs ++ l.drop (v.data.off + vs.length)), by
    simp only [write, h1]; rw [if_pos (by omega)], ⟨_, by rw [List.getElem?_set_self hb], by simp; omega, fun k hk => ?_⟩, by simp, ?_⟩
  · rw [List.append_assoc, List.getElem?_append_right (by simp; omega), List.getElem?_append_left (by simp; omega)]
    congr 1; simp; omega
  · intro b k k' hk hk'
    by_cases hbb : b = v.data.buf
    · subst hbb
      rw [h1, Option.some_inj] at hk
      subst hk
      rw [List.getElem?_set_self hb, Option.some_inj] at hk'
      subst hk'
      refine ⟨by simp; omega, fun i hi => ?_⟩
      rcases hi rfl with hi | hi
      · rw [List.append_assoc, List.getElem?_append_left (by simp; omega), List.getElem?_take_of_lt hi]
      · rw [List.getElem?_append_right (by simp; omega), List.getElem?_drop]
        congr 1; simp; omega
    · rw [List.getElem?_set_ne (Ne.symm hbb), hk, Option.some_inj] at hk'
      subst hk'
      exact ⟨rfl, fun _ _ => rfl⟩

/-- the pointers to the arguments -/
theorem readAll_of_holds {H : Heap R} : ∀ {ks : List Nat} {ps : List (Option Ptr)} {args : List (List R)},
    List.Forall₂ (fun (p : Option Ptr) (vs : List R) => ∃ q, p = some q ∧ Holds H q vs) ps args → ks = args.map List.length →
    readAll H ks ps = some args
  | _, _, _, .nil, rfl => rfl
  | _, _, _, .cons (a := p) (b := vs) ⟨q, hq, hv⟩ h, rfl => by
    subst hq
    simp only [List.map_cons, readAll, read_of_holds hv, readAll_of_holds h rfl]

/-- a call of a compiled function -/
theorem call_ok {f : Fn R} {ins outs : List (Option Ptr)} {args : List (List R)} {v : View} {s : St R} {r : Nat}
    (hf : f.Ok (args.map List.length) r) (hi : List.Forall₂ (fun (p : Option Ptr) (vs : List R) => ∃ q, p = some q ∧ Holds s.heap q vs) ins args)
    (ho : outs[0]? = some (some v.data)) (hv : v.Exists s.heap) (hr : v.size = r) :
    ∃ H', call f ins outs s = .ok () { s with heap := H' } ∧ Holds H' v.data (f.val args) ∧ OnlyIn v s.heap H' := by
  obtain ⟨H', h1, h2, h3⟩ := write_of_exists hv ((hf.size args).trans hr.symm)
  refine ⟨H', ?_, h2, h3⟩
  obtain _ | ⟨o, os⟩ := outs
  · cases ho
  · simp only [List.getElem?_cons_zero, Option.some_inj] at ho
    subst ho
    simp only [call, readAll_of_holds hi hf.ins, h1]

/-- a change in an array made after the others -/
theorem onlyIn_refl (v : View) (H : Heap R) : OnlyIn v H H :=
  ⟨rfl, fun b l l' h h' => by rw [h, Option.some_inj] at h'; subst h'; exact ⟨rfl, fun _ _ => rfl⟩⟩

theorem onlyIn_holds {v : View} {H H' : Heap R} (h : OnlyIn v H H') {p : Ptr} {vs : List R} (hp : Holds H p vs)
    (hd : p.buf ≠ v.data.buf) : Holds H' p vs := by
  obtain ⟨l, h1, h2, h3⟩ := hp
  have hb := (List.getElem?_eq_some_iff.1 h1).1
  have hb' : p.buf < List.length H' := by rw [h.1]; exact hb
  obtain ⟨k1, k2⟩ := h.2 p.buf l (H'[p.buf]'hb') h1 (List.getElem?_eq_getElem hb')
  refine ⟨_, List.getElem?_eq_getElem hb', by omega, fun k hk => ?_⟩
  rw [k2 _ fun h => absurd h hd, h3 k hk]

end Verif.Library.Call
