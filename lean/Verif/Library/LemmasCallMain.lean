import Verif.Library.LemmasCallKeep

/-
The results of the calls of the interface of a compiled model.
-/
namespace Verif.Library.Call

variable {R α β : Type}

theorem pres_ok {x : M R α} (h : Pres x) {s s' : St R} {a : α} (hx : x s = .ok a s') : Keeps s s' := h s s' (by rw [hx]; rfl)

theorem one_array {L : Lib R} (hL : L.Ok) (h : L.OneArray) : L.arrays = [L.n] := by
  obtain ⟨k, hk⟩ := List.length_eq_one_iff.1 h
  have := hL.sum
  rw [hk] at this ⊢
  simpa using this

theorem set_one {l : List (Option Ptr)} {p : Ptr} (h : l.length = 1) : l.set 0 (some p) = [some p] := by
  obtain ⟨k, rfl⟩ := List.length_eq_one_iff.1 h
  rfl

theorem set_two {l : List (Option Ptr)} {p q : Ptr} (h : l.length = 2) : (l.set 0 (some p)).set 1 (some q) = [some p, some q] := by
  obtain ⟨a, b, rfl⟩ := List.length_eq_two.1 h
  rfl

theorem get_set_out {l : List (Option Ptr)} {p : Ptr} (h : 0 < l.length) : (l.set 0 (some p))[0]? = some (some p) := List.getElem?_set_self h

theorem args_one {H : Heap R} {p : Ptr} {xs : List R} (h : Holds H p xs) :
    List.Forall₂ (fun (p : Option Ptr) (vs : List R) => ∃ q, p = some q ∧ Holds H q vs) [some p] [xs] :=
  .cons ⟨p, rfl, h⟩ .nil

theorem args_two {H : Heap R} {p q : Ptr} {xs ws : List R} (h : Holds H p xs) (h' : Holds H q ws) :
    List.Forall₂ (fun (p : Option Ptr) (vs : List R) => ∃ q, p = some q ∧ Holds H q vs) [some p, some q] [xs, ws] :=
  .cons ⟨p, rfl, h⟩ (.cons ⟨q, rfl, h'⟩ .nil)

/-- the tail of the functions with one array of independents -/
theorem call_one {L : Lib R} (hL : L.Ok) {s : St R} (hs : s.Fits L) (h1 : L.OneArray) {f : Fn R} {r : Nat} (hf : f.Ok L.arrays r) {x v : View} {xs : List R}
    (hx : Holds s.heap x.data xs) (hxs : xs.length = x.size) (hn : x.size = L.n) (hv : v.Exists s.heap) (hr : v.size = r) :
    ∃ s', Holds s'.heap v.data (f.val [xs]) ∧ OnlyIn v s.heap s'.heap ∧ Keeps s s' ∧
      (setIn 0 x.data >>= fun _ => setOut v.data >>= fun _ => get >>= fun s => call f s.inp s.out) s = .ok () s' ∧
      ∀ {β} (g : Unit → M R β), (setIn 0 x.data >>= fun _ => setOut v.data >>= fun _ => get >>= fun s => call f s.inp s.out >>= g) s = g () s' := by
  have hi : s.inp.length = 1 := hs.inp.trans h1
  rw [one_array hL h1, ← hn, ← hxs] at hf
  obtain ⟨H', h2, h3, h4⟩ := call_ok (f := f) (ins := s.inp.set 0 (some x.data)) (outs := s.out.set 0 (some v.data)) (args := [xs]) (v := v) (r := r)
    (s := { s with inp := s.inp.set 0 (some x.data), out := s.out.set 0 (some v.data) }) hf (by rw [set_one hi]; exact args_one hx)
    (get_set_out hs.out) hv hr
  refine ⟨{ s with inp := s.inp.set 0 (some x.data), out := s.out.set 0 (some v.data), heap := H' }, h3, h4,
    ⟨rfl, rfl, rfl, by simp, rfl, by simp⟩, ?_, fun g => ?_⟩
  · rw [setIn_bind (by omega), setOut_bind (by exact hs.out), get_bind]
    exact h2
  · rw [setIn_bind (by omega), setOut_bind (by exact hs.out), get_bind, bind_ok h2]

/-- the tail of the functions with one array of independents and multipliers -/
theorem call_two {L : Lib R} (hL : L.Ok) {s : St R} (hs : s.Fits L) (h1 : L.OneArray) {f : Fn R} {r : Nat} (hf : f.Ok (L.arrays ++ [L.m]) r)
    {x w v : View} {xs ws : List R} (hx : Holds s.heap x.data xs) (hxs : xs.length = x.size) (hn : x.size = L.n) (hw : Holds s.heap w.data ws)
    (hws : ws.length = w.size) (hm : w.size = L.m) (hv : v.Exists s.heap) (hr : v.size = r) :
    ∃ s', Holds s'.heap v.data (f.val [xs, ws]) ∧ OnlyIn v s.heap s'.heap ∧ Keeps s s' ∧
      (setInHess 0 x.data >>= fun _ => setInHess 1 w.data >>= fun _ => setOut v.data >>= fun _ => get >>= fun s => call f s.inHess s.out) s = .ok () s' ∧
      ∀ {β} (g : Unit → M R β), (setInHess 0 x.data >>= fun _ => setInHess 1 w.data >>= fun _ => setOut v.data >>= fun _ => get >>= fun s =>
        call f s.inHess s.out >>= g) s = g () s' := by
  have hi : s.inHess.length = 2 := by rw [hs.inHess, h1]
  rw [one_array hL h1, ← hn, ← hxs, ← hm, ← hws] at hf
  obtain ⟨H', h2, h3, h4⟩ := call_ok (f := f) (ins := (s.inHess.set 0 (some x.data)).set 1 (some w.data)) (outs := s.out.set 0 (some v.data))
    (args := [xs, ws]) (v := v) (r := r)
    (s := { s with inHess := (s.inHess.set 0 (some x.data)).set 1 (some w.data), out := s.out.set 0 (some v.data) }) hf
    (by rw [set_two hi]; exact args_two hx hw) (get_set_out hs.out) hv hr
  refine ⟨{ s with inHess := (s.inHess.set 0 (some x.data)).set 1 (some w.data), out := s.out.set 0 (some v.data), heap := H' }, h3, h4,
    ⟨rfl, rfl, rfl, rfl, by simp, by simp⟩, ?_, fun g => ?_⟩
  · rw [setInHess_bind (by omega), setInHess_bind (by simp; omega), setOut_bind (by exact hs.out), get_bind]
    exact h2
  · rw [setInHess_bind (by omega), setInHess_bind (by simp; omega), setOut_bind (by exact hs.out), get_bind, bind_ok h2]

/-- the tail of the functions with several arrays of independents -/
theorem call_arrays {L : Lib R} {s : St R} (hs : s.Fits L) {f : Fn R} {r : Nat} (hf : f.Ok L.arrays r) {x : List Ptr} {v : View} {xs : List (List R)}
    (hx : List.Forall₂ (Holds s.heap) x xs) (hxs : xs.map List.length = L.arrays) (hv : v.Exists s.heap) (hr : v.size = r) :
    ∃ s', Holds s'.heap v.data (f.val xs) ∧ OnlyIn v s.heap s'.heap ∧ Keeps s s' ∧
      (setOut v.data >>= fun _ => get >>= fun s => call f (x.map some) s.out) s = .ok () s' ∧
      ∀ {β} (g : Unit → M R β), (setOut v.data >>= fun _ => get >>= fun s => call f (x.map some) s.out >>= g) s = g () s' := by
  rw [← hxs] at hf
  obtain ⟨H', h2, h3, h4⟩ := call_ok (f := f) (ins := x.map some) (outs := s.out.set 0 (some v.data)) (args := xs) (v := v) (r := r)
    (s := { s with out := s.out.set 0 (some v.data) }) hf (by
      rw [List.forall₂_map_left_iff]
      exact hx.imp fun p vs h => ⟨p, rfl, h⟩) (get_set_out hs.out) hv hr
  refine ⟨{ s with out := s.out.set 0 (some v.data), heap := H' }, h3, h4, ⟨rfl, rfl, rfl, rfl, rfl, by simp⟩, ?_, fun g => ?_⟩
  · rw [setOut_bind (by exact hs.out), get_bind]
    exact h2
  · rw [setOut_bind (by exact hs.out), get_bind, bind_ok h2]

theorem copyInHess_bind {g : Unit → M R β} : ∀ {ps : List Ptr} {i : Nat} {s : St R}, i + ps.length ≤ s.inHess.length →
    (copyInHess i ps >>= g) s = g () { s with inHess := s.inHess.take i ++ ps.map some ++ s.inHess.drop (i + ps.length) }
  | [], i, s, _ => by
    simp only [List.map_nil, List.append_nil, List.length_nil, Nat.add_zero, List.take_append_drop]
    rfl
  | p :: ps, i, s, h => by
    simp only [List.length_cons] at h
    have h1 : ((setInHess i p >>= fun _ => copyInHess (i + 1) ps) >>= g) s =
        (copyInHess (i + 1) ps >>= g) { s with inHess := s.inHess.set i (some p) } := by
      rw [bind_eq, setInHess_bind (by omega), ← bind_eq]
    refine h1.trans ?_
    rw [copyInHess_bind (by simp; omega)]
    congr 2
    simp only [List.length_cons, List.map_cons]
    apply List.ext_getElem?
    intro k
    rcases Nat.lt_trichotomy k i with hk | rfl | hk
    · rw [List.getElem?_append_left (by simp; omega), List.getElem?_append_left (by simp; omega), List.getElem?_take_of_lt (by omega),
        List.getElem?_set_ne (by omega), List.getElem?_append_left (by simp; omega), List.getElem?_append_left (by simp; omega),
        List.getElem?_take_of_lt hk]
    · rw [List.getElem?_append_left (by simp; omega), List.getElem?_append_left (by simp; omega), List.getElem?_take_of_lt (by omega),
        List.getElem?_set_self (by omega), List.getElem?_append_left (by simp; omega), List.getElem?_append_right (by simp)]
      simp [Nat.min_eq_left (show k ≤ s.inHess.length by omega)]
    · by_cases hk' : k < i + 1 + ps.length
      · rw [List.getElem?_append_left (by simp; omega), List.getElem?_append_right (by simp; omega),
          List.getElem?_append_left (by simp; omega), List.getElem?_append_right (by simp; omega)]
        simp only [List.length_take, List.length_set]
        rw [Nat.min_eq_left (by omega), Nat.min_eq_left (by omega), show k - i = k - (i + 1) + 1 by omega, List.getElem?_cons_succ]
      · rw [List.getElem?_append_right (by simp; omega), List.getElem?_append_right (by simp; omega), List.getElem?_drop, List.getElem?_drop,
          List.getElem?_set_ne (by simp; omega)]
        congr 1
        simp
        omega

/-- the tail of the functions with several arrays of independents and multipliers -/
theorem call_arrays_two {L : Lib R} {s : St R} (hs : s.Fits L) {f : Fn R} {r : Nat} (hf : f.Ok (L.arrays ++ [L.m]) r) {x : List Ptr} {w v : View}
    {xs : List (List R)} {ws : List R} (hx : List.Forall₂ (Holds s.heap) x xs) (hxs : xs.map List.length = L.arrays) (hw : Holds s.heap w.data ws)
    (hws : ws.length = w.size) (hm : w.size = L.m) (hv : v.Exists s.heap) (hr : v.size = r) :
    ∃ s', Holds s'.heap v.data (f.val (xs ++ [ws])) ∧ OnlyIn v s.heap s'.heap ∧ Keeps s s' ∧
      ∀ {β} (g : Unit → M R β), (copyInHess 0 x >>= fun _ => get >>= fun s => setInHess (s.inHess.length - 1) w.data >>= fun _ =>
        setOut v.data >>= fun _ => get >>= fun s => call f s.inHess s.out >>= g) s = g () s' := by
  have hl : x.length = L.arrays.length := by rw [hx.length_eq, ← hxs, List.length_map]
  have hi := hs.inHess
  have hins : (s.inHess.take 0 ++ x.map some ++ s.inHess.drop (0 + x.length)).set
      ((s.inHess.take 0 ++ x.map some ++ s.inHess.drop (0 + x.length)).length - 1) (some w.data) = x.map some ++ [some w.data] := by
    have h0 : (s.inHess.drop (0 + x.length)).length = 1 := by simp; omega
    obtain ⟨a, ha⟩ := List.length_eq_one_iff.1 h0
    rw [ha]
    simp
  rw [← hxs, ← hm, ← hws, ← List.map_singleton (f := List.length), ← List.map_append] at hf
  obtain ⟨H', h2, h3, h4⟩ := call_ok (f := f) (ins := x.map some ++ [some w.data]) (outs := s.out.set 0 (some v.data)) (args := xs ++ [ws])
    (v := v) (r := r) (s := { s with inHess := x.map some ++ [some w.data], out := s.out.set 0 (some v.data) }) hf (by
      refine List.rel_append ?_ (args_one hw)
      rw [List.forall₂_map_left_iff]
      exact hx.imp fun p vs h => ⟨p, rfl, h⟩) (get_set_out hs.out) hv hr
  refine ⟨{ s with inHess := x.map some ++ [some w.data], out := s.out.set 0 (some v.data), heap := H' }, h3, h4,
    ⟨rfl, rfl, rfl, rfl, by simp; omega, by simp⟩, fun g => ?_⟩
  rw [copyInHess_bind (by omega), get_bind, setInHess_bind (by simp; omega)]
  simp only [hins]
  rw [setOut_bind (by exact hs.out), get_bind, bind_ok h2]

/-! ### new arrays -/

theorem withArray_ok {k : Nat} {body : Nat → M R α} {s s' : St R} {a : α}
    (h : body s.heap.length { s with heap := s.heap ++ [(List.range k).map s.junk] } = .ok a s') :
    withArray k body s = .ok a { s' with heap := s'.heap.take s.heap.length } := by
  simp only [withArray, alloc, h]

theorem withArray_error {k : Nat} {body : Nat → M R α} {s s' : St R}
    (h : body s.heap.length { s with heap := s.heap ++ [(List.range k).map s.junk] } = .error s') :
    withArray k body s = .error { s' with heap := s'.heap.take s.heap.length } := by
  simp only [withArray, alloc, h]

theorem exists_append {v : View} {H : Heap R} (h : v.Exists H) (l : List R) : v.Exists (H ++ [l]) := by
  obtain ⟨k, h1, h2⟩ := h
  exact ⟨k, by rw [List.getElem?_append_left (List.getElem?_eq_some_iff.1 h1).1, h1], h2⟩

theorem holds_append {p : Ptr} {vs : List R} {H : Heap R} (h : Holds H p vs) (l : List R) : Holds (H ++ [l]) p vs := by
  obtain ⟨k, h1, h2⟩ := h
  exact ⟨k, by rw [List.getElem?_append_left (List.getElem?_eq_some_iff.1 h1).1, h1], h2⟩

theorem exists_new (H : Heap R) (l : List R) : (⟨⟨H.length, 0⟩, l.length⟩ : View).Exists (H ++ [l]) :=
  ⟨l, by simp, by simp⟩

theorem holds_take {p : Ptr} {vs : List R} {H : Heap R} {b : Nat} (h : Holds H p vs) (hb : p.buf < b) : Holds (H.take b) p vs := by
  obtain ⟨k, h1, h2⟩ := h
  exact ⟨k, by rw [List.getElem?_take_of_lt hb, h1], h2⟩

theorem onlyIn_exists {v u : View} {H H' : Heap R} (h : OnlyIn v H H') (hu : u.Exists H) : u.Exists H' := by
  obtain ⟨l, h1, h2⟩ := hu
  have hb : u.data.buf < H'.length := by rw [h.1]; exact (List.getElem?_eq_some_iff.1 h1).1
  refine ⟨_, List.getElem?_eq_getElem hb, ?_⟩
  rw [(h.2 _ _ _ h1 (List.getElem?_eq_getElem hb)).1]
  exact h2

theorem onlyIn_new {H H' : Heap R} {l : List R} {o k : Nat} (h : OnlyIn ⟨⟨H.length, o⟩, k⟩ (H ++ [l]) H') : H'.take H.length = H := by
  have hl : H'.length = H.length + 1 := by rw [h.1]; simp
  apply List.ext_getElem?
  intro b
  by_cases hb : b < H.length
  · have h1 : H[b]? = some H[b] := List.getElem?_eq_getElem hb
    have h2 : H'[b]? = some (H'[b]'(by omega)) := List.getElem?_eq_getElem _
    rw [List.getElem?_take_of_lt hb, h1, h2, Option.some_inj]
    obtain ⟨-, h3⟩ := h.2 b _ _ (by rw [List.getElem?_append_left hb, h1]) h2
    exact List.ext_getElem? fun i => h3 i fun hc => absurd hc (by simp; omega)
  · rw [List.getElem?_eq_none (by simp; omega), List.getElem?_eq_none (by omega)]

theorem onlyIn_take {v : View} {H H' : Heap R} (h : OnlyIn v H H') (b : Nat) : OnlyIn v (H.take b) (H'.take b) := by
  refine ⟨by simp [h.1], fun c l l' hl hl' => ?_⟩
  have hc : c < b := by
    have := (List.getElem?_eq_some_iff.1 hl).1
    simp at this
    omega
  rw [List.getElem?_take_of_lt hc] at hl hl'
  exact h.2 c l l' hl hl'

theorem onlyIn_keeps_other {v : View} {H H' : Heap R} (h : OnlyIn v H H') {b : Nat} (hb : b ≠ v.data.buf) : H'[b]? = H[b]? := by
  by_cases hl : b < H.length
  · have h1 : H[b]? = some H[b] := List.getElem?_eq_getElem hl
    have h2 : H'[b]? = some (H'[b]'(by rw [h.1]; exact hl)) := List.getElem?_eq_getElem _
    obtain ⟨-, h3⟩ := h.2 b _ _ h1 h2
    rw [h1, h2, Option.some_inj]
    exact List.ext_getElem? fun i => h3 i fun hc => absurd hc hb
  · rw [List.getElem?_eq_none (by rw [h.1]; omega), List.getElem?_eq_none (by omega)]

theorem view_buf_lt {v : View} {H : Heap R} (h : v.Exists H) : v.data.buf < H.length := by
  obtain ⟨l, h1, -⟩ := h
  exact (List.getElem?_eq_some_iff.1 h1).1

/-- all elements of an array -/
theorem whole_array {H : Heap R} {b : Nat} {vs l : List R} (h : Holds H ⟨b, 0⟩ vs) (hb : H[b]? = some l) (hl : l.length = vs.length) : H[b]? = some vs := by
  obtain ⟨l', h1, -, h3⟩ := h
  simp only at h1
  rw [hb, Option.some_inj] at h1
  subst h1
  rw [hb, Option.some_inj]
  apply List.ext_getElem?
  intro k
  by_cases hk : k < vs.length
  · simpa using h3 k hk
  · rw [List.getElem?_eq_none (by omega), List.getElem?_eq_none (by omega)]

theorem resize_bind [Zero R] {b k : Nat} {s : St R} {l : List R} (h : s.heap[b]? = some l) :
    ∃ l', l'.length = k ∧ ∀ {β} (g : Unit → M R β), (resize b k >>= g) s = g () { s with heap := s.heap.set b l' } :=
  ⟨l.take k ++ List.replicate (k - l.length) 0, by simp; omega, fun g => by
    rw [bind_eq]
    simp only [resize, h]⟩

end Verif.Library.Call
