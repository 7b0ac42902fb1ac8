import Verif.Loops.ModelUsage
import Verif.Index.Props
import Verif.Ranges.Props
import Verif.Deriv.LemmasAssemble

/-
Lemmas about the statements of the generated sparse Jacobian and Hessian of models with loops.
-/
namespace Verif.Loops.Usage

open Verif.Index (Pat detect detectV Sorted)
open Verif.Ranges (createIndexCondition printCond setInsert)
open Verif.Deriv (Info infos maxCompressed groups info loc)

/-! ### sums -/

section
variable {α : Type} [AddCommMonoid α]

/-- what is added to location `x` -/
def adds (L : Nat → Nat) (v : Nat → α) (es : List Nat) (x : Nat) : α := (es.map fun e => if L e = x then v e else 0).sum

theorem adds_cons (L : Nat → Nat) (v : Nat → α) (e : Nat) (es : List Nat) (x : Nat) :
    adds L v (e :: es) x = (if L e = x then v e else 0) + adds L v es x := by simp [adds]

theorem adds_zero {L : Nat → Nat} {v : Nat → α} {es : List Nat} {x : Nat} (h : ∀ e ∈ es, L e ≠ x) : adds L v es x = 0 := by
  induction es with
  | nil => rfl
  | cons e es ih =>
    rw [adds_cons, if_neg (h e (by simp)), ih fun e he => h e (by simp [he]), add_zero]

theorem adds_one {L : Nat → Nat} {v : Nat → α} {es : List Nat} {x e0 : Nat} (hn : es.Nodup) (h0 : e0 ∈ es) (hL : ∀ e ∈ es, L e = x ↔ e = e0) :
    adds L v es x = v e0 := by
  induction es with
  | nil => cases h0
  | cons e es ih =>
    rw [List.nodup_cons] at hn
    rw [adds_cons]
    by_cases he : e = e0
    · rw [if_pos ((hL e (by simp)).2 he), he, adds_zero, add_zero]
      intro a ha hx
      have := (hL a (by simp [ha])).1 hx
      exact hn.1 (by rw [he, ← this]; exact ha)
    · rw [if_neg fun hx => he ((hL e (by simp)).1 hx), zero_add]
      refine ih hn.2 ?_ fun a ha => hL a (by simp [ha])
      rcases List.mem_cons.1 h0 with rfl | h
      · exact absurd rfl he
      · exact h

theorem adds_congr {L L' : Nat → Nat} {v v' : Nat → α} {es : List Nat} {x : Nat} (hL : ∀ e ∈ es, L e = L' e) (hv : ∀ e ∈ es, v e = v' e) :
    adds L v es x = adds L' v' es x := by
  unfold adds
  rw [List.map_congr_left]
  intro e he
  rw [hL e he, hv e he]

/-! ### stores -/

theorem addAll_res (n m s : Nat) (v : Nat → α) : ∀ (es : List Nat) (st : State α), st.ptr = some (.res s) → (∀ e ∈ es, s + e < n) →
    ∃ st', addAll n m v es st = some st' ∧ st'.ptr = st.ptr ∧ st'.comp = st.comp ∧ ∀ x, st'.res x = st.res x + adds (s + ·) v es x
  | [], st, _, _ => ⟨st, rfl, rfl, rfl, fun x => by simp [adds]⟩
  | e :: es, st, hp, hb => by
    have h1 : store n m st e (· + v e) = some { st with res := upd st.res (s + e) (st.res (s + e) + v e) } := by
      simp only [store, hp]
      rw [if_pos (hb e (by simp))]
    obtain ⟨st', h2, h3, h4, h5⟩ := addAll_res n m s v es { st with res := upd st.res (s + e) (st.res (s + e) + v e) } hp fun a ha => hb a (by simp [ha])
    refine ⟨st', by rw [addAll, h1, Option.bind_some, h2], h3, h4, fun x => ?_⟩
    rw [h5, adds_cons, ← add_assoc]
    congr 1
    simp only [upd]
    by_cases hx : x = s + e
    · rw [if_pos hx, if_pos hx.symm, hx]
    · rw [if_neg hx, if_neg fun h => hx h.symm, add_zero]

theorem addAll_comp (n m : Nat) (v : Nat → α) : ∀ (es : List Nat) (st : State α), st.ptr = some .comp → (∀ e ∈ es, e < m) →
    ∃ st', addAll n m v es st = some st' ∧ st'.ptr = st.ptr ∧ st'.res = st.res ∧ ∀ x, st'.comp x = st.comp x + adds (fun e => e) v es x
  | [], st, _, _ => ⟨st, rfl, rfl, rfl, fun x => by simp [adds]⟩
  | e :: es, st, hp, hb => by
    have h1 : store n m st e (· + v e) = some { st with comp := upd st.comp e (st.comp e + v e) } := by
      simp only [store, hp]
      rw [if_pos (hb e (by simp))]
    obtain ⟨st', h2, h3, h4, h5⟩ := addAll_comp n m v es { st with comp := upd st.comp e (st.comp e + v e) } hp fun a ha => hb a (by simp [ha])
    refine ⟨st', by rw [addAll, h1, Option.bind_some, h2], h3, h4, fun x => ?_⟩
    rw [h5, adds_cons, ← add_assoc]
    congr 1
    simp only [upd]
    by_cases hx : x = e
    · rw [if_pos hx, if_pos hx.symm, hx]
    · rw [if_neg hx, if_neg fun h => hx h.symm, add_zero]

theorem assign_res (n m s : Nat) (f : Free α) : ∀ (es : List Nat) (st : State α), st.ptr = some (.res s) → (∀ e ∈ es, s + e < n) →
    ∃ st', assign n m f es st = some st' ∧ st'.ptr = st.ptr ∧ st'.comp = st.comp ∧
      (∀ e ∈ es, st'.res (s + e) = if e ∈ f.els then f.val e else 0) ∧ ∀ x, (∀ e ∈ es, x ≠ s + e) → st'.res x = st.res x
  | [], st, _, _ => ⟨st, rfl, rfl, rfl, by simp, by simp⟩
  | e :: es, st, hp, hb => by
    have h1 : store n m st e (fun _ => if e ∈ f.els then f.val e else 0) =
        some { st with res := upd st.res (s + e) (if e ∈ f.els then f.val e else 0) } := by
      simp only [store, hp]
      rw [if_pos (hb e (by simp))]
    obtain ⟨st', h2, h3, h4, h5, h6⟩ := assign_res n m s f es { st with res := upd st.res (s + e) (if e ∈ f.els then f.val e else 0) } hp
      fun a ha => hb a (by simp [ha])
    refine ⟨st', by rw [assign, h1, Option.bind_some, h2], h3, h4, fun a ha => ?_, fun x hx => ?_⟩
    · by_cases hm : a ∈ es
      · exact h5 a hm
      · have hae : a = e := by simpa [hm] using ha
        rw [h6 (s + a) fun b hb' h => hm (by rw [show a = b by omega]; exact hb')]
        simp [upd, hae]
    · rw [h6 x fun a ha => hx a (by simp [ha])]
      simp only [upd]
      rw [if_neg (hx e (by simp))]

theorem assign_comp (n m : Nat) (f : Free α) : ∀ (es : List Nat) (st : State α), st.ptr = some .comp → (∀ e ∈ es, e < m) →
    ∃ st', assign n m f es st = some st' ∧ st'.ptr = st.ptr ∧ st'.res = st.res ∧
      (∀ e ∈ es, st'.comp e = if e ∈ f.els then f.val e else 0) ∧ ∀ x, x ∉ es → st'.comp x = st.comp x
  | [], st, _, _ => ⟨st, rfl, rfl, rfl, by simp, by simp⟩
  | e :: es, st, hp, hb => by
    have h1 : store n m st e (fun _ => if e ∈ f.els then f.val e else 0) =
        some { st with comp := upd st.comp e (if e ∈ f.els then f.val e else 0) } := by
      simp only [store, hp]
      rw [if_pos (hb e (by simp))]
    obtain ⟨st', h2, h3, h4, h5, h6⟩ := assign_comp n m f es { st with comp := upd st.comp e (if e ∈ f.els then f.val e else 0) } hp
      fun a ha => hb a (by simp [ha])
    refine ⟨st', by rw [assign, h1, Option.bind_some, h2], h3, h4, fun a ha => ?_, fun x hx => ?_⟩
    · by_cases hm : a ∈ es
      · exact h5 a hm
      · have hae : a = e := by simpa [hm] using ha
        rw [h6 a hm]
        simp [upd, hae]
    · rw [List.mem_cons, not_or] at hx
      rw [h6 x hx.2]
      simp only [upd]
      rw [if_neg hx.1]

/-- copies from `compressed` at positions `es` to locations `L` -/
theorem copyFree_ok (n m : Nat) (is : List Info) (k : Nat) (L : Nat → Nat) : ∀ (es : List Nat) (st : State α),
    (∀ e ∈ es, locAt is k e = some (L e) ∧ L e < n ∧ e < m) →
    ∃ st', copyFree n m is k es st = some st' ∧ st'.ptr = st.ptr ∧ st'.comp = st.comp ∧ ∀ x, st'.res x = st.res x + adds L st.comp es x
  | [], st, _ => ⟨st, rfl, rfl, rfl, fun x => by simp [adds]⟩
  | e :: es, st, h => by
    obtain ⟨hl, h1, h2⟩ := h e (by simp)
    have hc : copy n m st (L e) e = some { st with res := upd st.res (L e) (st.res (L e) + st.comp e) } := by
      rw [copy, if_pos ⟨h1, h2⟩]
    obtain ⟨st', h3, h4, h5, h6⟩ := copyFree_ok n m is k L es { st with res := upd st.res (L e) (st.res (L e) + st.comp e) } fun a ha => h a (by simp [ha])
    refine ⟨st', by rw [copyFree, hl, Option.bind_some, hc, Option.bind_some, h3], h4, h5, fun x => ?_⟩
    rw [h6, adds_cons, ← add_assoc]
    congr 1
    simp only [upd]
    by_cases hx : x = L e
    · rw [if_pos hx, if_pos hx.symm, hx]
    · rw [if_neg hx, if_neg fun h => hx h.symm, add_zero]

theorem copyAll_ok (n m it : Nat) (L : Nat → Nat) : ∀ (ps : List (Pat Int × Pat Int)) (es : List Nat) (st : State α),
    List.Forall₂ (fun p e => index p.1 it = some (L e) ∧ index p.2 it = some e) ps es → (∀ e ∈ es, L e < n ∧ e < m) →
    ∃ st', copyAll n m it ps st = some st' ∧ st'.ptr = st.ptr ∧ st'.comp = st.comp ∧ ∀ x, st'.res x = st.res x + adds L st.comp es x
  | [], _, st, .nil, _ => ⟨st, rfl, rfl, rfl, fun x => by simp [adds]⟩
  | p :: ps, e :: es, st, .cons hp hps, h => by
    obtain ⟨h1, h2⟩ := h e (by simp)
    have hc : copy n m st (L e) e = some { st with res := upd st.res (L e) (st.res (L e) + st.comp e) } := by
      rw [copy, if_pos ⟨h1, h2⟩]
    obtain ⟨st', h3, h4, h5, h6⟩ := copyAll_ok n m it L ps es { st with res := upd st.res (L e) (st.res (L e) + st.comp e) } hps fun a ha => h a (by simp [ha])
    refine ⟨st', by rw [copyAll, hp.1, Option.bind_some, hp.2, Option.bind_some, hc, Option.bind_some, h3], h4, h5, fun x => ?_⟩
    rw [h6, adds_cons, ← add_assoc]
    congr 1
    simp only [upd]
    by_cases hx : x = L e
    · rw [if_pos hx, if_pos hx.symm, hx]
    · rw [if_neg hx, if_neg fun h => hx h.symm, add_zero]
end

/-! ### patterns -/

theorem allSome_map {β γ : Type} {f : β → Option γ} {g : β → γ} : ∀ (l : List β), (∀ b ∈ l, f b = some (g b)) → allSome (l.map f) = some (l.map g)
  | [], _ => rfl
  | b :: l, h => by
    rw [List.map_cons, h b (by simp), allSome, allSome_map l fun a ha => h a (by simp [ha])]
    rfl

theorem index_of {p : Pat Int} {it k : Nat} (h : p.eval it = some (k : Int)) : index p it = some k := by
  rw [index, h]

theorem index_detect {pts : List (Nat × Int)} (hs : Sorted pts) {it k : Nat} (h : (it, (k : Int)) ∈ pts) : index (detect pts) it = some k :=
  index_of (Verif.Index.detect_reproduces pts hs _ h)

theorem index_detectV {ys : List Nat} {it k : Nat} (h : ys[it]? = some k) : index (detectV (ys.map fun (y : Nat) => (y : Int))) it = some k :=
  index_of (Verif.Index.detectV_reproduces _ it _ (by rw [List.getElem?_map, h]; rfl))

/-- a single point gives a constant -/
theorem index_single (x0 y it : Nat) : index (detect [(x0, (y : Int))]) it = some y := by
  apply index_of
  simp [detect, Verif.Index.choose, Verif.Index.detectLinearSections, Verif.Index.maxSections, Verif.Index.sectionsLoop, Verif.Index.startSection,
    Verif.Index.put, Pat.eval, Verif.Index.Lin.eval]

theorem index_singleV (y it : Nat) : index (detectV [(y : Int)]) it = some y := by
  rw [Verif.Index.detectV_eq]
  exact index_single 0 y it

/-! ### tables -/

/-- location of the element at a position -/
def pos (req : List (Nat × Nat)) (k e : Nat) : Nat := (((elems req k)[e]?).map (loc req k)).getD 0

theorem infoAt_ok {req : List (Nat × Nat)} {k : Nat} (h : 0 < (elems req k).length) :
    infoAt ((groups req).map (info req)) k = some (info req (k, elems req k)) := by
  have hg : (k, elems req k) ∈ groups req := Verif.Deriv.mem_groups.2 ⟨rfl, by intro h0; rw [h0] at h; simp at h⟩
  have := Verif.Deriv.find_groups hg
  rw [infoAt, List.find?_map]
  rw [show ((fun x : Info => x.key == k) ∘ info req) = (fun g => g.1 == k) from rfl, this]
  rfl

theorem locAt_ok {req : List (Nat × Nat)} {k e : Nat} (h : e < (elems req k).length) :
    locAt ((groups req).map (info req)) k e = some (pos req k e) := by
  rw [locAt, infoAt_ok (by omega), Option.bind_some]
  simp only [info, pos]
  rw [List.getElem?_map, List.getElem?_map, List.getElem?_eq_getElem h]
  rfl

theorem pos_get {req : List (Nat × Nat)} {k e i : Nat} (h : (elems req k)[e]? = some i) : req[pos req k e]? = some (k, i) := by
  rw [pos, h]
  exact Verif.Deriv.loc_get (Verif.Deriv.mem_grp.1 (List.mem_of_getElem? h))

theorem pos_lt {req : List (Nat × Nat)} {k e : Nat} (h : e < (elems req k).length) : pos req k e < req.length := by
  have := pos_get (List.getElem?_eq_getElem h)
  exact (List.getElem?_eq_some_iff.1 this).1

/-- different elements are at different locations -/
theorem pos_inj {req : List (Nat × Nat)} (hn : req.Nodup) {k e k' e' : Nat} (h : e < (elems req k).length) (h' : e' < (elems req k').length)
    (hp : pos req k e = pos req k' e') : k = k' ∧ e = e' := by
  have h1 := pos_get (List.getElem?_eq_getElem h)
  have h2 := pos_get (List.getElem?_eq_getElem h')
  rw [hp, h2] at h1
  simp only [Option.some.injEq, Prod.mk.injEq] at h1
  obtain ⟨rfl, hi⟩ := h1
  exact ⟨rfl, ((List.Nodup.getElem_inj_iff (Verif.Deriv.grp_nodup hn k')).1 hi).symm⟩

theorem ordered_pos {req : List (Nat × Nat)} {k e : Nat} (h : e < (elems req k).length) (ho : (info req (k, elems req k)).ordered = true) :
    pos req k e = pos req k 0 + e := by
  have hg : (k, elems req k) ∈ groups req := Verif.Deriv.mem_groups.2 ⟨rfl, by intro h0; rw [h0] at h; simp at h⟩
  obtain ⟨l, ls, h1, h2⟩ := Verif.Deriv.info_ordered hg ho
  have hp : ∀ a, a < (elems req k).length → pos req k a = l + a := by
    intro a ha
    refine h2 a _ ?_
    rw [← h1, List.getElem?_map, pos, List.getElem?_eq_getElem ha]
    rfl
  rw [hp e h, hp 0 (by omega)]
  omega

theorem consecutive_of_ordered {req : List (Nat × Nat)} {k : Nat} (ho : (info req (k, elems req k)).ordered = true) :
    Consecutive req k := by
  refine ⟨pos req k 0, fun e i hi => ?_⟩
  have he := (List.getElem?_eq_some_iff.1 hi).1
  rw [← ordered_pos he ho]
  exact pos_get hi

theorem inOrder_true (start : Nat) : ∀ (ls : List Nat) (e : Nat), (∀ (i l : Nat), ls[i]? = some l → l = start + e + i) →
    Verif.Deriv.inOrder start (ls.map some) e = .ok true
  | [], _, _ => rfl
  | l :: ls, e, h => by
    rw [List.map_cons, Verif.Deriv.inOrder, if_neg (by have := h 0 l rfl; omega)]
    exact inOrder_true start ls (e + 1) fun i a ha => by
      have := h (i + 1) a (by simpa using ha)
      omega

theorem ordered_of_consecutive {req : List (Nat × Nat)} (hn : req.Nodup) {k : Nat} (h : 0 < (elems req k).length) (hc : Consecutive req k) :
    (info req (k, elems req k)).ordered = true := by
  obtain ⟨start, hs⟩ := hc
  have hl : ∀ e i, (elems req k)[e]? = some i → loc req k i = start + e := by
    intro e i hi
    have := Verif.Deriv.locate_get hn (hs e i hi)
    rw [loc, this]
    rfl
  simp only [info, Verif.Deriv.orderedOf]
  have hall : ∀ (i l : Nat), ((elems req k).map (loc req k))[i]? = some l → l = start + 0 + i := by
    intro i l hi
    rw [List.getElem?_map] at hi
    obtain ⟨a, ha, hb⟩ := Option.map_eq_some_iff.1 hi
    rw [← hb, hl i a ha]
    omega
  have h0 := inOrder_true start _ 0 hall
  cases he : (elems req k).map (loc req k) with
  | nil =>
    have := congrArg List.length he
    rw [List.length_map, List.length_nil] at this
    omega
  | cons l ls =>
    rw [he] at h0 hall
    have hst : l = start := by have := hall 0 l rfl; omega
    rw [hst] at h0 ⊢
    rw [List.map_cons] at h0 ⊢
    simp only [Verif.Deriv.isOrdered]
    rw [h0]

theorem le_maxCompressed {req : List (Nat × Nat)} {k : Nat} (h : 0 < (elems req k).length) (ho : (info req (k, elems req k)).ordered = false) :
    (elems req k).length ≤ maxCompressed ((groups req).map (info req)) := by
  have hg : (k, elems req k) ∈ groups req := Verif.Deriv.mem_groups.2 ⟨rfl, by intro h0; rw [h0] at h; simp at h⟩
  exact (Verif.Deriv.maxCompressed_aux ((groups req).map (info req)) 0).2 _ (List.mem_map_of_mem hg) ho

end Verif.Loops.Usage
