import Verif.Library.LemmasNamesGen
import Mathlib.Data.List.Perm.Basic

/-
Lemmas on compiled models with external functions.
-/
namespace Verif.Library.Names

/-- the wrappers in the table -/
def wrappers (ext : List (Option (Nat × Nat))) : List Nat := ext.filterMap fun x => x.map (·.1)

structure MdlOk (s : Mdl) (before : List Do) : Prop where
  nodup : s.names.Nodup
  len : s.ext.length = s.names.length
  last : ∀ (i : Nat) (nm : Name) (x : Option (Nat × Nat)), s.names[i]? = some nm → s.ext[i]? = some x → x.map (·.2) = lastAdded nm before
  missing : s.missing = s.ext.countP fun x => x.isNone
  live : s.live.Perm (wrappers s.ext)
  liveNodup : s.live.Nodup
  next : ∀ w ∈ s.live, w < s.next

theorem mdlOk_load {l : Lib} (h : l.names.Nodup) : MdlOk (.load l) [] where
  nodup := h
  len := by simp [Mdl.load]
  last := by
    intro i nm x _ hx
    simp only [Mdl.load, List.getElem?_map, Option.map_eq_some_iff] at hx
    obtain ⟨_, -, rfl⟩ := hx
    rfl
  missing := by
    simp only [Mdl.load]
    rw [List.countP_eq_length.2]
    · simp
    · intro x hx
      simp only [List.mem_map] at hx
      obtain ⟨_, -, rfl⟩ := hx
      rfl
  live := by
    have : wrappers (l.names.map fun _ => (none : Option (Nat × Nat))) = [] := by
      simp [wrappers, List.filterMap_eq_nil_iff]
    simp only [Mdl.load, this]
    exact List.Perm.refl _
  liveNodup := by simp [Mdl.load]
  next := by simp [Mdl.load]

theorem position_some {nm : Name} {l : List Name} {k i : Nat} (h : position nm l k = some i) : k ≤ i ∧ l[i - k]? = some nm := by
  induction l generalizing k with
  | nil => cases h
  | cons n l ih =>
    simp only [position] at h
    split at h
    · rename_i e
      cases h
      simp [e]
    · obtain ⟨h1, h2⟩ := ih h
      refine ⟨by omega, ?_⟩
      rw [show i - k = (i - (k + 1)) + 1 by omega]
      simpa using h2

theorem position_none {nm : Name} {l : List Name} {k : Nat} (h : position nm l k = none) : nm ∉ l := by
  induction l generalizing k with
  | nil => simp
  | cons n l ih =>
    simp only [position] at h
    split at h
    · cases h
    · rename_i e
      simp [e, ih h]

theorem split_at {l : List α} {i : Nat} {x : α} (h : l[i]? = some x) : ∃ a b, l = a ++ x :: b ∧ ∀ y, l.set i y = a ++ y :: b := by
  obtain ⟨hi, rfl⟩ := List.getElem?_eq_some_iff.1 h
  refine ⟨l.take i, l.drop (i + 1), by simp, fun y => ?_⟩
  rw [List.set_eq_take_append_cons_drop, if_pos hi]

theorem lastAdded_add (nm nm' : Name) (e : Nat) (before : List Do) :
    lastAdded nm' (.add nm e :: before) = if nm = nm' then some e else lastAdded nm' before := rfl

theorem last_set {s : Mdl} {before : List Do} (h : MdlOk s before) {nm : Name} {e i w : Nat} (hi : s.names[i]? = some nm) :
    ∀ (j : Nat) (nm' : Name) (x : Option (Nat × Nat)), s.names[j]? = some nm' → (s.ext.set i (some (w, e)))[j]? = some x → x.map (·.2) = lastAdded nm' (.add nm e :: before) := by
  intro j nm' x hj hx
  rw [lastAdded_add]
  rw [List.getElem?_set] at hx
  split at hx
  · rename_i eij
    subst eij
    rw [hi, Option.some_inj] at hj
    rw [if_pos hj]
    split at hx
    · cases hx; rfl
    · cases hx
  · rename_i hne
    rw [if_neg]
    · exact h.last j nm' x hj hx
    · rintro rfl
      exact hne (nodup_getElem? h.nodup hi hj)

theorem add_ok {s : Mdl} {before : List Do} (h : MdlOk s before) (nm : Name) (e : Nat) :
    ∃ s' b, s.add nm e = .ok (s', b) ∧ s'.names = s.names ∧ MdlOk s' (.add nm e :: before) ∧ (b = true ↔ nm ∈ s.names) := by
  unfold Mdl.add
  rcases hp : position nm s.names 0 with _ | i
  · have hno := position_none hp
    refine ⟨s, false, rfl, rfl, ⟨h.nodup, h.len, ?_, h.missing, h.live, h.liveNodup, h.next⟩, by simpa using hno⟩
    intro j nm' x hj hx
    rw [lastAdded_add, if_neg]
    · exact h.last j nm' x hj hx
    · rintro rfl
      exact hno (List.mem_of_getElem? hj)
  · obtain ⟨-, hi⟩ := position_some hp
    simp only [Nat.sub_zero] at hi
    have hlt : i < s.ext.length := by rw [h.len]; exact (List.getElem?_eq_some_iff.1 hi).1
    have hin : nm ∈ s.names := List.mem_of_getElem? hi
    obtain ⟨x, hx⟩ : ∃ x, s.ext[i]? = some x := ⟨_, List.getElem?_eq_getElem hlt⟩
    obtain ⟨a, b, hab, hset⟩ := split_at hx
    have hnew : s.next ∉ s.live := fun hh => Nat.lt_irrefl _ (h.next _ hh)
    rcases x with _ | ⟨w, e'⟩
    · simp only [hx]
      refine ⟨_, true, rfl, rfl, ⟨h.nodup, by simp [h.len], last_set h hi, ?_, ?_, ?_, ?_⟩, by simp [hin]⟩
      · simp only [hset, h.missing]
        conv_lhs => rw [hab]
        simp [List.countP_append, List.countP_cons]
      · simp only [hset]
        have := h.live
        rw [hab] at this
        simp only [wrappers, List.filterMap_append, List.filterMap_cons, Option.map_none, Option.map_some] at this ⊢
        exact (List.Perm.cons _ this).trans List.perm_middle.symm
      · exact List.nodup_cons.2 ⟨hnew, h.liveNodup⟩
      · intro w hw
        rcases List.mem_cons.1 hw with rfl | hw
        · exact Nat.lt_succ_self _
        · exact Nat.lt_succ_of_lt (h.next w hw)
    · have hperm := h.live
      rw [hab] at hperm
      simp only [wrappers, List.filterMap_append, List.filterMap_cons, Option.map_some] at hperm
      have hw : w ∈ s.live := hperm.mem_iff.2 (by simp)
      simp only [hx, if_pos hw]
      refine ⟨_, true, rfl, rfl, ⟨h.nodup, by simp [h.len], last_set h hi, ?_, ?_, ?_, ?_⟩, by simp [hin]⟩
      · simp only [hset, h.missing]
        conv_lhs => rw [hab]
        simp [List.countP_append, List.countP_cons]
      · simp only [hset]
        simp only [wrappers, List.filterMap_append, List.filterMap_cons, Option.map_some]
        have h1 := (hperm.trans List.perm_middle).erase w
        simp only [List.erase_cons_head] at h1
        exact (List.Perm.cons _ h1).trans List.perm_middle.symm
      · exact List.nodup_cons.2 ⟨fun hh => hnew (List.mem_of_mem_erase hh), h.liveNodup.erase w⟩
      · intro w' hw'
        rcases List.mem_cons.1 hw' with rfl | hw'
        · exact Nat.lt_succ_self _
        · exact Nat.lt_succ_of_lt (h.next w' (List.mem_of_mem_erase hw'))

theorem missing_zero {s : Mdl} {before : List Do} (h : MdlOk s before) :
    s.missing = 0 ↔ ∀ nm ∈ s.names, lastAdded nm before ≠ none := by
  rw [h.missing, List.countP_eq_zero]
  constructor
  · intro hh nm hnm
    obtain ⟨i, hi, e⟩ := List.getElem_of_mem hnm
    have hie : i < s.ext.length := by rw [h.len]; exact hi
    rw [← h.last i nm _ (by rw [List.getElem?_eq_some_iff]; exact ⟨hi, e⟩) (List.getElem?_eq_getElem hie)]
    have := hh _ (List.getElem_mem hie)
    rcases hx : s.ext[i] with _ | x
    · rw [hx] at this; simp at this
    · simp
  · intro hh x hx
    obtain ⟨i, hi, rfl⟩ := List.getElem_of_mem hx
    have hin : i < s.names.length := by rw [← h.len]; exact hi
    have h1 := h.last i _ _ (List.getElem?_eq_getElem hin) (List.getElem?_eq_getElem hi)
    have h2 := hh _ (List.getElem_mem hin)
    rw [← h1] at h2
    rcases hx : s.ext[i] with _ | x
    · rw [hx] at h2; simp at h2
    · simp

theorem callAll_ok {s : Mdl} {before : List Do} (h : MdlOk s before) (hm : s.missing = 0) {g : Gen} (cs : List (Nat × Call))
    (hn : ∀ x ∈ cs, ∃ nm, s.names[x.1]? = some nm ∧ g.CallsName x.2 nm) :
    ∃ l, s.callAll cs = .ok l ∧ l.map (·.2) = cs.map (·.2) ∧ ∀ x ∈ l, ∃ nm, g.CallsName x.2 nm ∧ lastAdded nm before = some x.1 := by
  induction cs with
  | nil => exact ⟨[], rfl, rfl, by simp⟩
  | cons x cs ih =>
    obtain ⟨i, c⟩ := x
    obtain ⟨l, h1, h2, h3⟩ := ih fun x hx => hn x (by simp [hx])
    obtain ⟨nm, hnm, hc⟩ := hn (i, c) (by simp)
    simp only at hnm hc
    have hlt : i < s.ext.length := by rw [h.len]; exact (List.getElem?_eq_some_iff.1 hnm).1
    have hlast := h.last i nm _ hnm (List.getElem?_eq_getElem hlt)
    have hne := (missing_zero h).1 hm nm (List.mem_of_getElem? hnm)
    rw [← hlast] at hne
    unfold Mdl.callAll
    rw [List.getElem?_eq_getElem hlt]
    rcases hx : s.ext[i] with _ | ⟨w, e⟩
    · rw [hx] at hne; simp at hne
    · have hw : w ∈ s.live := by
        rw [h.live.mem_iff]
        simp only [wrappers, List.mem_filterMap]
        exact ⟨some (w, e), hx ▸ List.getElem_mem hlt, rfl⟩
      simp only [if_pos hw, h1]
      refine ⟨_, rfl, by simp [h2], ?_⟩
      intro y hy
      rcases List.mem_cons.1 hy with rfl | hy
      · refine ⟨nm, hc, ?_⟩
        rw [← hlast, hx]
        rfl
      · exact h3 y hy

theorem forall₂_get {R : α → β → Prop} {l : List α} {l' : List β} (h : List.Forall₂ R l l') {k : Nat} (hk : k < l.length) :
    ∃ a b, l[k]? = some a ∧ l'[k]? = some b ∧ R a b := by
  induction h generalizing k with
  | nil => cases hk
  | cons h _ ih =>
    rcases k with _ | k
    · exact ⟨_, _, rfl, rfl, h⟩
    · obtain ⟨a, b, h1, h2, h3⟩ := ih (by simpa using hk)
      exact ⟨a, b, by simpa using h1, by simpa using h2, h3⟩

theorem lastAdded_eval (nm : Name) (k : Nat) (before : List Do) : lastAdded nm (.eval k :: before) = lastAdded nm before := rfl

theorem step_ok {gs : List Gen} {code : List Source} {s : Mdl} {before : List Do} (h : MdlOk s before)
    (hu : ∀ nm, nm ∈ s.names ↔ Uses gs nm) (hc : List.Forall₂ (SrcOk s.names) gs code) (d : Do) (hd : ∀ k, d = .eval k → k < gs.length) :
    ∃ s' r, s.step code d = .ok (s', r) ∧ s'.names = s.names ∧ MdlOk s' (d :: before) ∧ Right gs before d r := by
  rcases d with ⟨nm, e⟩ | k
  · obtain ⟨s', b, h1, h2, h3, h4⟩ := add_ok h nm e
    refine ⟨s', .added b, by simp only [Mdl.step, h1], h2, h3, b, rfl, ?_⟩
    rw [h4, hu]
  · obtain ⟨g, src, hg, hsrc, ok⟩ := forall₂_get hc (hd k rfl)
    simp only [Mdl.step, hsrc, Mdl.eval]
    have hz := missing_zero h
    have hok : MdlOk s (.eval k :: before) := ⟨h.nodup, h.len, h.last, h.missing, h.live, h.liveNodup, h.next⟩
    by_cases hm : s.missing = 0
    · obtain ⟨l, h1, h2, h3⟩ := callAll_ok h hm src.calls ok.names
      rw [if_pos hm, h1]
      refine ⟨s, _, rfl, rfl, hok, ?_, ?_⟩
      · rintro ⟨nm, hnm, hno⟩
        exact absurd hno (hz.1 hm nm ((hu nm).2 hnm))
      · intro _
        exact ⟨l, rfl, g, hg, by rw [h2, ok.printed], h3⟩
    · rw [if_neg hm]
      refine ⟨s, _, rfl, rfl, hok, fun _ => rfl, ?_⟩
      intro hall
      exact absurd (hz.2 fun nm hnm => hall nm ((hu nm).1 hnm)) hm

theorem run_ok {gs : List Gen} {code : List Source} (ds : List Do) {s : Mdl} {before : List Do} (h : MdlOk s before)
    (hu : ∀ nm, nm ∈ s.names ↔ Uses gs nm) (hc : List.Forall₂ (SrcOk s.names) gs code) (hd : Exist gs ds) :
    ∃ s' rs after, s.run code ds = .ok (s', rs) ∧ MdlOk s' after ∧ AllRight gs before ds rs := by
  induction ds generalizing s before with
  | nil => exact ⟨s, [], before, rfl, h, trivial⟩
  | cons d ds ih =>
    obtain ⟨s1, r, h1, h2, h3, h4⟩ := step_ok h hu hc d (fun k e => hd k (by simp [e]))
    obtain ⟨s', rs, after, h5, h6, h7⟩ := ih h3 (by rw [h2]; exact hu) (by rw [h2]; exact hc) (fun k hk => hd k (by simp [hk]))
    exact ⟨s', r :: rs, after, by simp only [Mdl.run, h1, h5], h6, h4, h7⟩

theorem destroy_ok {s : Mdl} {before : List Do} (h : MdlOk s before) : ∃ l, s.destroy = .ok l ∧ l = [] := by
  unfold Mdl.destroy
  have hl := h.live
  have hn := h.liveNodup
  generalize s.live = live at hl hn
  generalize s.ext = ext at hl
  induction ext generalizing live with
  | nil => exact ⟨live, rfl, List.Perm.eq_nil hl⟩
  | cons x ext ih =>
    rcases x with _ | ⟨w, e⟩
    · simp only [List.foldl_cons]
      exact ih live hn (by simpa [wrappers] using hl)
    · have hl' : live.Perm (w :: wrappers ext) := by simpa [wrappers] using hl
      have hw : w ∈ live := hl'.mem_iff.2 (by simp)
      simp only [List.foldl_cons, if_pos hw]
      refine ih (live.erase w) (hn.erase w) ?_
      simpa using hl'.erase w

end Verif.Library.Names
