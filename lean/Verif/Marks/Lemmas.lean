import Verif.Marks.Model
import Mathlib.Tactic.ByContra
import Mathlib.Data.List.Nodup
namespace Verif.Marks

variable {T : Type}

theorem resize_length (z : T) (l : List T) (n : Nat) : (resize z l n).length = n := by
  unfold resize
  simp only [List.length_append, List.length_take, List.length_replicate]
  omega

theorem resize_get (z : T) {l : List T} {n : Nat} (h : l.length ≤ n) {i : Nat} (hi : i < n) :
    (resize z l n)[i]? = some ((l[i]?).getD z) := by
  unfold resize
  rw [List.take_of_length_le h]
  by_cases hl : i < l.length
  · rw [List.getElem?_append_left hl, List.getElem?_eq_getElem hl]; rfl
  · rw [List.getElem?_append_right (by omega), List.getElem?_replicate, if_pos (by omega), List.getElem?_eq_none (by omega)]; rfl

theorem take_drop_get {l : List T} {a b : Nat} (ha : a ≤ l.length) (i : Nat) :
    (l.take a ++ l.drop b)[i]? = if i < a then l[i]? else l[i - a + b]? := by
  by_cases hi : i < a
  · rw [if_pos hi, List.getElem?_append_left (by simp; omega), List.getElem?_take, if_pos hi]
  · rw [if_neg hi, List.getElem?_append_right (by simp; omega), List.getElem?_drop, List.length_take, Nat.min_eq_left ha]
    congr 1
    omega

theorem erased_length (l : List T) {a b : Nat} (hab : a ≤ b) {n : Nat} (hn : l.length ≤ n) (hb : b ≤ n) :
    (erased l a b).length ≤ n - (b - a) := by
  unfold erased
  split
  · simp only [List.length_append, List.length_take, List.length_drop]
    omega
  · omega

/-- entries before and after the erased ones -/
theorem erased_get (l : List T) {a b : Nat} (hab : a ≤ b) (i : Nat) :
    (erased l a b)[i]? = if i < a then l[i]? else l[i - a + b]? := by
  unfold erased
  split
  · rename_i h
    rw [take_drop_get (by omega)]
    split
    · rfl
    · by_cases hb : b ≤ l.length
      · rw [Nat.min_eq_left hb]
      · rw [Nat.min_eq_right (by omega), List.getElem?_eq_none (by omega), List.getElem?_eq_none (by omega)]
  · split
    · rfl
    · rw [List.getElem?_eq_none (by omega), List.getElem?_eq_none (by omega)]

/-- marks and annotations are at the positions of their nodes -/
structure Rel (h : H T) (s : Sp T) : Prop where
  nodes : h.nodes = s.nodes
  next : h.next = s.next
  nodup : s.nodes.Nodup
  fresh : ∀ n ∈ s.nodes, n < s.next
  pos : ∀ (i n : Nat), s.nodes[i]? = some n → h.pos n = some i
  vlen : h.visit.length ≤ s.nodes.length
  dlen : h.data.length ≤ s.nodes.length
  id : 1 ≤ h.id
  vle : ∀ (i v : Nat), h.visit[i]? = some v → v ≤ h.id
  marked : ∀ (i n : Nat), s.nodes[i]? = some n → (s.marked n = true ↔ h.visit[i]? = some h.id)
  ann : ∀ (i n : Nat), s.nodes[i]? = some n → s.ann n = h.data[i]?

theorem Rel.init : Rel (H.init T) (Sp.init T) :=
  ⟨rfl, rfl, List.nodup_nil, fun _ h => by simp [Sp.init] at h, fun _ _ h => by simp [Sp.init] at h, Nat.le_refl _, Nat.le_refl _, Nat.le_refl _,
    fun _ _ h => by simp [H.init] at h, fun _ _ h => by simp [Sp.init] at h, fun _ _ h => by simp [Sp.init] at h⟩

/-- one node at one position -/
theorem unique {l : List Nat} (h : l.Nodup) {i j n : Nat} (hi : l[i]? = some n) (hj : l[j]? = some n) : i = j := by
  obtain ⟨h1, e1⟩ := List.getElem?_eq_some_iff.mp hi
  obtain ⟨h2, e2⟩ := List.getElem?_eq_some_iff.mp hj
  exact (List.Nodup.getElem_inj_iff h).mp (e1.trans e2.symm)

theorem Rel.delete {h : H T} {s : Sp T} (hR : Rel h s) {a b : Nat} (hab : a < b) :
    Rel (h.delete a b) { s with nodes := s.nodes.take a ++ s.nodes.drop b } := by
  have hnl : h.nodes.length = s.nodes.length := by rw [hR.nodes]
  -- the positions the code works with
  obtain ⟨a', ha'⟩ : ∃ a', a' = min a s.nodes.length := ⟨_, rfl⟩
  obtain ⟨b', hb'⟩ : ∃ b', b' = min b s.nodes.length := ⟨_, rfl⟩
  have hab' : a' ≤ b' := by omega
  have hal : a' ≤ s.nodes.length := by omega
  have hbl : b' ≤ s.nodes.length := by omega
  have hnodes : s.nodes.take a' ++ s.nodes.drop b' = s.nodes.take a ++ s.nodes.drop b := by
    congr 1
    · by_cases h1 : a ≤ s.nodes.length
      · rw [ha', Nat.min_eq_left h1]
      · rw [ha', Nat.min_eq_right (by omega), List.take_of_length_le (Nat.le_refl _), List.take_of_length_le (by omega)]
    · by_cases h1 : b ≤ s.nodes.length
      · rw [hb', Nat.min_eq_left h1]
      · rw [hb', Nat.min_eq_right (by omega), List.drop_of_length_le (Nat.le_refl _), List.drop_of_length_le (by omega)]
  have hd : h.delete a b = ⟨s.nodes.take a' ++ s.nodes.drop b', h.next, positions h.pos (s.nodes.take a' ++ s.nodes.drop b') a',
      erased h.visit a' b', h.id, erased h.data a' b'⟩ := by
    unfold H.delete
    rw [if_neg (by omega)]
    simp only [hR.nodes, ← ha', ← hb']
  rw [hd, ← hnodes]
  have hget : ∀ i, (s.nodes.take a' ++ s.nodes.drop b')[i]? = if i < a' then s.nodes[i]? else s.nodes[i - a' + b']? :=
    fun i => take_drop_get hal i
  have hlen : (s.nodes.take a' ++ s.nodes.drop b').length = s.nodes.length - (b' - a') := by
    simp only [List.length_append, List.length_take, List.length_drop]
    omega
  have hsub : (s.nodes.take a' ++ s.nodes.drop b').Sublist s.nodes := by
    have h1 : (s.nodes.drop b').Sublist (s.nodes.drop a') := by
      have : s.nodes.drop b' = (s.nodes.drop a').drop (b' - a') := by rw [List.drop_drop]; congr 1; omega
      rw [this]
      exact List.drop_sublist _ _
    have h2 := List.Sublist.append (List.Sublist.refl (s.nodes.take a')) h1
    rwa [List.take_append_drop] at h2
  have hnd : (s.nodes.take a' ++ s.nodes.drop b').Nodup := hR.nodup.sublist hsub
  -- where a node was before
  have hold : ∀ (i n : Nat), (s.nodes.take a' ++ s.nodes.drop b')[i]? = some n → s.nodes[if i < a' then i else i - a' + b']? = some n := by
    intro i n hi
    rw [hget] at hi
    split <;> rename_i h1
    · rw [if_pos h1] at hi; exact hi
    · rw [if_neg h1] at hi; exact hi
  refine ⟨rfl, hR.next, hnd, fun n hn => hR.fresh n (hsub.subset hn), fun i n hi => ?_, ?_, ?_, hR.id, fun i v hi => ?_, fun i n hi => ?_, fun i n hi => ?_⟩
  · simp only [positions]
    by_cases h1 : i < a'
    · have hnot : (List.drop a' (s.nodes.take a' ++ s.nodes.drop b')).idxOf? n = none := by
        rw [List.idxOf?_eq_none_iff]
        intro hm
        obtain ⟨k, hk⟩ := List.mem_iff_getElem?.mp hm
        rw [List.getElem?_drop] at hk
        have := unique hnd hi hk
        omega
      rw [hnot]
      have := hold i n hi
      rw [if_pos h1] at this
      exact hR.pos i n this
    · have hk : (List.drop a' (s.nodes.take a' ++ s.nodes.drop b'))[i - a']? = some n := by
        rw [List.getElem?_drop, show a' + (i - a') = i by omega]; exact hi
      cases hx : (List.drop a' (s.nodes.take a' ++ s.nodes.drop b')).idxOf? n with
      | none =>
        rw [List.idxOf?_eq_none_iff] at hx
        exact absurd (List.mem_of_getElem? hk) hx
      | some k =>
        have hk' : (List.drop a' (s.nodes.take a' ++ s.nodes.drop b'))[k]? = some n := by
          have hx' := List.idxOf?_eq_some_iff.mp hx
          obtain ⟨hlt, he, _⟩ := hx'
          rw [List.getElem?_eq_getElem hlt]
          exact congrArg some (by simpa using he)
        have hdn : (List.drop a' (s.nodes.take a' ++ s.nodes.drop b')).Nodup := hnd.sublist (List.drop_sublist _ _)
        have := unique hdn hk hk'
        simp only
        congr 1
        omega
  · rw [hlen]
    exact erased_length _ hab' hR.vlen hbl
  · rw [hlen]
    exact erased_length _ hab' hR.dlen hbl
  · rw [erased_get _ hab'] at hi
    split at hi <;> exact hR.vle _ _ hi
  · rw [hR.marked _ n (hold i n hi), erased_get _ hab']
    split <;> rfl
  · rw [hR.ann _ n (hold i n hi), erased_get _ hab']
    split <;> rfl

end Verif.Marks
