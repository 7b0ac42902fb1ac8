import Verif.Library.ModelStatic
import Verif.Library.LemmasBuild

/-
Lemmas for C88.
-/
namespace Verif.Library.Build

variable {O : Type}

theorem baseName_append (a b : List Char) (h : '/' ∉ b) : baseName (a ++ ['/'] ++ b) = b := by
  rw [baseName, List.reverse_append, List.reverse_append, List.takeWhile_append_of_pos]
  · simp
  · intro c hc
    have : c ∈ b := List.mem_reverse.1 hc
    simp only [ne_eq, decide_not, Bool.not_eq_eq_eq_not, Bool.not_true, decide_eq_false_iff_not]
    rintro rfl
    exact h this

theorem baseName_objPath (tmp n : List Char) (h : '/' ∉ n) : baseName (objPath tmp n) = n ++ ['.', 'o'] := by
  have h' : '/' ∉ n ++ ['.', 'o'] := by simp [h]
  rw [objPath, createPath]
  by_cases hf : tmp.getLast? = some '/'
  · rw [if_pos hf]
    obtain ⟨l, rfl⟩ := List.getLast?_eq_some_iff.1 hf
    exact baseName_append l _ h'
  · rw [if_neg hf]
    exact baseName_append tmp _ h'

theorem arInsert_mem (ms : List (List Char × O)) (n : List Char) (o : O) (k : List Char) (v : O) :
    (k, v) ∈ arInsert ms n o ↔ (k = n ∧ v = o) ∨ (k ≠ n ∧ (k, v) ∈ ms) := by
  rw [arInsert]
  by_cases hn : n ∈ ms.map Prod.fst
  · rw [if_pos hn, List.mem_map]
    constructor
    · rintro ⟨m, hm, e⟩
      by_cases h : m.1 = n
      · rw [if_pos h] at e
        cases e
        exact Or.inl ⟨rfl, rfl⟩
      · rw [if_neg h] at e
        subst e
        exact Or.inr ⟨h, hm⟩
    · rintro (⟨rfl, rfl⟩ | ⟨h, hm⟩)
      · obtain ⟨m, hm, e⟩ := List.mem_map.1 hn
        exact ⟨m, hm, by rw [if_pos e]⟩
      · exact ⟨(k, v), hm, by rw [if_neg h]⟩
  · rw [if_neg hn, List.mem_append, List.mem_singleton]
    constructor
    · rintro (h | h)
      · refine Or.inr ⟨fun e => hn (e ▸ List.mem_map.2 ⟨(k, v), h, rfl⟩), h⟩
      · cases h
        exact Or.inl ⟨rfl, rfl⟩
    · rintro (⟨rfl, rfl⟩ | ⟨_, h⟩)
      · exact Or.inr rfl
      · exact Or.inl h

theorem arInsert_nodup (ms : List (List Char × O)) (n : List Char) (o : O) (h : (ms.map Prod.fst).Nodup) : ((arInsert ms n o).map Prod.fst).Nodup := by
  rw [arInsert]
  split
  · have : (ms.map fun m => if m.1 = n then (n, o) else m).map Prod.fst = ms.map Prod.fst := by
      rw [List.map_map]
      refine List.map_congr_left fun m _ => ?_
      show (if m.1 = n then (n, o) else m).1 = m.1
      split
      · rename_i e; exact e.symm
      · rfl
    rw [this]
    exact h
  · rename_i hn
    rw [List.map_append, List.nodup_append]
    refine ⟨h, by simp, fun a ha b hb e => ?_⟩
    simp only [List.map_cons, List.map_nil, List.mem_singleton] at hb
    exact hn (hb ▸ e ▸ ha)

theorem arAll_spec (fs : Files O) (f : List Char → O) : ∀ (l : List (List Char)) (ms : List (List Char × O)),
    (∀ p ∈ l, fs p = some (.obj (f p))) → (l.map baseName).Nodup → (ms.map Prod.fst).Nodup →
    ∃ ms', arAll fs l ms = some ms' ∧ (ms'.map Prod.fst).Nodup ∧
      ∀ k v, (k, v) ∈ ms' ↔ (∃ p ∈ l, k = baseName p ∧ v = f p) ∨ (k ∉ l.map baseName ∧ (k, v) ∈ ms)
  | [], ms, _, _, hm => ⟨ms, rfl, hm, by simp⟩
  | p :: ps, ms, hf, hn, hm => by
    rw [List.map_cons, List.nodup_cons] at hn
    obtain ⟨ms', h1, h2, h3⟩ := arAll_spec fs f ps (arInsert ms (baseName p) (f p)) (fun q hq => hf q (by simp [hq])) hn.2 (arInsert_nodup _ _ _ hm)
    refine ⟨ms', by rw [arAll, hf p (by simp)]; exact h1, h2, fun k v => ?_⟩
    rw [h3, arInsert_mem]
    constructor
    · rintro (⟨q, hq, h⟩ | ⟨hk, ⟨h, h'⟩ | ⟨h, h'⟩⟩)
      · exact Or.inl ⟨q, by simp [hq], h⟩
      · exact Or.inl ⟨p, by simp, h, h'⟩
      · exact Or.inr ⟨by rw [List.map_cons, List.mem_cons, not_or]; exact ⟨h, hk⟩, h'⟩
    · rintro (⟨q, hq, h, h'⟩ | ⟨hk, h'⟩)
      · rcases List.mem_cons.1 hq with rfl | hq
        · exact Or.inr ⟨h ▸ hn.1, Or.inl ⟨h, h'⟩⟩
        · exact Or.inl ⟨q, hq, h, h'⟩
      · rw [List.map_cons, List.mem_cons, not_or] at hk
        exact Or.inr ⟨hk.2, Or.inr ⟨hk.1, h'⟩⟩

theorem arAll_some (fs : Files O) : ∀ (l : List (List Char)) (ms ms' : List (List Char × O)), arAll fs l ms = some ms' → ∀ p ∈ l, ∃ o, fs p = some (.obj o)
  | [], _, _, _, _, h => by cases h
  | p :: ps, ms, ms', h, q, hq => by
    rw [arAll] at h
    split at h
    · rename_i o ho
      rcases List.mem_cons.1 hq with rfl | hq
      · exact ⟨o, ho⟩
      · exact arAll_some fs ps _ ms' h q hq
    · cases h

end Verif.Library.Build
