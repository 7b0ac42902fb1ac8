import Verif.Library.ModelNames
import Mathlib.Data.List.Induction

/-
Lemmas on the tables of names.
-/
namespace Verif.Library.Names

/-! ### registered functions -/

def Sorted (m : List Fun) : Prop := m.Pairwise fun f g => f.id < g.id

theorem sorted_unique {m : List Fun} (h : Sorted m) {f g : Fun} (hf : f ∈ m) (hg : g ∈ m) (e : f.id = g.id) : f = g := by
  induction m with
  | nil => cases hf
  | cons x m ih =>
    have hs := List.pairwise_cons.1 h
    rcases List.mem_cons.1 hf with rfl | hf
    · rcases List.mem_cons.1 hg with rfl | hg
      · rfl
      · have := hs.1 g hg; omega
    · rcases List.mem_cons.1 hg with rfl | hg
      · have := hs.1 f (by assumption); omega
      · exact ih hs.2 hf hg

theorem register_mem {f : Fun} {m m' : List Fun} (ho : ∀ g ∈ m, g.obj = f.obj → g = f) (h : register f m = some m') :
    ∀ x, x ∈ m' ↔ x ∈ m ∨ x = f := by
  induction m generalizing m' with
  | nil => cases h; simp
  | cons g l ih =>
    simp only [register] at h
    split at h
    · rcases hr : register f l with _ | l'
      · simp [hr] at h
      · simp [hr] at h
        subst h
        intro x
        have := ih (fun g hg => ho g (List.mem_cons_of_mem _ hg)) hr x
        simp [this, or_assoc]
    · split at h
      · split at h
        · rename_i hobj
          cases h
          intro x
          have := ho g (by simp) hobj
          subst this
          simp only [List.mem_cons]
          constructor
          · exact Or.inl
          · rintro (h | h)
            · exact h
            · exact Or.inl h
        · cases h
      · cases h
        intro x
        simp only [List.mem_cons]
        constructor
        · rintro (h | h | h) <;> simp [h]
        · rintro ((h | h) | h) <;> simp [h]

theorem register_sorted {f : Fun} {m m' : List Fun} (hs : Sorted m) (h : register f m = some m') :
    Sorted m' ∧ ∀ x ∈ m', x ∈ m ∨ x = f := by
  induction m generalizing m' with
  | nil => cases h; exact ⟨List.pairwise_singleton .., by simp⟩
  | cons g l ih =>
    have hp := List.pairwise_cons.1 hs
    simp only [register] at h
    split at h
    · rename_i hlt
      rcases hr : register f l with _ | l'
      · simp [hr] at h
      · simp [hr] at h
        subst h
        obtain ⟨h1, h2⟩ := ih hp.2 hr
        refine ⟨List.pairwise_cons.2 ⟨fun x hx => ?_, h1⟩, ?_⟩
        · rcases h2 x hx with h | rfl
          · exact hp.1 x h
          · exact hlt
        · intro x hx
          rcases List.mem_cons.1 hx with rfl | hx
          · simp
          · rcases h2 x hx with h | h <;> simp [h]
    · split at h
      · split at h
        · cases h; exact ⟨hs, fun x hx => Or.inl hx⟩
        · cases h
      · cases h
        refine ⟨List.pairwise_cons.2 ⟨fun x hx => ?_, hs⟩, ?_⟩
        · rcases List.mem_cons.1 hx with rfl | hx
          · omega
          · have := hp.1 x hx; omega
        · intro x hx
          rcases List.mem_cons.1 hx with rfl | hx <;> simp_all

theorem register_isSome {f : Fun} {m : List Fun} (hs : Sorted m) :
    (register f m).isSome = true ↔ ∀ g ∈ m, g.id = f.id → g.obj = f.obj := by
  induction m with
  | nil => simp [register]
  | cons g l ih =>
    have hp := List.pairwise_cons.1 hs
    simp only [register]
    split
    · rename_i hlt
      simp only [Option.isSome_map, ih hp.2, List.mem_cons, forall_eq_or_imp]
      constructor
      · intro h; exact ⟨fun e => by omega, h⟩
      · exact fun h => h.2
    · split
      · rename_i he
        split
        · rename_i hobj
          simp only [Option.isSome_some, true_iff, List.mem_cons, forall_eq_or_imp]
          exact ⟨fun _ => hobj, fun x hx e => by have := hp.1 x hx; omega⟩
        · rename_i hobj
          simp only [Option.isSome_none, Bool.false_eq_true, List.mem_cons, forall_eq_or_imp, false_iff]
          intro h
          exact hobj (h.1 he)
      · simp only [Option.isSome_some, true_iff, List.mem_cons, forall_eq_or_imp]
        exact ⟨fun e => by omega, fun x hx e => by have := hp.1 x hx; omega⟩

theorem registerAll_mem {m fs m' : List Fun} (ho : ∀ f ∈ m ++ fs, ∀ g ∈ m ++ fs, f.obj = g.obj → f = g) (h : registerAll m fs = some m') :
    ∀ x, x ∈ m' ↔ x ∈ m ∨ x ∈ fs := by
  induction fs generalizing m with
  | nil => cases h; simp
  | cons f fs ih =>
    simp only [registerAll] at h
    rcases hr : register f m with _ | m1
    · simp [hr] at h
    · rw [hr] at h
      have hm := register_mem (fun g hg e => ho g (by simp [hg]) f (by simp) e) hr
      have := ih (m := m1) (fun a ha b hb => ho a (by
        simp only [List.mem_append, List.mem_cons, hm] at ha ⊢; rcases ha with (h | h) | h <;> simp [h]) b (by
        simp only [List.mem_append, List.mem_cons, hm] at hb ⊢; rcases hb with (h | h) | h <;> simp [h])) h
      intro x
      rw [this, hm, List.mem_cons, or_assoc]

theorem registerAll_sorted {m fs m' : List Fun} (hs : Sorted m) (h : registerAll m fs = some m') : Sorted m' := by
  induction fs generalizing m with
  | nil => cases h; exact hs
  | cons f fs ih =>
    simp only [registerAll] at h
    rcases hr : register f m with _ | m1
    · simp [hr] at h
    · rw [hr] at h
      exact ih (register_sorted hs hr).1 h

theorem registerAll_isSome {m fs : List Fun} (hs : Sorted m) (ho : ∀ f ∈ m ++ fs, ∀ g ∈ m ++ fs, f.obj = g.obj → f = g) :
    (registerAll m fs).isSome = true ↔ ∀ f ∈ m ++ fs, ∀ g ∈ m ++ fs, f.id = g.id → f = g := by
  induction fs generalizing m with
  | nil => simp only [registerAll, Option.isSome_some, List.append_nil, true_iff]; exact fun f hf g hg => sorted_unique hs hf hg
  | cons f fs ih =>
    simp only [registerAll]
    have h1 := register_isSome (f := f) hs
    rcases hr : register f m with _ | m1
    · rw [hr] at h1
      simp only [Option.bind_none, Option.isSome_none, Bool.false_eq_true, false_iff]
      intro hc
      simp only [Option.isSome_none, Bool.false_eq_true, false_iff] at h1
      exact h1 fun g hg e => by rw [hc g (by simp [hg]) f (by simp) e]
    · have hm := register_mem (fun g hg e => ho g (by simp [hg]) f (by simp) e) hr
      have hmem : ∀ a, a ∈ m1 ++ fs ↔ a ∈ m ++ f :: fs := by
        intro a; simp only [List.mem_append, List.mem_cons, hm, or_assoc]
      simp only [Option.bind_some]
      rw [ih (register_sorted hs hr).1 (fun a ha b hb => ho a ((hmem a).1 ha) b ((hmem b).1 hb))]
      simp only [hmem]

theorem atId_some {m : List Fun} (hs : Sorted m) {id : Nat} {f : Fun} : atId m id = some f ↔ f ∈ m ∧ f.id = id := by
  constructor
  · intro h
    exact ⟨List.mem_of_find?_eq_some h, by simpa using List.find?_some h⟩
  · rintro ⟨hf, rfl⟩
    rcases h : atId m f.id with _ | g
    · have := List.find?_eq_none.1 h f hf
      simp at this
    · have hg := List.mem_of_find?_eq_some h
      have he : g.id = f.id := by simpa using List.find?_some h
      rw [sorted_unique hs hg hf he]

/-! ### maps -/

theorem find_cons [DecidableEq α] (x : α) (b : β) (m : List (α × β)) (a : α) : find ((x, b) :: m) a = if x = a then some b else find m a := rfl

theorem find_append [DecidableEq α] (m m' : List (α × β)) (a : α) : find (m ++ m') a = (find m a).or (find m' a) := by
  induction m with
  | nil => simp [find]
  | cons x m ih =>
    obtain ⟨x, b⟩ := x
    simp only [List.cons_append, find_cons, ih]
    split <;> simp

theorem name2Id_eq (m : List Fun) : name2Id m = (m.map fun f => (f.name, f.id)).reverse := by
  suffices ∀ acc, m.foldl (fun t f => (f.name, f.id) :: t) acc = (m.map fun f => (f.name, f.id)).reverse ++ acc by
    simpa [name2Id] using this []
  induction m with
  | nil => simp
  | cons f m ih => intro acc; simp [ih]

theorem find_name2Id_cons (f : Fun) (m : List Fun) (nm : Name) :
    find (name2Id (f :: m)) nm = (find (name2Id m) nm).or (if f.name = nm then some f.id else none) := by
  simp only [name2Id_eq, List.map_cons, List.reverse_cons, find_append, find_cons, find]

theorem find_name2Id_none (m : List Fun) (nm : Name) : find (name2Id m) nm = none ↔ ∀ g ∈ m, g.name ≠ nm := by
  induction m with
  | nil => simp [name2Id, find]
  | cons x m ihm =>
    rw [find_name2Id_cons]
    rcases h : find (name2Id m) nm with _ | y
    · rw [h] at ihm
      have ihm := ihm.1 rfl
      simp only [Option.none_or, List.mem_cons, forall_eq_or_imp]
      constructor
      · intro hh
        refine ⟨fun e => ?_, ihm⟩
        simp [e] at hh
      · intro hh; simp [hh.1]
    · rw [h] at ihm
      simp only [Option.some_or, reduceCtorEq, false_iff]
      intro hh
      exact absurd (ihm.2 fun g hg => hh g (by simp [hg])) (by simp)

theorem find_name2Id {m : List Fun} (hs : Sorted m) (nm : Name) (id : Nat) :
    find (name2Id m) nm = some id ↔ ∃ f ∈ m, f.name = nm ∧ f.id = id ∧ ∀ g ∈ m, g.name = nm → g.id ≤ id := by
  induction m generalizing id with
  | nil => simp [name2Id, find]
  | cons f m ih =>
    have hp := List.pairwise_cons.1 hs
    have ih := ih hp.2
    rw [find_name2Id_cons]
    rcases h : find (name2Id m) nm with _ | id'
    · have hno := (find_name2Id_none m nm).1 h
      rw [Option.none_or]
      constructor
      · intro hh
        split at hh
        · rename_i e
          rw [Option.some_inj] at hh
          subst hh
          refine ⟨f, by simp, e, rfl, ?_⟩
          intro g hg e'
          rcases List.mem_cons.1 hg with rfl | hg
          · exact Nat.le_refl _
          · exact absurd e' (hno g hg)
        · cases hh
      · rintro ⟨g, hg, e, rfl, -⟩
        rcases List.mem_cons.1 hg with rfl | hg
        · rw [if_pos e]
        · exact absurd e (hno g hg)
    · rw [Option.some_or]
      obtain ⟨x, hx, ex, rfl, hxm⟩ := (ih id').1 h
      constructor
      · intro hh
        rw [Option.some_inj] at hh
        subst hh
        refine ⟨x, by simp [hx], ex, rfl, ?_⟩
        intro g' hg' e'
        rcases List.mem_cons.1 hg' with rfl | hg'
        · exact Nat.le_of_lt (hp.1 x hx)
        · exact hxm g' hg' e'
      · rintro ⟨g, hg, e, rfl, hmax⟩
        have h1 := hmax x (by simp [hx]) ex
        rcases List.mem_cons.1 hg with rfl | hg
        · have := hp.1 x hx; omega
        · have h2 := hxm g hg e
          rw [Option.some_inj]; omega

/-- the positions of names in a list without repetitions -/
theorem start_index_snoc (l : List Name) (x : Name) : (Tab.start (l ++ [x])).index = (x, l.length) :: (Tab.start l).index := by
  simp [Tab.start, List.zipIdx_append]

theorem start_index {l : List Name} (hn : l.Nodup) (nm : Name) (i : Nat) : find (Tab.start l).index nm = some i ↔ l[i]? = some nm := by
  induction l using List.reverseRecOn generalizing i with
  | nil => simp [Tab.start, find]
  | append_singleton l x ih =>
    rw [List.nodup_append] at hn
    rw [start_index_snoc, find_cons]
    split
    · rename_i e
      subst e
      rw [Option.some_inj]
      constructor
      · rintro rfl; simp
      · intro h
        rcases Nat.lt_trichotomy i l.length with hi | hi | hi
        · rw [List.getElem?_append_left hi] at h
          exact absurd rfl (hn.2.2 x (List.mem_of_getElem? h) x (by simp))
        · exact hi.symm
        · rw [List.getElem?_append_right (by omega)] at h
          have : i - l.length ≠ 0 := by omega
          obtain ⟨k, hk⟩ := Nat.exists_eq_succ_of_ne_zero this
          simp [hk] at h
    · rename_i hne
      rw [ih hn.1]
      constructor
      · intro h
        have : i < l.length := (List.getElem?_eq_some_iff.1 h).1
        rw [List.getElem?_append_left this, h]
      · intro h
        rcases Nat.lt_or_ge i l.length with hi | hi
        · rwa [List.getElem?_append_left hi] at h
        · rw [List.getElem?_append_right hi] at h
          rcases hk : i - l.length with _ | k
          · rw [hk] at h
            simp at h
            exact absurd h hne
          · simp [hk] at h

theorem nodup_getElem? {l : List α} (hn : l.Nodup) {i j : Nat} {a : α} (h : l[i]? = some a) (h' : l[j]? = some a) : i = j := by
  obtain ⟨hi, e⟩ := List.getElem?_eq_some_iff.1 h
  obtain ⟨hj, e'⟩ := List.getElem?_eq_some_iff.1 h'
  exact (List.getElem_inj hn).1 (e.trans e'.symm)

theorem name2Id_inj {m : List Fun} (hs : Sorted m) {a b : Name} {id : Nat} (ha : find (name2Id m) a = some id)
    (hb : find (name2Id m) b = some id) : a = b := by
  obtain ⟨f, hf, rfl, e, -⟩ := (find_name2Id hs a id).1 ha
  obtain ⟨g, hg, rfl, e', -⟩ := (find_name2Id hs b id).1 hb
  rw [sorted_unique hs hf hg (e.trans e'.symm)]

theorem id2Index_snoc (m : List Fun) (l : List Name) (x : Name) :
    id2Index m (l ++ [x]) = match find (name2Id m) x with
      | none => id2Index m l
      | some id => (id, l.length) :: id2Index m l := by
  rcases h : find (name2Id m) x with _ | id <;> simp [id2Index, List.zipIdx_append, h]

theorem find_id2Index {m : List Fun} (hs : Sorted m) {l : List Name} (hn : l.Nodup) (id i : Nat) :
    find (id2Index m l) id = some i ↔ ∃ nm, l[i]? = some nm ∧ find (name2Id m) nm = some id := by
  induction l using List.reverseRecOn generalizing i with
  | nil => simp [id2Index, find]
  | append_singleton l x ih =>
    rw [List.nodup_append] at hn
    have ih := ih hn.1
    have hleft : ∀ nm, l[i]? = some nm → (l ++ [x])[i]? = some nm := by
      intro nm h
      rw [List.getElem?_append_left (List.getElem?_eq_some_iff.1 h).1, h]
    have hright : ∀ nm, (l ++ [x])[i]? = some nm → l[i]? = some nm ∨ (i = l.length ∧ nm = x) := by
      intro nm h
      rcases Nat.lt_or_ge i l.length with hi | hi
      · left; rwa [List.getElem?_append_left hi] at h
      · right
        rw [List.getElem?_append_right hi] at h
        rcases hk : i - l.length with _ | k
        · rw [hk] at h
          simp at h
          exact ⟨by omega, h.symm⟩
        · simp [hk] at h
    rw [id2Index_snoc]
    rcases hx : find (name2Id m) x with _ | idx
    · rw [ih]
      constructor
      · rintro ⟨nm, h, h'⟩; exact ⟨nm, hleft nm h, h'⟩
      · rintro ⟨nm, h, h'⟩
        rcases hright nm h with h | ⟨-, rfl⟩
        · exact ⟨nm, h, h'⟩
        · rw [hx] at h'; cases h'
    · simp only [find_cons]
      split
      · rename_i e
        subst e
        rw [Option.some_inj]
        constructor
        · rintro rfl; exact ⟨x, by simp, hx⟩
        · rintro ⟨nm, h, h'⟩
          have := name2Id_inj hs hx h'
          subst this
          rcases hright x h with h | ⟨h, -⟩
          · exact absurd rfl (hn.2.2 x (List.mem_of_getElem? h) x (by simp))
          · exact h.symm
      · rename_i hne
        rw [ih]
        constructor
        · rintro ⟨nm, h, h'⟩; exact ⟨nm, hleft nm h, h'⟩
        · rintro ⟨nm, h, h'⟩
          rcases hright nm h with h | ⟨-, rfl⟩
          · exact ⟨nm, h, h'⟩
          · rw [hx] at h'; exact absurd (Option.some_inj.1 h') hne

end Verif.Library.Names
