import Verif.Formula.Spec
import Mathlib.Tactic.Ring

/-
The reader reads sums of products of factors.
-/
namespace Verif.Formula

variable {α : Type} [CommRing α] {I : Interp α}

/-- the reader returns with enough fuel -/
def Runs (I : Interp α) (md : Mode α) (is : List (Item α)) (v : α) (r : List (Item α)) : Prop :=
  ∃ n, ∀ m, n ≤ m → read I m md is = some (v, r)

theorem means_iff {is : List (Item α)} {v : α} : Means I is v ↔ Runs I .sum is v [] := Iff.rfl

theorem Runs.unique {md : Mode α} {is r r' : List (Item α)} {v v' : α} (h : Runs I md is v r) (h' : Runs I md is v' r') :
    v = v' ∧ r = r' := by
  obtain ⟨n, hn⟩ := h
  obtain ⟨n', hn'⟩ := h'
  have h1 := hn (max n n') (Nat.le_max_left ..)
  rw [hn' (max n n') (Nat.le_max_right ..)] at h1
  simp only [Option.some.injEq, Prod.mk.injEq] at h1
  exact ⟨h1.1.symm, h1.2.symm⟩

/-- one more step -/
theorem Runs.step1 {md md' : Mode α} {is is' r : List (Item α)} {v : α} (h : Runs I md' is' v r)
    (hs : ∀ n, read I n md' is' = some (v, r) → read I (n + 1) md is = some (v, r)) : Runs I md is v r := by
  obtain ⟨n, hn⟩ := h
  refine ⟨n + 1, fun m hm => ?_⟩
  obtain ⟨k, rfl⟩ : ∃ k, m = k + 1 := ⟨m - 1, by omega⟩
  exact hs k (hn k (by omega))

/-- one more step with two calls -/
theorem Runs.step2 {md m1 m2 : Mode α} {is i1 i2 r r1 : List (Item α)} {v w : α} (h1 : Runs I m1 i1 w r1) (h2 : Runs I m2 i2 v r)
    {u : α} {r' : List (Item α)}
    (hs : ∀ n, read I n m1 i1 = some (w, r1) → read I n m2 i2 = some (v, r) → read I (n + 1) md is = some (u, r')) :
    Runs I md is u r' := by
  obtain ⟨n, hn⟩ := h1
  obtain ⟨n', hn'⟩ := h2
  refine ⟨max n n' + 1, fun m hm => ?_⟩
  obtain ⟨k, rfl⟩ : ∃ k, m = k + 1 := ⟨m - 1, by omega⟩
  exact hs k (hn k (by omega)) (hn' k (by omega))

/-- no call -/
theorem Runs.step0 {md : Mode α} {is r : List (Item α)} {v : α} (hs : ∀ n, read I (n + 1) md is = some (v, r)) :
    Runs I md is v r :=
  ⟨1, fun m hm => by obtain ⟨k, rfl⟩ : ∃ k, m = k + 1 := ⟨m - 1, by omega⟩; exact hs k⟩

/-- the first item is a number -/
def startsNum : List (Item α) → Bool
  | .num _ :: _ => true
  | _ => false

/-- the last item is a number -/
def endsNum : List (Item α) → Bool
  | [] => false
  | [.num _] => true
  | [_] => false
  | _ :: b :: r => endsNum (b :: r)

/-- the first item is raised -/
def startsSup : List (Item α) → Bool
  | .sup _ :: _ => true
  | _ => false

/-- a product ends before this -/
def stops : List (Item α) → Bool
  | [] | .plus :: _ | .minus :: _ => true
  | _ => false

/-- what follows does not change the reading -/
def Ok (ts rest : List (Item α)) : Prop := startsSup rest = false ∧ (endsNum ts = true → startsNum rest = false)

omit [CommRing α] in
theorem endsNum_append (a : List (Item α)) {b : List (Item α)} (hb : b ≠ []) : endsNum (a ++ b) = endsNum b := by
  induction a with
  | nil => rfl
  | cons x a ih =>
    rcases hab : a ++ b with _ | ⟨y, r⟩
    · simp at hab; exact absurd hab.2 hb
    · rw [List.cons_append, hab]
      cases x <;> (simp only [endsNum]; rw [← hab, ih])

omit [CommRing α] in
theorem ok_stops {ts rest : List (Item α)} (h : stops rest = true) : Ok ts rest := by
  unfold Ok
  rcases rest with _ | ⟨x, r⟩
  · simp [startsSup, startsNum]
  · cases x <;> simp_all [stops, startsSup, startsNum]

/-! ### factors -/

/-- what can be raised to a power -/
inductive Base (I : Interp α) : List (Item α) → α → Prop
  | num (v : α) : Base I [.num v] v
  | sym (n : Name) : Base I [.sym n] (I.env n)
  | group {a : List (Item α)} {v : α} : Means I a v → Base I [.group a] v
  | sqrt {a : List (Item α)} {v : α} : Means I a v → Base I [.sqrt a] (I.un .sqrt v)
  | bars {a : List (Item α)} {v : α} : Means I a v → Base I [.bars a] (I.un .abs v)
  | app {f : Fn} {s : String} {a : List (Item α)} {v : α} : fnOf s = some f → Means I a v → Base I [.fn s, .group a] (I.un f v)

/-- factors -/
inductive Fac (I : Interp α) : List (Item α) → α → Prop
  | base {ts : List (Item α)} {v : α} : Base I ts v → Fac I ts v
  | pow {ts e : List (Item α)} {v w : α} : Base I ts v → Means I e w → Fac I (ts ++ [.sup e]) (I.pow v w)
  | frac {a b : List (Item α)} {v w : α} : Means I a v → Means I b w → Fac I [.frac a b] (I.div v w)

theorem base_plain {v : α} {rest : List (Item α)} (h : startsSup rest = false) : Runs I (.base v) rest v rest := by
  apply Runs.step0
  intro n
  rcases rest with _ | ⟨x, r⟩
  · rfl
  · cases x <;> first | rfl | simp [startsSup] at h

theorem base_sup {v w : α} {e rest : List (Item α)} (h : Means I e w) : Runs I (.base v) (.sup e :: rest) (I.pow v w) rest := by
  obtain ⟨n, hn⟩ := h
  refine ⟨n + 1, fun m hm => ?_⟩
  obtain ⟨k, rfl⟩ : ∃ k, m = k + 1 := ⟨m - 1, by omega⟩
  simp only [read, hn k (by omega)]

/-- a base is read before what follows -/
theorem Base.runs {ts : List (Item α)} {v : α} (h : Base I ts v) {rest r : List (Item α)} {u : α}
    (hok : endsNum ts = true → startsNum rest = false) (hb : Runs I (.base v) rest u r) : Runs I .factor (ts ++ rest) u r := by
  cases h with
  | num v =>
    refine hb.step1 fun n hn => ?_
    have := hok rfl
    rcases rest with _ | ⟨x, rest⟩
    · simpa [read] using hn
    · cases x <;> first | (simp [startsNum] at this; done) | simpa [read] using hn
  | sym s => exact hb.step1 fun n hn => by simpa [read] using hn
  | group h => exact (means_iff.1 h).step2 hb fun n h1 h2 => by simp only [List.cons_append, List.nil_append, read, h1, h2]
  | sqrt h => exact (means_iff.1 h).step2 hb fun n h1 h2 => by simp only [List.cons_append, List.nil_append, read, h1, h2]
  | bars h => exact (means_iff.1 h).step2 hb fun n h1 h2 => by simp only [List.cons_append, List.nil_append, read, h1, h2]
  | app hf h => exact (means_iff.1 h).step2 hb fun n h1 h2 => by simp only [List.cons_append, List.nil_append, read, hf, h1, h2]

/-- a factor is read before what follows -/
theorem Fac.runs {ts : List (Item α)} {v : α} (h : Fac I ts v) {rest : List (Item α)} (hok : Ok ts rest) :
    Runs I .factor (ts ++ rest) v rest := by
  cases h with
  | base h => exact h.runs hok.2 (base_plain hok.1)
  | @pow ts e v w h he =>
    rw [List.append_assoc]
    exact h.runs (fun _ => rfl) (base_sup he)
  | frac ha hb =>
    exact (means_iff.1 ha).step2 (means_iff.1 hb) fun n h1 h2 => by simp only [List.cons_append, List.nil_append, read, h1, h2]

/-- how a factor begins -/
theorem Fac.begins {ts : List (Item α)} {v : α} (h : Fac I ts v) (rest : List (Item α)) :
    ts ≠ [] ∧ startsSup (ts ++ rest) = false ∧ ∀ acc, ∀ n : Nat, read I (n + 1) (.prodLoop acc) (ts ++ rest) =
      (match read I n .factor (ts ++ rest) with | some (v, r) => read I n (.prodLoop (acc * v)) r | none => none) := by
  cases h with
  | base h => cases h <;> exact ⟨by simp, rfl, fun _ _ => rfl⟩
  | pow h he => cases h <;> exact ⟨by simp, rfl, fun _ _ => rfl⟩
  | frac ha hb => exact ⟨by simp, rfl, fun _ _ => rfl⟩

theorem Fac.signed {ts : List (Item α)} {v : α} (h : Fac I ts v) (rest : List (Item α)) (n : Nat) :
    read I (n + 1) .signed (ts ++ rest) =
      (match read I n .factor (ts ++ rest) with | some (v, r) => read I n (.prodLoop v) r | none => none) := by
  cases h with
  | base h => cases h <;> rfl
  | pow h he => cases h <;> rfl
  | frac ha hb => rfl

/-! ### products -/

/-- products -/
inductive Prod' (I : Interp α) : List (Item α) → α → Prop
  | fac {ts : List (Item α)} {v : α} : Fac I ts v → Prod' I ts v
  | juxt {a b : List (Item α)} {u w : α} : Prod' I a u → Prod' I b w → (endsNum a = true → startsNum b = false) →
      Prod' I (a ++ b) (u * w)
  | times {a b : List (Item α)} {u w : α} : Prod' I a u → Prod' I b w → Prod' I (a ++ .times :: b) (u * w)

theorem Prod'.ne_nil {ts : List (Item α)} {v : α} (h : Prod' I ts v) : ts ≠ [] := by
  induction h with
  | fac h => exact (h.begins []).1
  | juxt _ _ _ iha _ => simp [iha]
  | times _ _ _ _ => simp

omit [CommRing α] in
theorem startsSup_append {a : List (Item α)} (b : List (Item α)) (h : a ≠ []) : startsSup (a ++ b) = startsSup a := by
  rcases a with _ | ⟨x, a⟩
  · simp at h
  · cases x <;> rfl

omit [CommRing α] in
theorem startsNum_append {a : List (Item α)} (b : List (Item α)) (h : a ≠ []) : startsNum (a ++ b) = startsNum a := by
  rcases a with _ | ⟨x, a⟩
  · simp at h
  · cases x <;> rfl

theorem Prod'.startsSup {ts : List (Item α)} {v : α} (h : Prod' I ts v) : startsSup ts = false := by
  induction h with
  | fac h => have := (h.begins []).2.1; simpa using this
  | juxt ha _ _ iha _ => rw [startsSup_append _ ha.ne_nil]; exact iha
  | times ha _ iha _ => rw [startsSup_append _ ha.ne_nil]; exact iha

/-- a factor and then the rest of the product -/
def FacThen (I : Interp α) (is : List (Item α)) (u : α) (r : List (Item α)) : Prop :=
  ∃ w r', Runs I .factor is w r' ∧ Runs I (.prodLoop w) r' u r

theorem Prod'.runs {ts : List (Item α)} {v : α} (h : Prod' I ts v) : ∀ {rest r : List (Item α)} {u : α}, Ok ts rest →
    (∀ acc, Runs I (.prodLoop (acc * v)) rest u r → Runs I (.prodLoop acc) (ts ++ rest) u r) ∧
    (∀ acc, Runs I (.prodLoop (acc * v)) rest u r → Runs I (.prodLoop acc) (.times :: (ts ++ rest)) u r) ∧
    (Runs I (.prodLoop v) rest u r → FacThen I (ts ++ rest) u r) := by
  induction h with
  | fac h =>
    intro rest r u hok
    refine ⟨fun acc hr => ?_, fun acc hr => ?_, fun hr => ⟨_, _, h.runs hok, hr⟩⟩
    · exact (h.runs hok).step2 hr fun n h1 h2 => by simp only [(h.begins rest).2.2, h1, h2]
    · exact (h.runs hok).step2 hr fun n h1 h2 => by simp only [read, h1, h2]
  | @juxt a b u w ha hb hab iha ihb =>
    intro rest r u' hok
    have hokb : Ok b rest := ⟨hok.1, fun h => hok.2 (by rw [endsNum_append _ hb.ne_nil]; exact h)⟩
    have hoka : Ok a (b ++ rest) := ⟨by rw [startsSup_append _ hb.ne_nil]; exact hb.startsSup,
      fun h => by rw [startsNum_append _ hb.ne_nil]; exact hab h⟩
    rw [List.append_assoc]
    refine ⟨fun acc hr => ?_, fun acc hr => ?_, fun hr => ?_⟩
    · exact (iha hoka).1 acc ((ihb hokb).1 _ (by rw [mul_assoc]; exact hr))
    · exact (iha hoka).2.1 acc ((ihb hokb).1 _ (by rw [mul_assoc]; exact hr))
    · exact (iha hoka).2.2 ((ihb hokb).1 _ hr)
  | @times a b u w ha hb iha ihb =>
    intro rest r u' hok
    have hokb : Ok b rest := ⟨hok.1, fun h => hok.2 (by
      rw [endsNum_append _ (by simp), ← List.singleton_append, endsNum_append _ hb.ne_nil]; exact h)⟩
    have hoka : Ok a (.times :: b ++ rest) := ⟨rfl, fun h => rfl⟩
    rw [List.append_assoc]
    refine ⟨fun acc hr => ?_, fun acc hr => ?_, fun hr => ?_⟩
    · exact (iha hoka).1 acc ((ihb hokb).2.1 _ (by rw [mul_assoc]; exact hr))
    · exact (iha hoka).2.1 acc ((ihb hokb).2.1 _ (by rw [mul_assoc]; exact hr))
    · exact (iha hoka).2.2 ((ihb hokb).2.1 _ hr)

theorem prodLoop_stops {v : α} {rest : List (Item α)} (h : stops rest = true) : Runs I (.prodLoop v) rest v rest := by
  apply Runs.step0
  intro n
  rcases rest with _ | ⟨x, r⟩
  · rfl
  · cases x <;> first | rfl | simp [stops] at h

/-- how a product begins -/
theorem Prod'.signed {ts : List (Item α)} {v : α} (h : Prod' I ts v) : ∀ (rest : List (Item α)) (n : Nat),
    read I (n + 1) .signed (ts ++ rest) =
      (match read I n .factor (ts ++ rest) with | some (v, r) => read I n (.prodLoop v) r | none => none) := by
  induction h with
  | fac h => exact h.signed
  | juxt _ _ _ iha _ => intro rest n; rw [List.append_assoc]; exact iha _ n
  | times _ _ iha _ => intro rest n; rw [List.append_assoc]; exact iha _ n

/-! ### sums -/

/-- a product which may have a sign -/
inductive Signed (I : Interp α) : List (Item α) → α → Prop
  | prod {ts : List (Item α)} {v : α} : Prod' I ts v → Signed I ts v
  | neg {ts : List (Item α)} {v : α} : Prod' I ts v → Signed I (.minus :: ts) (-v)
  | pos {ts : List (Item α)} {v : α} : Prod' I ts v → Signed I (.plus :: ts) v

/-- sums -/
inductive Sum' (I : Interp α) : List (Item α) → α → Prop
  | one {ts : List (Item α)} {v : α} : Signed I ts v → Sum' I ts v
  | add {a b : List (Item α)} {u w : α} : Sum' I a u → Sum' I b w → Sum' I (a ++ .plus :: b) (u + w)
  | sub {a b : List (Item α)} {u w : α} : Sum' I a u → Signed I b w → Sum' I (a ++ .minus :: b) (u - w)

theorem Signed.runs {ts : List (Item α)} {v : α} (h : Signed I ts v) {rest : List (Item α)} (hs : stops rest = true) :
    Runs I .signed (ts ++ rest) v rest := by
  cases h with
  | prod h =>
    obtain ⟨w, r', h1, h2⟩ := (h.runs (ok_stops hs)).2.2 (prodLoop_stops hs)
    exact h1.step2 h2 fun n h1 h2 => by simp only [h.signed, h1, h2]
  | neg h =>
    obtain ⟨w, r', h1, h2⟩ := (h.runs (ok_stops hs)).2.2 (prodLoop_stops hs)
    exact h1.step2 h2 fun n h1 h2 => by simp only [List.cons_append, read, h1, h2]
  | pos h =>
    obtain ⟨w, r', h1, h2⟩ := (h.runs (ok_stops hs)).2.2 (prodLoop_stops hs)
    exact h1.step2 h2 fun n h1 h2 => by simp only [List.cons_append, read, h1, h2]

/-- a product and then the rest of the sum -/
def SignedThen (I : Interp α) (is : List (Item α)) (u : α) (r : List (Item α)) : Prop :=
  ∃ w r', Runs I .signed is w r' ∧ Runs I (.sumLoop w) r' u r

theorem Sum'.runs {ts : List (Item α)} {v : α} (h : Sum' I ts v) : ∀ {rest r : List (Item α)} {u : α}, stops rest = true →
    (∀ acc, Runs I (.sumLoop (acc + v)) rest u r → Runs I (.sumLoop acc) (.plus :: (ts ++ rest)) u r) ∧
    (Runs I (.sumLoop v) rest u r → SignedThen I (ts ++ rest) u r) := by
  induction h with
  | one h =>
    intro rest r u hs
    refine ⟨fun acc hr => ?_, fun hr => ⟨_, _, h.runs hs, hr⟩⟩
    exact (h.runs hs).step2 hr fun n h1 h2 => by simp only [read, h1, h2]
  | @add a b u w ha hb iha ihb =>
    intro rest r u' hs
    rw [List.append_assoc]
    refine ⟨fun acc hr => ?_, fun hr => ?_⟩
    · exact (iha (rest := .plus :: b ++ rest) rfl).1 acc ((ihb hs).1 _ (by rw [add_assoc]; exact hr))
    · exact (iha (rest := .plus :: b ++ rest) rfl).2 ((ihb hs).1 _ hr)
  | @sub a b u w ha hb iha =>
    intro rest r u' hs
    rw [List.append_assoc]
    have hstep : ∀ acc, Runs I (.sumLoop (acc - w)) rest u' r → Runs I (.sumLoop acc) (.minus :: b ++ rest) u' r :=
      fun acc hr => (hb.runs hs).step2 hr fun n h1 h2 => by simp only [List.cons_append, read, h1, h2]
    refine ⟨fun acc hr => ?_, fun hr => ?_⟩
    · exact (iha (rest := .minus :: b ++ rest) rfl).1 acc (hstep _ (by
        rw [show acc + u - w = acc + (u - w) by ring]; exact hr))
    · exact (iha (rest := .minus :: b ++ rest) rfl).2 (hstep _ hr)

/-- a sum is read -/
theorem Sum'.means {ts : List (Item α)} {v : α} (h : Sum' I ts v) : Means I ts v := by
  have hend : Runs I (.sumLoop v) [] v [] := Runs.step0 fun n => rfl
  obtain ⟨w, r', h1, h2⟩ := (h.runs (rest := []) rfl).2 hend
  rw [List.append_nil] at h1
  exact h1.step2 h2 fun n h1 h2 => by simp only [read, h1, h2]

/-- a formula has one value -/
theorem Means.unique {is : List (Item α)} {v w : α} (h : Means I is v) (h' : Means I is w) : v = w :=
  (Runs.unique (means_iff.1 h) (means_iff.1 h')).1

end Verif.Formula
