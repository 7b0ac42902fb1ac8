import Verif.Index.LemmasDetect
import Verif.Index.LemmasTab

/-!
Index patterns (C14 to C17, C42).

`BitVec 64` is the machine arithmetic of the code; theorems over a ring `R` hold for it and for `Int`.
-/
namespace Verif.Index

open Verif.CExpr

variable {R : Type} [CommRing R] [DecidableEq R]

/-! ## C14: a detected pattern reproduces every index -/

/-- the pattern found for a map has the given value at every key -/
theorem detect_reproduces (pts : List (Nat × R)) (hs : Sorted pts) : Reproduces (detect pts).eval pts :=
  choose_reproduces hs (sections_covers hs _)

/-- the pattern found for a vector has at every position the given element -/
theorem detectV_reproduces (ys : List R) (x : Nat) (y : R) (h : ys[x]? = some y) : (detectV ys).eval x = some y := by
  unfold detectV
  rw [detectLinearSectionsV_eq]
  refine choose_reproduces (enum_sorted ys) (sections_covers (enum_sorted ys) _) (x, y) ?_
  have := enum_get ys x
  rw [h] at this
  exact List.mem_of_getElem? this

/-- both overloads agree -/
theorem detectV_eq (ys : List R) : detectV ys = detect (enum ys) := by
  unfold detectV detect
  rw [detectLinearSectionsV_eq, enum_length]

/-- in machine arithmetic -/
theorem detect_reproduces_64 (pts : List (Nat × BitVec 64)) (hs : Sorted pts) : Reproduces (detect pts).eval pts :=
  detect_reproduces pts hs

/-- a map and a vector for which sections are found, with an element moved to the following section -/
example : detect [(0, (4 : Int)), (1, 5), (2, 6), (3, 6), (4, 6), (7, 9)]
    = .sectioned [(0, ⟨0, 1, 1, 4⟩), (2, ⟨0, 0, 1, 6⟩), (7, ⟨0, 0, 1, 9⟩)] := by decide
example : detectV [(3 : Int), 1, 1, 1] = .sectioned [(0, ⟨0, 0, 1, 3⟩), (1, ⟨0, 0, 1, 1⟩)] := by decide
example : (detectV [(3 : Int), 1, 1, 1]).eval 0 = some 3 ∧ (detectV [(3 : Int), 1, 1, 1]).eval 2 = some 1 := by decide
/-- decreasing values wrap around -/
example : detect [(0, 7#64), (3, 5#64), (6, 3#64)] = .linear ⟨0, -2#64, 3, 7#64⟩ := by decide
/-- too many sections: a table -/
example : detectV [(3 : Int), 1, 7, 2, 9, 4, 4, 9, 2, 1] =
    .random [(0, 3), (1, 1), (2, 7), (3, 2), (4, 9), (5, 4), (6, 4), (7, 9), (8, 2), (9, 1)] := by decide

/-- a sectioned pattern has between two and eight sections -/
theorem detect_section_count (pts : List (Nat × R)) (secs : List (Nat × Lin R)) (h : detect pts = .sectioned secs) :
    2 ≤ secs.length ∧ secs.length ≤ 8 := by
  unfold detect at h
  have hm : 1 ≤ maxSections pts.length ∧ maxSections pts.length ≤ 8 := by unfold maxSections; omega
  have hl := sections_length pts hm.1
  match hd : detectLinearSections pts (maxSections pts.length) with
  | [] => rw [hd] at h; simp [choose] at h
  | [(_, p)] => rw [hd] at h; simp [choose] at h
  | a :: b :: rest =>
    rw [hd] at h hl
    simp only [choose, Pat.sectioned.injEq] at h
    subst h
    simp only [List.length_cons] at hl ⊢
    omega

example : detect [(0, (4 : Int)), (1, 5), (2, 9), (3, 10)] = .sectioned [(0, ⟨0, 1, 1, 4⟩), (2, ⟨0, 1, 1, 7⟩)] := by decide

/-- points on a line at equal distances give a linear pattern -/
theorem detect_linear (n x0 d : Nat) (y0 s : R) (hd : 0 < d) (hn : 0 < n) :
    ∃ p, detect ((List.range n).map fun k => (x0 + k * d, y0 + (k : R) * s)) = .linear p := by
  generalize hp : ((List.range n).map fun k => (x0 + k * d, y0 + (k : R) * s)) = pts
  have hlen : pts.length = n := by rw [← hp]; simp
  have hget : ∀ k, k < n → pts[k]? = some (x0 + k * d, y0 + (k : R) * s) := by
    intro k hk; rw [← hp]; simp [hk]
  have hs : Sorted pts := by
    refine List.pairwise_iff_getElem.mpr ?_
    intro i j hi hj hij
    have e1 := hget i (by omega)
    have e2 := hget j (by omega)
    rw [List.getElem?_eq_getElem hi] at e1
    rw [List.getElem?_eq_getElem hj] at e2
    rw [Option.some.inj e1, Option.some.inj e2]
    simp only
    have : i * d < j * d := Nat.mul_lt_mul_of_pos_right hij hd
    omega
  obtain ⟨a, rest, hc⟩ : ∃ a rest, pts = a :: rest := by
    cases pts with
    | nil => simp at hlen; omega
    | cons a rest => exact ⟨a, rest, rfl⟩
  obtain ⟨ax, ay⟩ := a
  have hd0 : pts.drop 0 = (ax, ay) :: rest := by rw [List.drop_zero, hc]
  have sp := startSection_spec hs hd0
  -- all points lie on the first pattern
  have hnext : (startSection ((ax, ay) :: rest) 0).2 = pts.length := by
    by_contra hne
    have hlt : (startSection ((ax, ay) :: rest) 0).2 < pts.length := by have := sp.le; omega
    generalize hst : startSection ((ax, ay) :: rest) 0 = st at sp hne hlt
    obtain ⟨p, next⟩ := st
    simp only at sp hne hlt
    have h0 := hget 0 hn
    by_cases hone : n = 1
    · have := sp.lt; omega
    · have h1 := hget 1 (by omega)
      have hx0 : (ax, ay) = (x0 + 0 * d, y0 + ((0 : Nat) : R) * s) := by
        have := h0; rw [hc] at this; simpa using this
      have hr1 : ∃ rest', rest = (x0 + 1 * d, y0 + ((1 : Nat) : R) * s) :: rest' := by
        rw [hc] at h1
        cases rest with
        | nil => simp at h1
        | cons b rest' => exact ⟨rest', by simpa using h1⟩
      obtain ⟨rest', hr1⟩ := hr1
      have hl := sp.leaves _ (hget next (by omega))
      apply hl
      simp only
      obtain ⟨rfl, rfl⟩ := Prod.mk.inj hx0
      rw [hr1] at hst
      simp only [startSection] at hst
      have hpp := congrArg Prod.fst hst
      simp only at hpp
      rw [← hpp]
      have ey : y0 + ((1 : Nat) : R) * s - (y0 + ((0 : Nat) : R) * s) = s := by simp
      have ex : ((x0 + 1 * d : Nat) : Int) - ((x0 + 0 * d : Nat) : Int) = d := by push_cast; ring
      rw [ey, ex]
      split
      · simp only [Lin.eval]
        have hx : ((x0 + 0 * d : Nat) : Int) = x0 := by push_cast; ring
        rw [hx]
        have hmod : Int.tmod (x0 : Int) d = (x0 : Int) % d := Int.tmod_eq_emod_of_nonneg (by omega)
        have hdvd : (x0 : Int) - (x0 : Int) % d = (d : Int) * ((x0 : Int) / d) := by
          have := Int.mul_ediv_add_emod (x0 : Int) d; omega
        rw [hmod]
        have e1 : ((x0 + next * d : Nat) : Int) - (x0 : Int) % d = (d : Int) * ((x0 : Int) / d + next) := by
          push_cast
          rw [mul_add, ← hdvd]
          ring
        rw [e1, hdvd, Int.mul_tdiv_cancel_left _ (by omega), Int.mul_tdiv_cancel_left _ (by omega)]
        push_cast
        ring
      · rename_i h
        have hs0 : s = 0 := by simpa using h
        rw [eval_const, hs0]
        simp
  unfold detect
  have hsec : detectLinearSections pts (maxSections pts.length) = [(ax, (startSection ((ax, ay) :: rest) 0).1)] := by
    unfold detectLinearSections
    obtain ⟨m, hm⟩ : ∃ m, pts.length = m + 1 := ⟨pts.length - 1, by omega⟩
    conv => lhs; rw [show sectionsLoop pts (maxSections pts.length) pts.length 0 none [] =
      sectionsLoop pts (maxSections pts.length) (m + 1) 0 none [] by rw [hm]]
    unfold sectionsLoop
    simp only [hd0, hnext]
    have hh : pts[0]? = some (ax, ay) := by rw [hc]; rfl
    simp only [hh, ne_eq, not_true_eq_false, and_false, if_false, put]
    cases m with
    | zero => rfl
    | succ m =>
      unfold sectionsLoop
      rw [List.drop_of_length_le (Nat.le_refl _)]
  rw [hsec]
  exact ⟨_, rfl⟩

example : detect ((List.range 5).map fun k => (3 + k * 2, (20 : Int) + (k : Int) * (-3))) = .linear ⟨1, -3, 2, 23⟩ := by decide

/-! ## C16: a detected plane reproduces every index pair -/

/-- when a plane is found it has the given value at every given pair -/
theorem plane_reproduces (pts : List (Nat × List (Nat × R))) (hs : Sorted pts) (hr : ∀ row ∈ pts, Sorted row.2) (f : Plane R)
    (h : detectPlane pts = some f) : Reproduces2 f.eval pts :=
  detectPlane_spec hs hr h

/-- in machine arithmetic -/
theorem plane_reproduces_64 (pts : List (Nat × List (Nat × BitVec 64))) (hs : Sorted pts) (hr : ∀ row ∈ pts, Sorted row.2)
    (f : Plane (BitVec 64)) (h : detectPlane pts = some f) : Reproduces2 f.eval pts :=
  plane_reproduces pts hs hr f h

/-- a plane with a decreasing direction; a constant; a single x; a single y; no plane -/
example : detectPlane [(0, [(0, 10#64), (1, 8#64)]), (1, [(0, 13#64), (1, 11#64), (2, 9#64)])]
    = some ⟨some (.linear ⟨0, 3#64, 1, 10#64⟩), some (.linear ⟨0, -2#64, 1, 0#64⟩)⟩ := by decide
example : detectPlane [(0, [(0, (5 : Int)), (1, 5)]), (2, [(1, 5)])] = some ⟨some (.linear ⟨0, 0, 1, 5⟩), none⟩ := by decide
example : detectPlane [(4, [(0, (5 : Int)), (1, 7)])] = some ⟨none, some (.linear ⟨0, 2, 1, 5⟩)⟩ := by decide
example : detectPlane [(0, [(3, (5 : Int))]), (1, [(3, 4)])] = some ⟨some (.linear ⟨0, -1, 1, 5⟩), none⟩ := by decide
example : detectPlane [(0, [(0, (5 : Int)), (1, 7)]), (1, [(0, 5), (1, 8)])] = none := by decide

/-! ## C15: printed index expressions compute the pattern -/

/-- the text of a linear pattern -/
theorem linear_computes (env : Env) (i name : String) (x : BitVec 64) (hi : env.var i = some x) (p : Lin (BitVec 64))
    (hoff : 0 ≤ p.xOffset ∧ p.xOffset ≤ x.toNat ∧ p.xOffset < 2 ^ 63) (hdx : 0 < p.dx ∧ p.dx < 2 ^ 63)
    (hdy : p.dy.toInt ≠ -2 ^ 63) (hb : p.b.toInt ≠ -2 ^ 63) :
    Computes env (patToks name (.linear p) i) (p.eval x.toNat) := by
  have lo := fun w : BitVec 64 => BitVec.le_toInt w
  have hi' := fun w : BitVec 64 => BitVec.toInt_lt (x := w)
  have l1 := lo p.dy; have l2 := lo p.b; have h1 := hi' p.dy; have h2 := hi' p.b
  simp only [Nat.add_one_sub_one] at l1 l2 h1 h2
  exact pat_computes hi (.linear ⟨⟨hoff.1, hoff.2.1⟩, hoff.2.2, hdx, ⟨by omega, by omega⟩, ⟨by omega, by omega⟩⟩)

/-- the texts: all parts, parts left out, a negative slope -/
example : linToks ⟨1, -2, 3, 7⟩ "j" = [.lp, .id "j", .op .sub, .num 1, .rp, .op .div, .num 3, .op .mul, .op .sub, .num 2, .op .add, .num 7] := by decide
example : linToks ⟨0, 1, 1, 0⟩ "j" = [.id "j"] := by decide
example : linToks ⟨0, 1, 1, -4⟩ "j" = [.id "j", .op .add, .op .sub, .num 4] := by decide
example : linToks ⟨0, 0, 1, 0⟩ "j" = [.num 0] := by decide

def sampleEnv : Env := ⟨fun s => if s = "j" then some 7 else if s = "i" then some 2 else none,
  fun n k => if n = "index0" ∧ k = 7 then some 12 else none, fun _ _ _ => none⟩

/-- `(j - 1) / 3 * -2 + 7` at `j = 7` is 3 -/
example : Computes sampleEnv (patToks "" (.linear ⟨1, -2, 3, 7⟩) "j") 3 :=
  linear_computes sampleEnv "j" "" 7 (by decide) ⟨1, -2, 3, 7⟩ (by decide) (by decide) (by decide) (by decide)

/-- the text of a sectioned pattern -/
theorem sectioned_computes (env : Env) (i name : String) (x : BitVec 64) (hi : env.var i = some x) (secs : List (Nat × Lin (BitVec 64)))
    (hk : ∀ q ∈ secs, q.1 < 2 ^ 63) (p : Lin (BitVec 64)) (hp : lookup secs x.toNat = some p)
    (hoff : 0 ≤ p.xOffset ∧ p.xOffset ≤ x.toNat ∧ p.xOffset < 2 ^ 63) (hdx : 0 < p.dx ∧ p.dx < 2 ^ 63)
    (hdy : p.dy.toInt ≠ -2 ^ 63) (hb : p.b.toInt ≠ -2 ^ 63) :
    Computes env (patToks name (.sectioned secs) i) (p.eval x.toNat) := by
  have lo := fun w : BitVec 64 => BitVec.le_toInt w
  have hi' := fun w : BitVec 64 => BitVec.toInt_lt (x := w)
  have l1 := lo p.dy; have l2 := lo p.b; have h1 := hi' p.dy; have h2 := hi' p.b
  simp only [Nat.add_one_sub_one] at l1 l2 h1 h2
  exact pat_computes hi (.sectioned hk hp ⟨⟨hoff.1, hoff.2.1⟩, hoff.2.2, hdx, ⟨by omega, by omega⟩, ⟨by omega, by omega⟩⟩)

example : Computes sampleEnv (patToks "" (.sectioned [(0, ⟨0, 0, 1, 3⟩), (1, ⟨0, 2, 1, 1⟩), (9, ⟨0, 0, 1, 1⟩)]) "j") 15 :=
  sectioned_computes sampleEnv "j" "" 7 (by decide) _ (by decide) ⟨0, 2, 1, 1⟩ (by decide) (by decide) (by decide) (by decide) (by decide)

/-- a detected pattern: at every given key its text has the given value. Random patterns are read from their
table, which holds the values (C17). -/
theorem detect_computes (env : Env) (i name : String) (pts : List (Nat × BitVec 64)) (hs : Sorted pts)
    (hk : ∀ q ∈ pts, q.1 < 2 ^ 31) (hv : ∀ q ∈ pts, -2 ^ 30 ≤ q.2.toInt ∧ q.2.toInt < 2 ^ 30)
    (ht : ∀ l, detect pts = .random l → ∀ q ∈ l, env.tab1 name q.1 = some q.2) :
    ∀ q ∈ pts, env.var i = some (BitVec.ofNat 64 q.1) → Computes env (patToks name (detect pts) i) q.2 := by
  intro q hq hi
  have hq31 := hk q hq
  have e : (BitVec.ofNat 64 q.1).toNat = q.1 := by simp; omega
  exact pat_computes hi (by rw [e]; exact detect_def hs hk hv ht q hq)

example : Computes sampleEnv (patToks "" (detect [(0, 3#64), (7, 5#64), (14, 7#64)]) "j") 5 :=
  detect_computes sampleEnv "j" "" [(0, 3#64), (7, 5#64), (14, 7#64)] (by decide) (by decide) (by decide)
    (by
      intro l h
      have e : detect [(0, 3#64), (7, 5#64), (14, 7#64)] = .linear ⟨0, 2, 7, 3⟩ := by decide
      rw [e] at h
      cases h) (7, 5) (by decide) (by decide)

/-- a detected plane: at every given pair its text has the given value -/
theorem plane_computes (env : Env) (i j n1 n2 : String) (pts : List (Nat × List (Nat × BitVec 64))) (hs : Sorted pts)
    (hr : ∀ row ∈ pts, Sorted row.2) (hne : ∀ row ∈ pts, row.2 ≠ [])
    (hk : ∀ row ∈ pts, row.1 < 2 ^ 31 ∧ ∀ q ∈ row.2, q.1 < 2 ^ 31)
    (hv : ∀ row ∈ pts, ∀ q ∈ row.2, 0 ≤ q.2.toInt ∧ q.2.toInt < 2 ^ 29) (f : Plane (BitVec 64)) (hf : detectPlane pts = some f)
    (ht1 : ∀ l, f.p1 = some (.random l) → ∀ q ∈ l, env.tab1 n1 q.1 = some q.2)
    (ht2 : ∀ l, f.p2 = some (.random l) → ∀ q ∈ l, env.tab1 n2 q.1 = some q.2) :
    ∀ row ∈ pts, ∀ q ∈ row.2, env.var i = some (BitVec.ofNat 64 row.1) → env.var j = some (BitVec.ofNat 64 q.1) →
      Computes env (planeToks n1 n2 f i j) q.2 := by
  intro row hrow q hq hi hj
  have h1 := (hk row hrow).1
  have h2 := (hk row hrow).2 q hq
  have e1 : (BitVec.ofNat 64 row.1).toNat = row.1 := by simp; omega
  have e2 : (BitVec.ofNat 64 q.1).toNat = q.1 := by simp; omega
  exact plane_computes_aux hi hj (by rw [e1, e2]; exact plane_def hs hr hne hk hv hf ht1 ht2 row hrow q hq)

example : ∃ f, detectPlane [(0, [(0, 20#64), (7, 6#64)]), (2, [(0, 23#64), (7, 9#64)])] = some f ∧
    Computes sampleEnv (planeToks "" "" f "i" "j") 9 :=
  ⟨⟨some (.linear ⟨0, 3, 2, 20⟩), some (.linear ⟨0, -14, 7, 0⟩)⟩, by decide,
    plane_computes sampleEnv "i" "j" "" "" [(0, [(0, 20#64), (7, 6#64)]), (2, [(0, 23#64), (7, 9#64)])] (by decide)
      (by decide) (by decide) (by decide) (by decide) _ (by decide) (by intro l h; simp at h) (by intro l h; simp at h)
      (2, [(0, 23#64), (7, 9#64)]) (by decide) (7, 9#64) (by decide) (by decide) (by decide)⟩

/-- Without the bound on the values: two constants which fit into `int` are added as `int`, which
overflows although the index (an `unsigned long`) would be representable. -/
theorem plane_overflow_counterexample :
    ∃ (f : Plane (BitVec 64)) (t : Tree Nat),
      f.eval 0 0 = some 4000000000#64 ∧ Reads (planeToks "" "" f "i" "j") t ∧
      ∀ env : Env, env.var "i" = some 0 → env.var "j" = some 0 → ceval env t = none := by
  refine ⟨⟨some (.sectioned [(0, ⟨0, 0, 1, 2000000000⟩), (1, ⟨0, 0, 1, 1⟩)]), some (.sectioned [(0, ⟨0, 0, 1, 2000000000⟩), (1, ⟨0, 0, 1, 1⟩)])⟩,
    planeTree "" "" ⟨some (.sectioned [(0, ⟨0, 0, 1, 2000000000⟩), (1, ⟨0, 0, 1, 1⟩)]), some (.sectioned [(0, ⟨0, 0, 1, 2000000000⟩), (1, ⟨0, 0, 1, 1⟩)])⟩ "i" "j", by decide, ?_, ?_⟩
  · exact reads_of_ok (t := planeTree "" "" ⟨some (.sectioned [(0, ⟨0, 0, 1, 2000000000⟩), (1, ⟨0, 0, 1, 1⟩)]), some (.sectioned [(0, ⟨0, 0, 1, 2000000000⟩), (1, ⟨0, 0, 1, 1⟩)])⟩ "i" "j")
      ⟨by decide, patTree_ok _ _ _, patTree_ok _ _ _⟩
  · intro env h1 h2
    simp only [planeTree, patTree, secTree]
    have e1 : linTree ⟨0, 0, 1, 2000000000⟩ "i" = .num 2000000000 := by decide
    have e2 : linTree ⟨0, 0, 1, 1⟩ "i" = .num 1 := by decide
    have e3 : linTree ⟨0, 0, 1, 2000000000⟩ "j" = .num 2000000000 := by decide
    have e4 : linTree ⟨0, 0, 1, 1⟩ "j" = .num 1 := by decide
    rw [e1, e2, e3, e4]
    simp [ ceval, h1, h2, ty, litTy, Ty.max, applyOp, conv, norm]

/-- the text of a two dimensional random pattern -/
theorem random2_computes (env : Env) (name i j : String) (x y v : BitVec 64) (hi : env.var i = some x) (hj : env.var j = some y)
    (ht : env.tab2 name x.toNat y.toNat = some v) : Computes env (random2Toks name i j) v := by
  refine ⟨.idx (.idx (.id name) (.id i)) (.id j), v.toNat, ?_, ?_, by simp⟩
  · exact reads_of_ok (t := Tree.idx (.idx (.id name) (.id i)) (.id j)) ⟨⟨trivial, trivial⟩, trivial⟩
  · simp only [ceval, hi, hj, Option.map_some]
    rw [if_pos ⟨by omega, by omega⟩]
    simp [ht]

example : random2Toks "index1" "i" "j" = [.id "index1", .lb, .id "i", .rb, .lb, .id "j", .rb] := by decide

/-! ## C17: printed tables hold the pattern -/

/-- the array: the value at each key, zero elsewhere -/
theorem array_holds (pts : List (Nat × Nat)) (hs : Sorted pts) :
    (∀ q ∈ pts, arrayAt (declare1 pts).1 (declare1 pts).2 q.1 = some q.2) ∧
    (∀ k, k < (declare1 pts).1 → (∀ q ∈ pts, q.1 ≠ k) → arrayAt (declare1 pts).1 (declare1 pts).2 k = some 0) := by
  constructor
  · intro q hq
    have : q.1 < (declare1 pts).1 := by simp only [declare1, fill_length]; exact keyEnd_lt hs hq
    rw [declare1_at hs q.1 this, sorted_find hs hq]
    rfl
  · intro k hk hn
    rw [declare1_at hs k hk]
    have : pts.find? (fun q => decide (q.1 = k)) = none := by
      rw [List.find?_eq_none]; intro q hq; simpa using hn q hq
    rw [this]
    rfl

example : declare1 [(1, 5), (4, 9)] = (5, [.open_, .num 0, .comma, .num 5, .comma, .num 0, .comma, .num 0, .comma, .num 9, .close]) := by decide
example : arrayAt 5 (declare1 [(1, 5), (4, 9)]).2 4 = some 9 := (array_holds [(1, 5), (4, 9)] (by decide)).1 (4, 9) (by decide)

/-- the matrix: the value at each pair of keys, zero elsewhere -/
theorem matrix_holds (pts : List (Nat × List (Nat × Nat))) (hs : Sorted pts) (hr : ∀ row ∈ pts, Sorted row.2) :
    (∀ row ∈ pts, ∀ q ∈ row.2, matrixAt (declare2 pts).1 (declare2 pts).2.1 (declare2 pts).2.2 row.1 q.1 = some q.2) ∧
    (∀ k l, k < (declare2 pts).1 → l < (declare2 pts).2.1 → (∀ row ∈ pts, row.1 = k → ∀ q ∈ row.2, q.1 ≠ l) →
      matrixAt (declare2 pts).1 (declare2 pts).2.1 (declare2 pts).2.2 k l = some 0) := by
  constructor
  · intro row hrow q hq
    have h1 : row.1 < (declare2 pts).1 := keyEnd_lt hs hrow
    have h2 : q.1 < (declare2 pts).2.1 := by
      have := keyEnd_lt (hr row hrow) hq
      have h3 := (foldl_max_le (pts.map fun r => keyEnd r.2) 0).2 (keyEnd row.2) (List.mem_map.mpr ⟨row, hrow, rfl⟩)
      simp only [declare2]
      omega
    rw [declare2_at hs hr _ _ h1 h2, sorted_find hs hrow]
    simp only [Option.map_some, Option.getD_some]
    rw [sorted_find (hr row hrow) hq]
    rfl
  · intro k l hk hl hn
    rw [declare2_at hs hr _ _ hk hl]
    congr 1
    cases hf : pts.find? (fun q => decide (q.1 = k)) with
    | none => simp
    | some row =>
      obtain ⟨e, hm⟩ := find_key hf
      have : row.2.find? (fun q => decide (q.1 = l)) = none := by
        rw [List.find?_eq_none]; intro q hq; simpa using hn row hm e q hq
      simp [this]

example : declare2 [(1, [(1, 5)]), (2, [(0, 3), (2, 4)])] =
    (3, 3, [.open_, .open_, .close, .comma, .open_, .num 0, .comma, .num 5, .close, .comma,
      .open_, .num 3, .comma, .num 0, .comma, .num 4, .close, .close]) := by decide
example : matrixAt 3 3 (declare2 [(1, [(1, 5)]), (2, [(0, 3), (2, 4)])]).2.2 2 2 = some 4 :=
  (matrix_holds [(1, [(1, 5)]), (2, [(0, 3), (2, 4)])] (by decide) (by decide)).1 (2, [(0, 3), (2, 4)]) (by decide) (2, 4) (by decide)

/-- C15 and C17 together: a random pattern whose table is the printed one is computed by its text -/
theorem random_computes (env : Env) (i name : String) (pts : List (Nat × Nat)) (hs : Sorted pts) (hk : ∀ q ∈ pts, q.1 < 2 ^ 64)
    (ht : ∀ k, env.tab1 name k = (arrayAt (declare1 pts).1 (declare1 pts).2 k).map (BitVec.ofNat 64)) :
    ∀ q ∈ pts, env.var i = some (BitVec.ofNat 64 q.1) →
      Computes env (patToks name (.random (pts.map fun q => (q.1, BitVec.ofNat 64 q.2))) i) (BitVec.ofNat 64 q.2) := by
  intro q hq hi
  have e : (BitVec.ofNat 64 q.1).toNat = q.1 := by have := hk q hq; simp; omega
  refine pat_computes hi (.random ?_)
  rw [e, ht, (array_holds pts hs).1 q hq]
  rfl

/-- every table gets a name: given names stay, new names differ from all others -/
theorem table_names (pre : String) (names : List String) :
    (nameTables pre names).length = names.length ∧
    (∀ (i : Nat) (n : String), names[i]? = some n → n ≠ "" → (nameTables pre names)[i]? = some n) ∧
    (∀ i j : Nat, i ≠ j → names[i]? = some "" → ∀ m m', (nameTables pre names)[i]? = some m →
      (nameTables pre names)[j]? = some m' → m ≠ m') := by
  refine ⟨nameLoop_length .., ?_, ?_⟩
  · intro i n hn hne
    obtain ⟨m, h1, h2, _⟩ := nameLoop_get pre (names.filter (· ≠ "")) names 0 i n hn
    rw [nameTables, h1, h2 hne]
  · intro i j hij hi m m' hm hm'
    have hj : j < names.length := by
      have := (List.getElem?_eq_some_iff.mp hm').1
      rw [nameTables, nameLoop_length] at this
      exact this
    have hjg : names[j]? = some names[j] := List.getElem?_eq_getElem hj
    by_cases he : names[j] = ""
    · rw [he] at hjg
      rcases Nat.lt_or_gt_of_ne hij with h | h
      · exact nameLoop_new_ne pre _ names 0 i j m m' h hi hjg hm hm'
      · exact (nameLoop_new_ne pre _ names 0 j i m' m h hjg hi hm' hm).symm
    · obtain ⟨m2, h1, h2, _⟩ := nameLoop_get pre (names.filter (· ≠ "")) names 0 j _ hjg
      rw [nameTables, h1] at hm'
      obtain rfl := Option.some.inj hm'
      obtain ⟨m3, h3, _, h4⟩ := nameLoop_get pre (names.filter (· ≠ "")) names 0 i _ hi
      rw [nameTables, h3] at hm
      obtain rfl := Option.some.inj hm
      obtain ⟨d, _, _, hnot⟩ := h4 rfl
      rintro rfl
      apply hnot
      rw [List.mem_filter]
      refine ⟨?_, ?_⟩
      · rw [h2 he]; exact List.getElem_mem hj
      · rw [h2 he]; simpa using he

example : nameTables "index" ["", "index0", "", "k"] = ["index1", "index0", "index2", "k"] := by decide

/-! ## C42: offset copies of a pattern -/

/-- what `isOffsetBy` accepts is the reference pattern plus the offset, for all indexes -/
theorem offset_sound (f ref : Pat R) (o : R) (h : isOffsetBy f ref o = true) (x : Nat) :
    f.eval x = (ref.eval x).map (· + o) := by
  match f, ref, h with
  | .linear p, .linear q, h =>
    simp only [isOffsetBy] at h
    simp only [Pat.eval, Option.map_some, linOffset_eval h x]
  | .sectioned s, .sectioned r, h =>
    have h' : (if r.length ≠ s.length then false else secOffsetLoop s r o) = true := h
    by_cases hl : r.length = s.length
    · rw [if_neg (not_not.mpr hl)] at h'
      rcases secOffset_lookup x hl.symm h' with ⟨p, q, e1, e2, e3⟩ | ⟨e1, e2⟩
      · simp [Pat.eval, e1, e2, e3]
      · simp [Pat.eval, e1, e2]
    · rw [if_pos hl] at h'
      cases h'

/-- the plane made from a pattern by `encapsulateIndexPattern` -/
theorem encapsulate_eval (ref : Pat R) (starti : R) (f : Plane R) (h : encapsulate ref starti = some f) (x i : Nat) :
    f.eval x i = (ref.eval x).map (fun v => v - starti + (i : R)) := by
  match ref, h with
  | .linear p, h =>
    simp only [encapsulate, Option.some.injEq] at h
    subst h
    simp only [Plane.eval, Pat.eval, Option.map_some, Lin.eval, Int.sub_zero, Int.tdiv_one, Int.cast_natCast]
    congr 1
    ring
  | .sectioned s, h =>
    simp only [encapsulate, Option.some.injEq] at h
    subst h
    have hl : lookup (s.map fun q => (q.1, { q.2 with b := q.2.b - starti })) x =
        (lookup s x).map fun p => { p with b := p.b - starti } := lookup_map (fun p : Lin R => { p with b := p.b - starti }) x s
    simp only [Plane.eval, Pat.eval, hl]
    cases lookup s x with
    | none => rfl
    | some p =>
      simp only [Option.map_some, Lin.eval, Int.sub_zero, Int.tdiv_one, Int.cast_natCast]
      congr 1
      ring

/-- a family of patterns which are the reference plus `i - starti`: the plane is member `i` of the family -/
theorem offset_family (ref : Pat R) (starti : R) (f : Plane R) (member : Nat → Pat R) (h : encapsulate ref starti = some f)
    (hm : ∀ i, isOffsetBy (member i) ref ((i : R) - starti) = true) (x i : Nat) : f.eval x i = (member i).eval x := by
  rw [encapsulate_eval ref starti f h, offset_sound _ _ _ (hm i)]
  congr 1
  funext v
  ring

example : isOffsetBy (.sectioned [(0, ⟨0, 1, 1, 9⟩), (4, ⟨0, 0, 1, 6⟩)]) (.sectioned [(0, ⟨0, 1, 1, 7⟩), (4, ⟨0, 0, 1, 4⟩)]) (2 : Int) = true := by decide
example : (encapsulate (.linear ⟨0, 2, 1, 7⟩) (5 : Int)).bind (fun f => f.eval 3 6) = some 14 := by decide

end Verif.Index
