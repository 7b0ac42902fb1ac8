import Verif.Index.LemmasPlane
import Verif.Index.LemmasPrint

/-! Patterns which detection returns can be printed. -/
namespace Verif.Index

open Verif.CExpr

theorem toInt_ofInt_small {z : Int} (h1 : -2 ^ 63 ≤ z) (h2 : z < 2 ^ 63) : (BitVec.ofInt 64 z).toInt = z := by
  rw [BitVec.toInt_ofInt]
  apply Int.bmod_eq_of_le <;> omega

theorem ofInt_sub' (a b : Int) : BitVec.ofInt 64 (a - b) = BitVec.ofInt 64 a - BitVec.ofInt 64 b :=
  Int.cast_sub (R := BitVec 64) a b

/-- small values -/
def Small (v : BitVec 64) : Prop := -2 ^ 30 ≤ v.toInt ∧ v.toInt < 2 ^ 30

theorem Small.lit {v : BitVec 64} (h : Small v) : LitOK v.toInt := ⟨by have := h.1; omega, by have := h.2; omega⟩

theorem sub_toInt {u v : BitVec 64} (hu : Small u) (hv : Small v) : (u - v).toInt = u.toInt - v.toInt := by
  have e : u - v = BitVec.ofInt 64 (u.toInt - v.toInt) := by
    rw [ofInt_sub', BitVec.ofInt_toInt, BitVec.ofInt_toInt]
  rw [e]
  obtain ⟨h1, h2⟩ := hu
  obtain ⟨h3, h4⟩ := hv
  exact toInt_ofInt_small (by omega) (by omega)

theorem mul_bound {q d : Int} (hq0 : 0 ≤ q) (hq : q < 2 ^ 31) (hd1 : -2 ^ 31 < d) (hd2 : d < 2 ^ 31) :
    -2 ^ 62 < q * d ∧ q * d < 2 ^ 62 := by
  have h1 : q * d ≤ q * (2 ^ 31 - 1) := Int.mul_le_mul_of_nonneg_left (by omega) hq0
  have h2 : q * (-(2 ^ 31 - 1)) ≤ q * d := Int.mul_le_mul_of_nonneg_left (by omega) hq0
  constructor <;> omega

theorem kept_ok {pts : List (Nat × BitVec 64)} (hs : Sorted pts) (hk : ∀ q ∈ pts, q.1 < 2 ^ 31) (hv : ∀ q ∈ pts, Small q.2) :
    Kept LinOK pts where
  start := by
    intro k x0 y0 rest hd
    have hm : ∀ q ∈ (x0, y0) :: rest, q ∈ pts := fun q hq => List.mem_of_mem_drop (by rw [hd]; exact hq)
    have hy0 := hv _ (hm (x0, y0) (by simp))
    have hx0 := hk _ (hm (x0, y0) (by simp))
    simp only at hy0 hx0
    match rest, hd, hm with
    | [], _, _ =>
      simp only [startSection]
      exact ⟨⟨by simp, by simp⟩, by simp, ⟨by simp, by simp⟩, ⟨by simp, by simp⟩, hy0.lit⟩
    | (x1, y1) :: rest, hd, hm =>
      have hy1 := hv _ (hm (x1, y1) (by simp))
      have hx1 := hk _ (hm (x1, y1) (by simp))
      have hk0 : pts[k]? = some (x0, y0) := by have := drop_get hd 0; simpa using this
      have hk1 : pts[k + 1]? = some (x1, y1) := by have := drop_get hd 1; simpa using this
      have hx : x0 < x1 := sorted_get hs (by omega) hk0 hk1
      simp only at hy1 hx1
      simp only [startSection]
      split
      · have hmod : Int.tmod (x0 : Int) ((x1 : Int) - x0) = (x0 : Int) % ((x1 : Int) - x0) := Int.tmod_eq_emod_of_nonneg (by omega)
        have hm0 := Int.emod_nonneg (x0 : Int) (by omega : (x1 : Int) - x0 ≠ 0)
        have hm1 : (x0 : Int) % ((x1 : Int) - x0) ≤ x0 := by
          have h1 := Int.mul_ediv_add_emod (x0 : Int) ((x1 : Int) - x0)
          have h2 : 0 ≤ ((x1 : Int) - x0) * ((x0 : Int) / ((x1 : Int) - x0)) := Int.mul_nonneg (by omega) (Int.ediv_nonneg (by omega) (by omega))
          omega
        have hdy := sub_toInt hy1 hy0
        obtain ⟨a1, a2⟩ := hy0
        obtain ⟨c1, c2⟩ := hy1
        refine ⟨⟨by rw [hmod]; exact hm0, by rw [hmod]; exact hm1⟩, by rw [hmod]; simp only; omega, ⟨by simp only; omega, by simp only; omega⟩, ?_, ?_⟩
        · simp only [hdy]; exact ⟨by omega, by omega⟩
        · simp only
          generalize hq : ((x0 : Int) - Int.tmod (x0 : Int) ((x1 : Int) - x0)).tdiv ((x1 : Int) - x0) = q
          have hq0 : 0 ≤ q := by rw [← hq, hmod]; exact Int.tdiv_nonneg (by omega) (by omega)
          have hq1 : q < 2 ^ 31 := by
            rw [← hq, hmod, Int.tdiv_eq_ediv_of_nonneg (by omega)]
            have := Int.ediv_le_self ((x1 : Int) - x0) (a := (x0 : Int) - (x0 : Int) % ((x1 : Int) - x0)) (by omega)
            omega
          have e : y0 - ((q : Int) : BitVec 64) * (y1 - y0) = BitVec.ofInt 64 (y0.toInt - q * (y1.toInt - y0.toInt)) := by
            rw [ofInt_sub', BitVec.ofInt_mul, ofInt_sub', BitVec.ofInt_toInt, BitVec.ofInt_toInt]
            rfl
          obtain ⟨m1, m2⟩ := mul_bound hq0 hq1 (d := y1.toInt - y0.toInt) (by omega) (by omega)
          rw [e, toInt_ofInt_small (by omega) (by omega)]
          exact ⟨by omega, by omega⟩
      · exact ⟨⟨by simp, by simp⟩, by simp, ⟨by simp, by simp⟩, ⟨by simp, by simp⟩, hy0.lit⟩
  const := by
    intro k x0 y0 rest hd hdy x _ _
    have hy0 : Small y0 := hv (x0, y0) (List.mem_of_mem_drop (by rw [hd]; simp))
    match rest, hd, hdy with
    | [], _, _ =>
      simp only [startSection]
      exact ⟨⟨by simp, by simp⟩, by simp, ⟨by simp, by simp⟩, ⟨by simp, by simp⟩, hy0.lit⟩
    | (x1, y1) :: rest, hd, hdy =>
      simp only [startSection] at hdy ⊢
      split at hdy
      · rename_i h; exact absurd hdy h
      · rename_i h
        rw [if_neg h]
        exact ⟨⟨by simp, by simp⟩, by simp, ⟨by simp, by simp⟩, ⟨by simp, by simp⟩, hy0.lit⟩
  single := by
    intro key y p hm h
    exact ⟨h.off, h.off63, h.dx, ⟨by simp, by simp⟩, (hv (key, y) hm).lit⟩

theorem lookup_mem {secs : List (Nat × Lin (BitVec 64))} {x : Nat} {p : Lin (BitVec 64)} (h : lookup secs x = some p) :
    ∃ s, (s, p) ∈ secs ∧ s ≤ x := by
  induction secs with
  | nil => simp [lookup] at h
  | cons a rest ih =>
    obtain ⟨s, q⟩ := a
    simp only [lookup] at h
    split at h
    · rename_i hs
      split at h
      · rename_i p' hp'
        obtain rfl := Option.some.inj h
        obtain ⟨s', h1, h2⟩ := ih hp'
        exact ⟨s', by simp [h1], h2⟩
      · obtain rfl := Option.some.inj h
        exact ⟨s, by simp, hs⟩
    · simp at h

/-- keys of the sections are keys of points -/
theorem kept_and {G H : Nat → Lin (BitVec 64) → Prop} {pts : List (Nat × BitVec 64)} (h1 : Kept G pts) (h2 : Kept H pts) :
    Kept (fun k p => G k p ∧ H k p) pts where
  start k x0 y0 rest hd := ⟨h1.start k x0 y0 rest hd, h2.start k x0 y0 rest hd⟩
  const k x0 y0 rest hd hdy x y hm := ⟨h1.const k x0 y0 rest hd hdy x y hm, h2.const k x0 y0 rest hd hdy x y hm⟩
  single key y p hm h := ⟨h1.single key y p hm h.1, h2.single key y p hm h.2⟩

theorem kept_key {pts : List (Nat × BitVec 64)} : Kept (fun k (_ : Lin (BitVec 64)) => ∃ y, (k, y) ∈ pts) pts where
  start k x0 y0 rest hd := ⟨y0, List.mem_of_mem_drop (by rw [hd]; simp)⟩
  const _ _ _ _ _ _ _ y hm := ⟨y, hm⟩
  single _ y _ hm _ := ⟨y, hm⟩

/-- values of the table of a random pattern -/
def TabOK (env : Env) (name : String) (pts : List (Nat × BitVec 64)) : Prop := ∀ q ∈ pts, env.tab1 name q.1 = some q.2

/-- the sections found for small points define printable values -/
theorem sections_def {env : Env} {name : String} {pts : List (Nat × BitVec 64)} (hs : Sorted pts)
    (hk : ∀ q ∈ pts, q.1 < 2 ^ 31) (hv : ∀ q ∈ pts, Small q.2) (mc : Nat) {f : Pat (BitVec 64)}
    (hf : ofSections (detectLinearSections pts mc) = some f) : ∀ q ∈ pts, DefAt env name q.1 f q.2 := by
  intro q hq
  rcases sections_kept hs (kept_and (kept_ok hs hk hv) kept_key) mc with h | ⟨hne, hc, hG⟩
  · rw [h] at hf; simp [ofSections] at hf
  · obtain ⟨p, hp, he⟩ := covers_mem hc hq
    obtain ⟨s, hsm, hsx⟩ := lookup_mem hp
    have hok : LinOK q.1 p := (hG _ hsm).1.mono hsx
    match hsec : detectLinearSections pts mc, hf with
    | [(s', p')], hf =>
      rw [hsec] at hsm
      simp at hsm
      simp only [ofSections, Option.some.injEq] at hf
      subst hf
      rw [← he]
      rw [← hsm.2]
      exact .linear hok
    | a :: b :: rest, hf =>
      simp only [ofSections, Option.some.injEq] at hf
      subst hf
      rw [← he]
      rw [hsec] at hp hG
      refine .sectioned ?_ hp hok
      intro r hr
      obtain ⟨y, hy⟩ := (hG r hr).2
      have := hk _ hy
      simp only at this
      omega

theorem choose_ofSections (secs : List (Nat × Lin (BitVec 64))) (pts : List (Nat × BitVec 64)) :
    (secs = [] ∧ choose secs pts = .random pts) ∨ ofSections secs = some (choose secs pts) := by
  match secs with
  | [] => left; exact ⟨rfl, rfl⟩
  | [(_, p)] => right; rfl
  | a :: b :: rest => right; rfl

theorem detect_def {env : Env} {name : String} {pts : List (Nat × BitVec 64)} (hs : Sorted pts)
    (hk : ∀ q ∈ pts, q.1 < 2 ^ 31) (hv : ∀ q ∈ pts, Small q.2) (ht : ∀ l, detect pts = .random l → TabOK env name l) :
    ∀ q ∈ pts, DefAt env name q.1 (detect pts) q.2 := by
  intro q hq
  unfold detect at ht ⊢
  rcases choose_ofSections (detectLinearSections pts (maxSections pts.length)) pts with ⟨_, h⟩ | h
  · have := ht pts h
    rw [h]; exact .random (this q hq)
  · exact sections_def hs hk hv _ h q hq

/-! ### planes -/

def planeTree (name1 name2 : String) (p : Plane (BitVec 64)) (i j : String) : Tree Nat :=
  match p.p1, p.p2 with
  | some f, some g => .bin .add (.paren (patTree name1 f i)) (.paren (patTree name2 g j))
  | some f, none => patTree name1 f i
  | none, some g => patTree name2 g j
  | none, none => .num 0

/-- both parts are defined and small, or only one is present -/
inductive PlaneAt (env : Env) (n1 n2 : String) (x y : Nat) : Plane (BitVec 64) → BitVec 64 → Prop
  | both {f g : Pat (BitVec 64)} {u v : BitVec 64} (h1 : DefAt env n1 x f u) (h2 : DefAt env n2 y g v) (s1 : Small u) (s2 : Small v) :
      PlaneAt env n1 n2 x y ⟨some f, some g⟩ (u + v)
  | first {f : Pat (BitVec 64)} {u : BitVec 64} (h1 : DefAt env n1 x f u) : PlaneAt env n1 n2 x y ⟨some f, none⟩ u
  | second {g : Pat (BitVec 64)} {v : BitVec 64} (h2 : DefAt env n2 y g v) : PlaneAt env n1 n2 x y ⟨none, some g⟩ v

theorem plane_computes_aux {env : Env} {n1 n2 i j : String} {wx wy : BitVec 64} (hi : env.var i = some wx) (hj : env.var j = some wy)
    {p : Plane (BitVec 64)} {v : BitVec 64} (h : PlaneAt env n1 n2 wx.toNat wy.toNat p v) :
    Computes env (planeToks n1 n2 p i j) v := by
  cases h with
  | first h1 =>
    rename_i f
    have e : planeToks n1 n2 ⟨some f, none⟩ i j = patToks n1 f i := by simp [planeToks]
    rw [e]
    exact pat_computes hi h1
  | second h2 =>
    rename_i g
    have e : planeToks n1 n2 ⟨none, some g⟩ i j = patToks n2 g j := by simp [planeToks]
    rw [e]
    exact pat_computes hj h2
  | both h1 h2 s1 s2 =>
    rename_i f g u w
    have ht : (planeTree n1 n2 ⟨some f, some g⟩ i j).toks = planeToks n1 n2 ⟨some f, some g⟩ i j := by
      simp [planeTree, planeToks, Tree.toks, patTree_toks n1 f i (defAt_ne h1), patTree_toks n2 g j (defAt_ne h2)]
    have hok : (planeTree n1 n2 ⟨some f, some g⟩ i j).ok 0 := ⟨by decide, patTree_ok n1 f i, patTree_ok n2 g j⟩
    have v1 : Val env (.paren (patTree n1 f i)) u := patTree_val hi h1
    have v2 : Val env (.paren (patTree n2 g j)) w := patTree_val hj h2
    obtain ⟨z, hz, e⟩ := val_add_small v1 v2 s1 s2
    exact ⟨_, z, by rw [← ht]; exact reads_of_ok hok, hz, e⟩

theorem addOffsets_from {zF : BitVec 64} {row offs offs' : List (Nat × BitVec 64)} (h : addOffsets zF row offs = some offs') :
    ∀ q ∈ offs', q ∈ offs ∨ ∃ r ∈ row, q = (r.1, r.2 - zF) := by
  induction row generalizing offs with
  | nil => simp [addOffsets] at h; subst h; exact fun q hq => .inl hq
  | cons a rest ih =>
    obtain ⟨y, z⟩ := a
    unfold addOffsets at h
    split at h
    · intro q hq
      rcases ih h q hq with hm | ⟨r, hr, e⟩
      · rcases put_mem hm with e | hm
        · exact .inr ⟨(y, z), by simp, e⟩
        · exact .inl hm
      · exact .inr ⟨r, by simp [hr], e⟩
    · split at h
      · simp at h
      · intro q hq
        rcases ih h q hq with hm | ⟨r, hr, e⟩
        · exact .inl hm
        · exact .inr ⟨r, by simp [hr], e⟩

theorem splitPlane_from {pts : List (Nat × List (Nat × BitVec 64))} {offs starts offs' : List (Nat × BitVec 64)}
    (h : splitPlane pts offs = some (starts, offs')) :
    (∀ q ∈ starts, ∃ row ∈ pts, q = (row.1, firstZ row.2)) ∧
    ∀ q ∈ offs', q ∈ offs ∨ ∃ row ∈ pts, ∃ r ∈ row.2, q = (r.1, r.2 - firstZ row.2) := by
  induction pts generalizing offs starts offs' with
  | nil =>
    simp [splitPlane] at h
    obtain ⟨rfl, rfl⟩ := h
    exact ⟨by simp, fun q hq => .inl hq⟩
  | cons a rest ih =>
    obtain ⟨x, row⟩ := a
    unfold splitPlane at h
    simp only at h
    split at h
    · simp at h
    · rename_i offs1 hadd
      rw [Option.map_eq_some_iff] at h
      obtain ⟨⟨st, of⟩, hl, e⟩ := h
      obtain ⟨rfl, rfl⟩ := Prod.mk.inj e
      obtain ⟨i1, i2⟩ := ih hl
      constructor
      · intro q hq
        rcases List.mem_cons.mp hq with rfl | hq
        · exact ⟨_, List.mem_cons_self .., rfl⟩
        · obtain ⟨r, hr, e⟩ := i1 q hq
          exact ⟨r, List.mem_cons_of_mem _ hr, e⟩
      · intro q hq
        rcases i2 q hq with hm | ⟨r, hr, s, hs, e⟩
        · rcases addOffsets_from hadd q hm with hm | ⟨r, hr, e⟩
          · exact .inl hm
          · exact .inr ⟨_, List.mem_cons_self .., r, hr, e⟩
        · exact .inr ⟨r, List.mem_cons_of_mem _ hr, s, hs, e⟩

theorem DefAt.const_val {env : Env} {n : String} {x : Nat} {p : Lin (BitVec 64)} {v : BitVec 64} (h : DefAt env n x (.linear p) v)
    (hd : p.dy = 0) : LinOK x p ∧ v = p.b := by
  cases h with
  | linear h => exact ⟨h, eval_slope_zero hd x⟩

/-- a detected plane of small points is printable -/
theorem plane_def {env : Env} {n1 n2 : String} {pts : List (Nat × List (Nat × BitVec 64))} (hs : Sorted pts)
    (hr : ∀ row ∈ pts, Sorted row.2) (hne : ∀ row ∈ pts, row.2 ≠ [])
    (hk : ∀ row ∈ pts, row.1 < 2 ^ 31 ∧ ∀ q ∈ row.2, q.1 < 2 ^ 31)
    (hv : ∀ row ∈ pts, ∀ q ∈ row.2, 0 ≤ q.2.toInt ∧ q.2.toInt < 2 ^ 29) {f : Plane (BitVec 64)} (hf : detectPlane pts = some f)
    (ht1 : ∀ l, f.p1 = some (.random l) → TabOK env n1 l) (ht2 : ∀ l, f.p2 = some (.random l) → TabOK env n2 l) :
    ∀ row ∈ pts, ∀ q ∈ row.2, PlaneAt env n1 n2 row.1 q.1 f q.2 := by
  have hsm : ∀ row ∈ pts, ∀ q ∈ row.2, Small q.2 := fun row hrow q hq => by
    obtain ⟨h1, h2⟩ := hv row hrow q hq
    exact ⟨by omega, by omega⟩
  have hfirst : ∀ row ∈ pts, ∃ y, (y, firstZ row.2) ∈ row.2 := by
    intro row hrow
    have := hne row hrow
    match hq : row.2, this with
    | (y, z) :: rest, _ => exact ⟨y, by simp [firstZ]⟩
  unfold detectPlane at hf
  split at hf
  · rename_i x row
    obtain rfl := Option.some.inj hf
    intro r hrm q hq
    simp at hrm
    subst hrm
    refine .second (detect_def (hr _ (by simp)) (hk _ (by simp)).2 (hsm _ (by simp)) ?_ q hq)
    intro l hl
    exact ht2 l (by rw [hl])
  · split at hf
    · rename_i q x2z hsy
      obtain rfl := Option.some.inj hf
      intro row hrow p hp
      obtain ⟨g1, g2⟩ := singleY_spec hsy
      obtain ⟨z, e1, e2⟩ := g2 row hrow
      rw [e1] at hp
      simp at hp
      subst hp
      have g3 : ∀ q' ∈ q :: x2z, ∃ row' ∈ pts, row'.1 = q'.1 ∧ (firstY pts, q'.2) ∈ row'.2 := by
        intro q' hq'
        obtain ⟨row', hrow', e⟩ := g1 q' hq'
        obtain ⟨z', e3, e4⟩ := g2 row' hrow'
        refine ⟨row', hrow', e, ?_⟩
        have := sorted_find (singleY_sorted hs hsy) e4
        have h2 := sorted_find (singleY_sorted hs hsy) hq'
        simp only [e] at this
        rw [this] at h2
        have := Option.some.inj h2
        rw [e3, ← this]
        simp
      refine .first (detect_def (singleY_sorted hs hsy) ?_ ?_ ?_ _ e2)
      · intro q' hq'
        obtain ⟨row', hrow', e, _⟩ := g3 q' hq'
        rw [← e]
        exact (hk row' hrow').1
      · intro q' hq'
        obtain ⟨row', hrow', _, hm⟩ := g3 q' hq'
        exact hsm row' hrow' (firstY pts, q'.2) hm
      · intro l hl
        exact ht1 l (by rw [hl])
    · split at hf
      · simp at hf
      · rename_i starts offs hsp
        obtain ⟨s1, s2, _, _, s5⟩ := splitPlane_spec hs List.Pairwise.nil hsp
        obtain ⟨f1, f2⟩ := splitPlane_from hsp
        have ks : ∀ q ∈ starts, q.1 < 2 ^ 31 := by
          intro q hq
          obtain ⟨row, hrow, rfl⟩ := f1 q hq
          exact (hk row hrow).1
        have vs : ∀ q ∈ starts, Small q.2 := by
          intro q hq
          obtain ⟨row, hrow, rfl⟩ := f1 q hq
          obtain ⟨y, hy⟩ := hfirst row hrow
          exact hsm row hrow (y, firstZ row.2) hy
        have ko : ∀ q ∈ offs, q.1 < 2 ^ 31 := by
          intro q hq
          rcases f2 q hq with h | ⟨row, hrow, r, hrr, rfl⟩
          · simp at h
          · exact (hk row hrow).2 r hrr
        have vo : ∀ q ∈ offs, Small q.2 := by
          intro q hq
          rcases f2 q hq with h | ⟨row, hrow, r, hrr, rfl⟩
          · simp at h
          · obtain ⟨y, hy⟩ := hfirst row hrow
            obtain ⟨a1, a2⟩ := hv row hrow r hrr
            obtain ⟨b1, b2⟩ := hv row hrow _ hy
            simp only at b1 b2
            have := sub_toInt (hsm row hrow r hrr) (hsm row hrow _ hy)
            simp only at this
            exact ⟨by simp only; omega, by simp only; omega⟩
        split at hf
        · rename_i fx fy hfx hfy
          have dx := fun n => sections_def (env := env) (name := n) s2 ks vs 2 hfx
          have dy := fun n => sections_def (env := env) (name := n) s1 ko vo 2 hfy
          have sum : ∀ row ∈ pts, ∀ q ∈ row.2, PlaneAt env n1 n2 row.1 q.1 ⟨some fx, some fy⟩ q.2 := by
            intro row hrow p hp
            obtain ⟨zF, m1, m2⟩ := s5 row hrow
            have h1 := dx n1 _ m1
            have h2 := dy n2 _ (m2 p hp)
            simp only at h1 h2
            have e : p.2 = zF + (p.2 - zF) := by ring
            rw [e]
            exact .both h1 h2 (vs _ m1) (vo _ (m2 p hp))
          split at hf
          · rename_i px py
            by_cases hc : px.dy = 0 ∧ py.dy = 0
            · rw [if_pos hc] at hf
              obtain rfl := Option.some.inj hf
              intro row hrow p hp
              obtain ⟨zF, m1, m2⟩ := s5 row hrow
              obtain ⟨o1, e1⟩ := (dx n1 _ m1).const_val hc.1
              obtain ⟨o2, e2⟩ := (dy n2 _ (m2 p hp)).const_val hc.2
              simp only at o1 e1 e2
              have hok : LinOK row.1 ({ px with b := px.b + py.b } : Lin (BitVec 64)) := by
                refine ⟨o1.off, o1.off63, o1.dx, o1.dy, ?_⟩
                simp only
                rw [← e1, ← e2, show zF + (p.2 - zF) = p.2 by ring]
                exact (hsm row hrow p hp).lit
              have hval : p.2 = ({ px with b := px.b + py.b } : Lin (BitVec 64)).eval row.1 := by
                rw [eval_slope_zero (by exact hc.1)]
                simp only
                rw [← e1, ← e2]
                ring
              rw [hval]
              exact .first (.linear hok)
            · rw [if_neg hc] at hf
              obtain rfl := Option.some.inj hf
              exact sum
          · obtain rfl := Option.some.inj hf
            exact sum
        · simp at hf

end Verif.Index
