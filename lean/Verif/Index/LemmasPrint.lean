import Verif.Index.Print
import Verif.CExpr.Lemmas
import Mathlib.Tactic.Ring
import Mathlib.Data.Int.Cast.Lemmas
import Mathlib.Algebra.Ring.Int.Defs

namespace Verif.Index

open Verif.CExpr

/-! ### the trees of the printed texts -/

def litTree (z : Int) : Tree Nat := if z < 0 then .neg (.num z.natAbs) else .num z.natAbs

theorem lit_toks (z : Int) : (litTree z).toks = lit z := by
  unfold litTree lit
  split <;> rfl

theorem lit_ok (z : Int) : (litTree z).ok 7 := by
  unfold litTree
  split <;> simp [Tree.ok]

def baseTree (xo : Int) (i : String) : Tree Nat := if xo ≠ 0 then .paren (.bin .sub (.id i) (litTree xo)) else .id i
def divTree (dx : Int) (t : Tree Nat) : Tree Nat := if dx ≠ 1 then .bin .div t (litTree dx) else t
def mulTree (dy : Int) (t : Tree Nat) : Tree Nat := if dy ≠ 1 then .bin .mul t (litTree dy) else t
def addTree (b : Int) (t : Tree Nat) : Tree Nat := if b ≠ 0 then .bin .add t (litTree b) else t

def linTree (p : Lin (BitVec 64)) (i : String) : Tree Nat :=
  if p.dy.toInt ≠ 0 then addTree p.b.toInt (mulTree p.dy.toInt (divTree p.dx (baseTree p.xOffset i)))
  else litTree p.b.toInt

theorem linTree_toks (p : Lin (BitVec 64)) (i : String) : (linTree p i).toks = linToks p i := by
  unfold linTree linToks
  by_cases hdy : p.dy.toInt ≠ 0
  · simp only [if_pos hdy]
    unfold addTree mulTree divTree baseTree
    by_cases h1 : p.b.toInt ≠ 0 <;> by_cases h2 : p.dy.toInt ≠ 1 <;> by_cases h3 : p.dx ≠ 1 <;> by_cases h4 : p.xOffset ≠ 0 <;>
      simp only [if_pos, if_neg, h1, h2, h3, h4, Tree.toks, lit_toks, ne_eq, not_true_eq_false, not_false_eq_true, ite_true, ite_false, List.append_assoc, List.cons_append, List.nil_append, List.append_nil]
  · simp only [if_neg hdy, lit_toks]
    by_cases h1 : p.b.toInt = 0
    · simp [h1, lit]
    · simp [h1]

theorem linTree_ok (p : Lin (BitVec 64)) (i : String) : (linTree p i).ok 5 := by
  unfold linTree
  by_cases hdy : p.dy.toInt ≠ 0
  · simp only [if_pos hdy]
    have l7 := fun z => lit_ok z
    have l6 := fun z => Tree.ok_mono (lit_ok z) (by omega : 6 ≤ 7)
    have hb : (baseTree p.xOffset i).ok 8 := by
      unfold baseTree
      split
      · exact ⟨by decide, trivial, l6 _⟩
      · trivial
    have hd : (divTree p.dx (baseTree p.xOffset i)).ok 6 := by
      unfold divTree
      split
      · exact ⟨by decide, Tree.ok_mono hb (by decide), l7 _⟩
      · exact Tree.ok_mono hb (by omega)
    have hm : (mulTree p.dy.toInt (divTree p.dx (baseTree p.xOffset i))).ok 6 := by
      unfold mulTree
      split
      · exact ⟨by decide, hd, l7 _⟩
      · exact hd
    unfold addTree
    split
    · exact ⟨by decide, Tree.ok_mono hm (by decide), l6 _⟩
    · exact Tree.ok_mono hm (by omega)
  · rw [if_neg hdy]
    exact Tree.ok_mono (lit_ok _) (by omega)

/-! ### values -/

/-- the tree has a value which is `w` as `unsigned long` -/
def Val (env : Env) (t : Tree Nat) (w : BitVec 64) : Prop := ∃ z, ceval env t = some z ∧ BitVec.ofInt 64 z = w

theorem ofInt_emod (z : Int) : BitVec.ofInt 64 (z % 2 ^ 64) = BitVec.ofInt 64 z := by
  apply BitVec.eq_of_toInt_eq
  rw [BitVec.toInt_ofInt, BitVec.toInt_ofInt]
  exact Int.emod_bmod z (2 ^ 64)

theorem ofInt_conv (t : Ty) (z : Int) : BitVec.ofInt 64 (conv t z) = BitVec.ofInt 64 z := by
  cases t with
  | ulong => exact ofInt_emod z
  | int => rfl
  | long => rfl

theorem ofInt_norm_ulong {z w : Int} (h : norm .ulong z = some w) : BitVec.ofInt 64 w = BitVec.ofInt 64 z := by
  simp only [norm, Option.some.injEq] at h
  rw [← h, ofInt_emod]

theorem max_ulong_left (t : Ty) : Ty.max .ulong t = .ulong := by cases t <;> rfl
theorem max_ulong_right (t : Ty) : Ty.max t .ulong = .ulong := by cases t <;> rfl

theorem val_mul {env : Env} {a b : Tree Nat} {u v : BitVec 64} (ha : Val env a u) (hb : Val env b v) (ht : ty a = .ulong) :
    Val env (.bin .mul a b) (u * v) := by
  obtain ⟨x, hx, rfl⟩ := ha
  obtain ⟨y, hy, rfl⟩ := hb
  refine ⟨conv .ulong x * conv .ulong y % 2 ^ 64, by simp only [ceval, hx, hy, ht, max_ulong_left, applyOp, norm], ?_⟩
  rw [ofInt_emod, BitVec.ofInt_mul, ofInt_conv, ofInt_conv]

theorem val_add {env : Env} {a b : Tree Nat} {u v : BitVec 64} (ha : Val env a u) (hb : Val env b v)
    (ht : ty a = .ulong ∨ ty b = .ulong) : Val env (.bin .add a b) (u + v) := by
  obtain ⟨x, hx, rfl⟩ := ha
  obtain ⟨y, hy, rfl⟩ := hb
  have hm : (ty a).max (ty b) = .ulong := by
    rcases ht with h | h
    · rw [h, max_ulong_left]
    · rw [h, max_ulong_right]
  refine ⟨(conv .ulong x + conv .ulong y) % 2 ^ 64, by simp only [ceval, hx, hy, hm, applyOp, norm], ?_⟩
  rw [ofInt_emod, BitVec.ofInt_add, ofInt_conv, ofInt_conv]

/-- a literal which is not the smallest `long` -/
def LitOK (z : Int) : Prop := -2 ^ 63 < z ∧ z < 2 ^ 63

theorem lit_val (env : Env) {z : Int} (h : LitOK z) : ceval env (litTree z) = some z := by
  obtain ⟨h1, h2⟩ := h
  unfold litTree
  by_cases hz : z < 0
  · rw [if_pos hz]
    have h3 : z.natAbs < 2 ^ 63 := by omega
    simp only [ceval, if_pos h3, ty, litTy]
    split
    · simp only [norm]
      rw [if_pos (by omega)]
      congr 1
      omega
    · simp only [norm]
      rw [if_pos (by omega)]
      congr 1
      omega
  · rw [if_neg hz]
    have h3 : z.natAbs < 2 ^ 63 := by omega
    simp only [ceval, if_pos h3]
    congr 1
    omega

theorem lit_ty (z : Int) : ty (litTree z) ≠ .ulong := by
  unfold litTree
  split <;> simp only [ty, litTy] <;> split <;> simp

theorem val_lit (env : Env) {w : BitVec 64} (h : LitOK w.toInt) : Val env (litTree w.toInt) w :=
  ⟨_, lit_val env h, by simp⟩

/-- what printing a linear pattern at `x` relies on -/
structure LinOK (x : Nat) (p : Lin (BitVec 64)) : Prop where
  off : 0 ≤ p.xOffset ∧ p.xOffset ≤ x
  off63 : p.xOffset < 2 ^ 63
  dx : 0 < p.dx ∧ p.dx < 2 ^ 63
  dy : LitOK p.dy.toInt
  b : LitOK p.b.toInt

theorem LinOK.mono {x x' : Nat} {p : Lin (BitVec 64)} (h : LinOK x p) (hx : x ≤ x') : LinOK x' p :=
  ⟨⟨h.off.1, by have := h.off.2; omega⟩, h.off63, h.dx, h.dy, h.b⟩

theorem toInt_zero_iff (w : BitVec 64) : w.toInt = 0 ↔ w = 0 := by
  constructor
  · intro h
    apply BitVec.eq_of_toInt_eq
    rw [h]; rfl
  · rintro rfl; rfl

theorem base_val {env : Env} {i : String} {w : BitVec 64} (hi : env.var i = some w) {xo : Int}
    (h0 : 0 ≤ xo) (h1 : xo ≤ w.toNat) (h2 : xo < 2 ^ 63) :
    ceval env (baseTree xo i) = some ((w.toNat : Int) - xo) ∧ ty (baseTree xo i) = .ulong := by
  have hw : w.toNat < 2 ^ 64 := w.isLt
  unfold baseTree
  by_cases h : xo ≠ 0
  · rw [if_pos h]
    have hl := lit_val env (z := xo) ⟨by omega, h2⟩
    refine ⟨?_, by simp only [ty, max_ulong_left]⟩
    simp only [ceval, hi, Option.map_some, hl, ty, max_ulong_left, applyOp, conv, norm]
    congr 1
    omega
  · rw [if_neg h]
    refine ⟨?_, rfl⟩
    simp only [ceval, hi, Option.map_some]
    congr 1
    omega

theorem div_val {env : Env} {t : Tree Nat} {n : Int} (ht : ceval env t = some n) (hty : ty t = .ulong) (h0 : 0 ≤ n) (h1 : n < 2 ^ 64)
    {dx : Int} (hd : 0 < dx) (hd2 : dx < 2 ^ 63) :
    ceval env (divTree dx t) = some (n.tdiv dx) ∧ ty (divTree dx t) = .ulong := by
  unfold divTree
  by_cases h : dx ≠ 1
  · rw [if_pos h]
    have hl := lit_val env (z := dx) ⟨by omega, hd2⟩
    refine ⟨?_, by simp only [ty, hty, max_ulong_left]⟩
    have e1 : n % 2 ^ 64 = n := Int.emod_eq_of_lt h0 h1
    have e2 : dx % 2 ^ 64 = dx := Int.emod_eq_of_lt (by omega) (by omega)
    simp only [ceval, ht, hl, hty, max_ulong_left, applyOp, conv, norm, e1, e2]
    rw [if_neg (by omega)]
    congr 1
    have h3 : n.tdiv dx = n / dx := Int.tdiv_eq_ediv_of_nonneg h0
    rw [h3]
    refine Int.emod_eq_of_lt (Int.ediv_nonneg h0 (by omega)) ?_
    have := Int.ediv_le_self dx h0
    omega
  · rw [if_neg h]
    have : dx = 1 := by omega
    subst this
    exact ⟨by rw [Int.tdiv_one]; exact ht, hty⟩

/-- the text of a linear pattern computes it -/
theorem linTree_val {env : Env} {i : String} {w : BitVec 64} (hi : env.var i = some w) {p : Lin (BitVec 64)}
    (h : LinOK w.toNat p) : Val env (linTree p i) (p.eval w.toNat) := by
  have hw : w.toNat < 2 ^ 64 := w.isLt
  unfold linTree
  by_cases hdy : p.dy.toInt ≠ 0
  · rw [if_pos hdy]
    obtain ⟨b1, b2⟩ := base_val hi h.off.1 h.off.2 h.off63
    have o1 := h.off.1
    have o2 := h.off.2
    obtain ⟨d1, d2⟩ := div_val b1 b2 (by omega) (by omega) h.dx.1 h.dx.2
    have hd : Val env (divTree p.dx (baseTree p.xOffset i)) (((((w.toNat : Int) - p.xOffset).tdiv p.dx : Int) : BitVec 64)) := ⟨_, d1, rfl⟩
    have hm : Val env (mulTree p.dy.toInt (divTree p.dx (baseTree p.xOffset i)))
        (((((w.toNat : Int) - p.xOffset).tdiv p.dx : Int) : BitVec 64) * p.dy) ∧
        ty (mulTree p.dy.toInt (divTree p.dx (baseTree p.xOffset i))) = .ulong := by
      unfold mulTree
      by_cases h1 : p.dy.toInt ≠ 1
      · rw [if_pos h1]
        exact ⟨val_mul hd (val_lit env h.dy) d2, by simp only [ty, d2, max_ulong_left]⟩
      · rw [if_neg h1]
        have : p.dy = 1 := by
          apply BitVec.eq_of_toInt_eq
          rw [not_not.mp h1]; rfl
        rw [this, mul_one]
        exact ⟨hd, d2⟩
    unfold addTree
    by_cases h2 : p.b.toInt ≠ 0
    · rw [if_pos h2]
      exact val_add hm.1 (val_lit env h.b) (.inl hm.2)
    · rw [if_neg h2]
      have : p.b = 0 := (toInt_zero_iff _).mp (not_not.mp h2)
      unfold Lin.eval
      rw [this, add_zero]
      exact hm.1
  · rw [if_neg hdy]
    have : p.dy = 0 := (toInt_zero_iff _).mp (not_not.mp hdy)
    unfold Lin.eval
    rw [this, mul_zero, zero_add]
    exact val_lit env h.b

/-! ### sections -/

def secTree (i : String) : List (Nat × Lin (BitVec 64)) → Tree Nat
  | [] => .num 0
  | [(_, p)] => linTree p i
  | (_, p) :: (s, q) :: rest => .cond (.paren (.bin .lt (.id i) (.num s))) (linTree p i) (secTree i ((s, q) :: rest))

theorem secTree_toks (i : String) : ∀ secs : List (Nat × Lin (BitVec 64)), secs ≠ [] → (secTree i secs).toks = secToks i secs
  | [], h => absurd rfl h
  | [(_, p)], _ => linTree_toks p i
  | (_, p) :: (s, q) :: rest, _ => by
    simp only [secTree, secToks, Tree.toks, linTree_toks, secTree_toks i ((s, q) :: rest) (by simp)]
    simp

theorem secTree_ok (i : String) : ∀ secs : List (Nat × Lin (BitVec 64)), (secTree i secs).ok 0
  | [] => trivial
  | [(_, p)] => Tree.ok_mono (linTree_ok p i) (by omega)
  | (_, p) :: (s, q) :: rest =>
    ⟨rfl, ⟨by decide, trivial, trivial⟩, Tree.ok_mono (linTree_ok p i) (by omega), secTree_ok i ((s, q) :: rest)⟩

theorem ceval_cond {env : Env} {a b c : Tree Nat} {u v : Int} (h1 : ceval env a = some u)
    (h2 : (if u ≠ 0 then ceval env b else ceval env c) = some v) :
    ceval env (.cond a b c) = some (conv ((ty b).max (ty c)) v) := by
  simp only [ceval, h1, h2]

theorem secTree_val {env : Env} {i : String} {w : BitVec 64} (hi : env.var i = some w) :
    ∀ (secs : List (Nat × Lin (BitVec 64))) (p : Lin (BitVec 64)), (∀ q ∈ secs, q.1 < 2 ^ 63) → lookup secs w.toNat = some p →
      LinOK w.toNat p → Val env (secTree i secs) (p.eval w.toNat)
  | [], _, _, h, _ => by simp [lookup] at h
  | [(s, q)], p, _, h, hok => by
    simp only [lookup] at h
    split at h
    · obtain rfl := Option.some.inj h
      exact linTree_val hi hok
    · simp at h
  | (s0, p0) :: (s, q) :: rest, p, hs, h, hok => by
    have hs0 : s < 2 ^ 63 := hs (s, q) (by simp)
    have hw : w.toNat < 2 ^ 64 := w.isLt
    have hc : ceval env (.paren (.bin .lt (.id i) (.num s))) = some (if w.toNat < s then 1 else 0) := by
      simp only [ceval, hi, Option.map_some, if_pos hs0, ty, max_ulong_left, applyOp, conv]
      have e1 : (w.toNat : Int) % 2 ^ 64 = w.toNat := by omega
      have e2 : (s : Int) % 2 ^ 64 = s := by omega
      rw [e1, e2]
      by_cases hlt : w.toNat < s
      · rw [if_pos hlt, if_pos (by omega)]
      · rw [if_neg hlt, if_neg (by omega)]
    have hval : Val env (if w.toNat < s then linTree p0 i else secTree i ((s, q) :: rest)) (p.eval w.toNat) := by
      by_cases hlt : w.toNat < s
      · rw [if_pos hlt]
        have : lookup ((s, q) :: rest) w.toNat = none := by
          simp only [lookup]; rw [if_neg (by omega)]
        unfold lookup at h
        rw [this] at h
        split at h
        · obtain rfl := Option.some.inj h
          exact linTree_val hi hok
        · simp at h
      · rw [if_neg hlt]
        refine secTree_val hi ((s, q) :: rest) p (fun q' hq' => hs q' (by simp [hq'])) ?_ hok
        unfold lookup at h
        split at h
        · match hl : lookup ((s, q) :: rest) w.toNat, h with
          | some p', h => simpa using h
          | none, h =>
            simp only [lookup] at hl
            rw [if_pos (by omega)] at hl
            split at hl <;> simp at hl
        · simp at h
    obtain ⟨z, hz, e⟩ := hval
    refine ⟨conv ((ty (linTree p0 i)).max (ty (secTree i ((s, q) :: rest)))) z, ?_, by rw [ofInt_conv, e]⟩
    refine ceval_cond hc ?_
    by_cases hlt : w.toNat < s
    · rw [if_pos hlt] at hz
      rw [if_pos hlt, if_pos (by decide), hz]
    · rw [if_neg hlt] at hz
      rw [if_neg hlt, if_neg (by decide), hz]

/-! ### patterns -/

def patTree (name : String) : Pat (BitVec 64) → String → Tree Nat
  | .linear p, i => linTree p i
  | .sectioned secs, i => secTree i secs
  | .random _, i => .idx (.id name) (.id i)

theorem patTree_toks (name : String) (f : Pat (BitVec 64)) (i : String) (h : f ≠ .sectioned []) :
    (patTree name f i).toks = patToks name f i := by
  cases f with
  | linear p => exact linTree_toks p i
  | sectioned secs => exact secTree_toks i secs (fun e => h (by rw [e]))
  | random pts => rfl

theorem patTree_ok (name : String) (f : Pat (BitVec 64)) (i : String) : (patTree name f i).ok 0 := by
  cases f with
  | linear p => exact Tree.ok_mono (linTree_ok p i) (by omega)
  | sectioned secs => exact secTree_ok i secs
  | random pts => exact ⟨trivial, trivial⟩

/-- the pattern is defined at `x` in the way printing relies on, `v` is its value -/
inductive DefAt (env : Env) (name : String) (x : Nat) : Pat (BitVec 64) → BitVec 64 → Prop
  | linear {p : Lin (BitVec 64)} (h : LinOK x p) : DefAt env name x (.linear p) (p.eval x)
  | sectioned {secs : List (Nat × Lin (BitVec 64))} {p : Lin (BitVec 64)} (hk : ∀ q ∈ secs, q.1 < 2 ^ 63)
      (hl : lookup secs x = some p) (h : LinOK x p) : DefAt env name x (.sectioned secs) (p.eval x)
  | random {pts : List (Nat × BitVec 64)} {v : BitVec 64} (h : env.tab1 name x = some v) : DefAt env name x (.random pts) v

theorem patTree_val {env : Env} {i name : String} {w : BitVec 64} (hi : env.var i = some w) {f : Pat (BitVec 64)} {v : BitVec 64}
    (h : DefAt env name w.toNat f v) : Val env (patTree name f i) v := by
  cases h with
  | linear h => exact linTree_val hi h
  | sectioned hk hl h => exact secTree_val hi _ _ hk hl h
  | random h =>
    refine ⟨v.toNat, ?_, by simp⟩
    simp only [patTree, ceval, hi, Option.map_some]
    rw [if_pos (by omega)]
    simp [h]

theorem defAt_ne {env : Env} {name : String} {x : Nat} {f : Pat (BitVec 64)} {v : BitVec 64} (h : DefAt env name x f v) : f ≠ .sectioned [] := by
  cases h with
  | sectioned hk hl h => rintro ⟨⟩; simp [lookup] at hl
  | linear h => simp
  | random h => simp

theorem pat_computes {env : Env} {i name : String} {w : BitVec 64} (hi : env.var i = some w) {f : Pat (BitVec 64)} {v : BitVec 64}
    (h : DefAt env name w.toNat f v) : Computes env (patToks name f i) v := by
  obtain ⟨z, hz, e⟩ := patTree_val hi h
  exact ⟨_, z, by rw [← patTree_toks name f i (defAt_ne h)]; exact reads_of_ok (patTree_ok name f i), hz, e⟩

/-! ### values lie in the range of their type -/

def InRange : Ty → Int → Prop
  | .int, z => -2 ^ 31 ≤ z ∧ z < 2 ^ 31
  | .long, z => -2 ^ 63 ≤ z ∧ z < 2 ^ 63
  | .ulong, z => 0 ≤ z ∧ z < 2 ^ 64

theorem norm_range {t : Ty} {z v : Int} (h : norm t z = some v) : InRange t v := by
  cases t with
  | int => simp only [norm] at h; split at h <;> simp at h; subst h; assumption
  | long => simp only [norm] at h; split at h <;> simp at h; subst h; assumption
  | ulong => simp only [norm, Option.some.injEq] at h; subst h; simp only [InRange]; omega

theorem conv_range {t t' : Ty} {z : Int} (h : InRange t z) (hm : Ty.max t t' = t') : InRange t' (conv t' z) := by
  cases t <;> cases t' <;> simp [Ty.max] at hm <;> simp only [InRange, conv] at h ⊢ <;> omega

theorem max_left (a b : Ty) : Ty.max a (a.max b) = a.max b := by cases a <;> cases b <;> rfl
theorem max_right (a b : Ty) : Ty.max b (a.max b) = a.max b := by cases a <;> cases b <;> rfl

def resTy (t : Ty) : Op → Ty
  | .mul | .div | .add | .sub => t
  | _ => .int

theorem applyOp_range {t : Ty} {o : Op} {a b v : Int} (h : applyOp t o a b = some v) :
    InRange (resTy t o) v := by
  cases o <;> simp only [applyOp] at h
  case mul => exact norm_range h
  case div => split at h; · simp at h
              · exact norm_range h
  case add => exact norm_range h
  case sub => exact norm_range h
  all_goals first
    | (simp at h; done)
    | (simp only [Option.some.injEq] at h; subst h; simp only [resTy]; split <;> simp [InRange])

theorem ceval_range (env : Env) (t : Tree Nat) : ∀ v, ceval env t = some v → InRange (ty t) v := by
  induction t with
  | num c =>
    intro v h
    simp only [ceval] at h
    split at h
    · obtain rfl := Option.some.inj h
      simp only [ty, litTy]
      split <;> simp only [InRange] <;> omega
    · simp at h
  | id s =>
    intro v h
    simp only [ceval, Option.map_eq_some_iff] at h
    obtain ⟨w, _, rfl⟩ := h
    have := w.isLt
    simp only [ty, InRange]
    omega
  | paren t ih => intro v h; exact ih v h
  | neg t ih =>
    intro v h
    simp only [ceval] at h
    split at h
    · exact norm_range h
    · simp at h
  | bin o a b _ _ =>
    intro v h
    simp only [ceval] at h
    split at h
    · have := applyOp_range h
      cases o <;> exact this
    · simp at h
  | cond a b c _ ihb ihc =>
    intro v h
    simp only [ceval] at h
    split at h
    · split at h
      · rename_i z hz
        obtain rfl := Option.some.inj h
        split at hz
        · exact conv_range (ihb _ hz) (max_left ..)
        · exact conv_range (ihc _ hz) (max_right ..)
      · simp at h
    · simp at h
  | call1 f a _ => intro v h; simp [ceval] at h
  | call2 f a b _ _ => intro v h; simp [ceval] at h
  | idx a i _ _ =>
    intro v h
    have fin : ∀ o : Option (BitVec 64), (o.map fun w => (w.toNat : Int)) = some v → InRange (ty (a.idx i)) v := by
      intro o ho
      rw [Option.map_eq_some_iff] at ho
      obtain ⟨w, _, rfl⟩ := ho
      have := w.isLt
      simp only [ty, InRange]
      omega
    cases a with
    | id n =>
      simp only [ceval] at h
      split at h
      · split at h
        · exact fin _ h
        · simp at h
      · simp at h
    | idx a j =>
      cases a with
      | id n =>
        simp only [ceval] at h
        split at h
        · split at h
          · exact fin _ h
          · simp at h
        · simp at h
      | _ => simp [ceval] at h
    | _ => simp [ceval] at h

theorem norm_small {t : Ty} {z : Int} (ht : t ≠ .ulong) (h1 : -2 ^ 31 ≤ z) (h2 : z < 2 ^ 31) : norm t z = some z := by
  cases t with
  | ulong => exact absurd rfl ht
  | int => exact if_pos ⟨h1, h2⟩
  | long => exact if_pos ⟨by omega, by omega⟩

theorem conv_small {t : Ty} (ht : t ≠ .ulong) (z : Int) : conv t z = z := by
  cases t with
  | ulong => exact absurd rfl ht
  | int => rfl
  | long => rfl

/-- a small sum -/
theorem val_add_small {env : Env} {a b : Tree Nat} {u v : BitVec 64} (ha : Val env a u) (hb : Val env b v)
    (hu : -2 ^ 30 ≤ u.toInt ∧ u.toInt < 2 ^ 30) (hv : -2 ^ 30 ≤ v.toInt ∧ v.toInt < 2 ^ 30) :
    Val env (.bin .add a b) (u + v) := by
  by_cases h1 : ty a = .ulong
  · exact val_add ha hb (.inl h1)
  by_cases h2 : ty b = .ulong
  · exact val_add ha hb (.inr h2)
  obtain ⟨x, hx, rfl⟩ := ha
  obtain ⟨y, hy, rfl⟩ := hb
  have rx := ceval_range env a x hx
  have ry := ceval_range env b y hy
  have ex : (BitVec.ofInt 64 x).toInt = x := by
    rw [BitVec.toInt_ofInt]
    apply Int.bmod_eq_of_le
    all_goals (revert rx h1; cases ty a <;> simp [InRange] <;> omega)
  have ey : (BitVec.ofInt 64 y).toInt = y := by
    rw [BitVec.toInt_ofInt]
    apply Int.bmod_eq_of_le
    all_goals (revert ry h2; cases ty b <;> simp [InRange] <;> omega)
  rw [ex] at hu
  rw [ey] at hv
  have hm : (ty a).max (ty b) ≠ .ulong := by
    revert h1 h2; cases ty a <;> cases ty b <;> simp [Ty.max]
  refine ⟨x + y, ?_, by rw [BitVec.ofInt_add]⟩
  simp only [ceval, hx, hy, applyOp, conv_small hm]
  exact norm_small hm (by omega) (by omega)

end Verif.Index
