import Verif.Arrays.LemmasAlloc
namespace Verif.Arrays

variable {V : Type}

/-! ### filling an array -/

theorem eval_congr {env : Var → V} {rd rd' : Nat → Nat → V} : ∀ (e : Ex V), (∀ a i, (a, i) ∈ e.reads → rd a i = rd' a i) →
    e.eval env rd = e.eval env rd' := by
  intro e
  induction e with
  | par v => intro _; rfl
  | var w => intro _; rfl
  | elem a i => intro h; exact h a i (by simp [Ex.reads])
  | app f l r ihl ihr =>
    intro h
    simp only [Ex.eval]
    rw [ihl (fun a i hm => h a i (by simp [Ex.reads, hm])), ihr (fun a i hm => h a i (by simp [Ex.reads, hm]))]

theorem runEnd_ok (c : Nat → Bool) (n : Nat) : ∀ (fuel j : Nat), j ≤ runEnd c n fuel j ∧ ∀ k, j ≤ k → k < runEnd c n fuel j → k < n ∧ c k = true := by
  intro fuel
  induction fuel with
  | zero => intro j; exact ⟨Nat.le_refl _, fun k h1 h2 => by simp only [runEnd] at h2; omega⟩
  | succ fuel ih =>
    intro j
    rw [runEnd]
    split
    · rename_i h
      obtain ⟨h1, h2⟩ := ih (j + 1)
      refine ⟨by omega, fun k h3 h4 => ?_⟩
      by_cases hk : k = j
      · subst hk; exact h
      · exact h2 k (by omega) h4
    · exact ⟨Nat.le_refl _, fun k h1 h2 => by omega⟩

/-- what the elements stored by a loop are -/
def Fill.value (lp : V → V) (env : Var → V) : Fill V → Nat → V
  | .const v, _ => lp v
  | .vars w, k => env (w.plus k)

theorem doFill_ok (lp : V → V) (start i : Nat) (f : Fill V) : ∀ (k : Nat) (s : Pr V),
    (doFill lp start i f k s).env = s.env ∧ (doFill lp start i f k s).cache = s.cache ∧
      ∀ c, (doFill lp start i f k s).mem c = if start + i ≤ c ∧ c < start + i + k then f.value lp s.env (c - (start + i)) else s.mem c := by
  intro k
  induction k with
  | zero => intro s; exact ⟨rfl, rfl, fun c => by rw [if_neg (by omega)]; rfl⟩
  | succ k ih =>
    intro s
    obtain ⟨h1, h2, h3⟩ := ih s
    unfold doFill
    refine ⟨h1, h2, fun c => ?_⟩
    simp only [setCell]
    by_cases hc : c = start + i + k
    · rw [if_pos hc, if_pos (by omega)]
      have : c - (start + i) = k := by omega
      rw [this]
      cases f with
      | const v => rfl
      | vars w => simp only [Fill.value]; rw [h1]
    · rw [if_neg hc, h3 c]
      by_cases hc' : start + i ≤ c ∧ c < start + i + k
      · rw [if_pos hc', if_pos (by omega)]
      · rw [if_neg hc', if_neg (by omega)]

/-- the value of argument `j` of a new array -/
def argVal (node : Nat → Ex V) (env : Var → V) (rd : Nat → Nat → V) (x : Arg V) : V := (x.ex node).eval env rd

theorem plus_next {w w' : Var} {k : Nat} (h : nextVar (w.plus k) = some w') : w' = w.plus (k + 1) := by
  cases w <;> simp [Var.plus, nextVar] at h ⊢ <;> exact h.symm

theorem useLoop_ok {node : Nat → Ex V} {eq : V → V → Bool} (heq : ∀ a b, eq a b = true → a = b) {cache : Nat → Option (Arg V)}
    {start : Nat} {args : List (Arg V)} {lp : V → V} (hlp : ∀ v, Arg.par v ∈ args → lp v = v)
    {i e : Nat} {f : Fill V} (h : useLoop node eq cache start args i = some (e, f)) (env : Var → V) (rd : Nat → Nat → V) :
    i < e ∧ ∀ j, i ≤ j → j < e → ∃ x, args[j]? = some x ∧ argVal node env rd x = f.value lp env (j - i) := by
  unfold useLoop at h
  cases hx : args[i]? with
  | none => rw [hx] at h; cases h
  | some x =>
    rw [hx] at h
    cases x with
    | par value =>
      simp only at h
      split at h
      · cases h
      · cases h
        obtain ⟨h1, h2⟩ := runEnd_ok (inConst eq cache start args value) args.length args.length (i + 1)
        refine ⟨by omega, fun j hj hj' => ?_⟩
        have hval : lp value = value := hlp value (List.mem_of_getElem? hx)
        by_cases hji : j = i
        · subst hji
          exact ⟨_, hx, hval.symm⟩
        · obtain ⟨_, h4⟩ := h2 j (by omega) hj'
          unfold inConst at h4
          cases hy : args[j]? with
          | none => rw [hy] at h4; cases h4
          | some y =>
            rw [hy] at h4
            cases y with
            | op m => cases h4
            | par u =>
              simp only [Bool.and_eq_true] at h4
              have := heq _ _ h4.1
              subst this
              exact ⟨_, rfl, hval.symm⟩
    | op n =>
      simp only at h
      have key : ∀ w, node n = .var w →
          (if runEnd (inVars node eq cache start args) args.length args.length (i + 1) - i < 3 then none
            else some (runEnd (inVars node eq cache start args) args.length args.length (i + 1), Fill.vars w)) = some (e, f) →
          i < e ∧ ∀ j, i ≤ j → j < e → ∃ x, args[j]? = some x ∧ argVal node env rd x = f.value lp env (j - i) := by
        intro w hw h
        split at h
        · cases h
        · cases h
          obtain ⟨h1, h2⟩ := runEnd_ok (inVars node eq cache start args) args.length args.length (i + 1)
          have hall : ∀ k, i + k < runEnd (inVars node eq cache start args) args.length args.length (i + 1) →
              ∃ x, args[i + k]? = some x ∧ x.ex node = .var (w.plus k) := by
            intro k
            induction k with
            | zero => intro _; exact ⟨_, hx, by cases w <;> exact hw⟩
            | succ k ih =>
              intro hk
              obtain ⟨x', hx', he'⟩ := ih (by omega)
              obtain ⟨_, h4⟩ := h2 (i + (k + 1)) (by omega) hk
              unfold inVars at h4
              cases hy : args[i + (k + 1)]? with
              | none => rw [hy] at h4; cases h4
              | some y =>
                rw [hy] at h4
                cases y with
                | par u => cases h4
                | op m =>
                  simp only at h4
                  split at h4
                  · cases h4
                  · have e1 : i + (k + 1) - 1 = i + k := by omega
                    rw [e1] at h4
                    unfold exAt at h4
                    rw [hx', Option.map_some, he'] at h4
                    cases hm : node m with
                    | var w2 =>
                      rw [hm] at h4
                      simp only [beq_iff_eq] at h4
                      exact ⟨_, rfl, by rw [Arg.ex, hm, plus_next h4]⟩
                    | par u => rw [hm] at h4; cases h4
                    | elem a b => rw [hm] at h4; cases h4
                    | app g l r => rw [hm] at h4; cases h4
          refine ⟨by omega, fun j hj hj' => ?_⟩
          obtain ⟨x, hx1, hx2⟩ := hall (j - i) (by omega)
          rw [show i + (j - i) = j by omega] at hx1
          exact ⟨x, hx1, by unfold argVal; rw [hx2]; rfl⟩
      cases hw : node n with
      | var w =>
        rw [hw] at h
        cases w with
        | y k => cases h
        | x k => exact key _ hw h
        | v k => exact key _ hw h
      | par u => rw [hw] at h; cases h
      | elem a b => rw [hw] at h; cases h
      | app g l r => rw [hw] at h; cases h

/-- every remembered argument is in its cell -/
def CacheOk (val : Nat → V) (t : Pr V) : Prop :=
  ∀ c x, t.cache c = some x → t.mem c = match x with
    | .par v => v
    | .op n => val n

theorem fillArray_ok {node : Nat → Ex V} {eq : V → V → Bool} (heq : ∀ a b, eq a b = true → a = b) {id : Nat → Nat} {start : Nat}
    {args : List (Arg V)} {lp : V → V} (hlp : ∀ v, Arg.par v ∈ args → lp v = v) {val : Nat → V} {env : Var → V} {m0 : Nat → V}
    (hval : ∀ n, Arg.op n ∈ args → (node n).eval env (fun a k => m0 (id a - 1 + k)) = val n)
    (hread : ∀ x ∈ args, ∀ a i, (a, i) ∈ (x.ex node).reads → ¬ InRange start args.length (id a - 1 + i)) :
    ∀ (fuel i : Nat) (t : Pr V), args.length - i ≤ fuel → i ≤ args.length → t.env = env → CacheOk val t →
      (∀ c, ¬ InRange start args.length c → t.mem c = m0 c) →
      (∀ j x, j < i → args[j]? = some x → t.mem (start + j) = argVal node env (fun a k => m0 (id a - 1 + k)) x) →
      (fillArray node eq lp id start args fuel i t).env = env ∧ CacheOk val (fillArray node eq lp id start args fuel i t) ∧
        (∀ c, ¬ InRange start args.length c → (fillArray node eq lp id start args fuel i t).mem c = m0 c) ∧
        (∀ j x, args[j]? = some x → (fillArray node eq lp id start args fuel i t).mem (start + j) =
          argVal node env (fun a k => m0 (id a - 1 + k)) x) := by
  -- the value of an argument as the cache describes it
  have hav : ∀ x ∈ args, argVal node env (fun a k => m0 (id a - 1 + k)) x = match x with
      | .par v => v
      | .op n => val n := by
    intro x hx
    cases x with
    | par v => rfl
    | op n => exact hval n hx
  intro fuel
  induction fuel with
  | zero =>
    intro i t h1 h2 h3 h4 h5 h6
    refine ⟨h3, h4, h5, fun j x hx => h6 j x ?_ hx⟩
    have := (List.getElem?_eq_some_iff.mp hx).1
    omega
  | succ fuel ih =>
    intro i t h1 h2 h3 h4 h5 h6
    rw [fillArray]
    cases hx : args[i]? with
    | none =>
      refine ⟨h3, h4, h5, fun j x hjx => h6 j x ?_ hjx⟩
      have := (List.getElem?_eq_some_iff.mp hjx).1
      have := List.getElem?_eq_none_iff.mp hx
      omega
    | some x =>
      simp only
      have hxm := List.mem_of_getElem? hx
      have hlt := (List.getElem?_eq_some_iff.mp hx).1
      split
      · rename_i hs
        refine ih (i + 1) t (by omega) (by omega) h3 h4 h5 (fun j y hj hy => ?_)
        by_cases hji : j = i
        · subst hji
          rw [hx] at hy
          cases hy
          rw [hav x hxm]
          cases hc : t.cache (start + j) with
          | none => rw [hc] at hs; cases x <;> cases hs
          | some z =>
            rw [h4 _ _ hc]
            rw [hc] at hs
            cases x with
            | par b =>
              cases z with
              | par a => exact (heq _ _ hs).symm
              | op m => cases hs
            | op n =>
              cases z with
              | par a => cases hs
              | op m =>
                have : n = m := by simpa [isSame] using hs
                rw [this]
        · exact h6 j y (by omega) hy
      · cases hu : useLoop node eq t.cache start args i with
        | some q =>
          obtain ⟨e, f⟩ := q
          simp only
          obtain ⟨hie, hall⟩ := useLoop_ok heq hlp hu env (fun a k => m0 (id a - 1 + k))
          obtain ⟨d1, d2, d3⟩ := doFill_ok lp start i f (e - i) t
          have hen : e ≤ args.length := by
            obtain ⟨y, hy, _⟩ := hall (e - 1) (by omega) (by omega)
            have := (List.getElem?_eq_some_iff.mp hy).1
            omega
          have hnew : ∀ j y, i ≤ j → j < e → args[j]? = some y →
              (doFill lp start i f (e - i) t).mem (start + j) = argVal node env (fun a k => m0 (id a - 1 + k)) y := by
            intro j y hj hj' hy
            obtain ⟨y', hy', hv⟩ := hall j hj hj'
            rw [hy] at hy'
            cases hy'
            rw [d3, if_pos (by omega), hv, h3]
            congr 1
            omega
          refine ih e _ (by omega) hen (d1.trans h3) ?_ ?_ ?_
          · intro c z hz
            simp only [remember] at hz ⊢
            split at hz
            · rename_i hc
              have hzm := List.mem_of_getElem? hz
              have := hnew (c - start) z (by omega) (by omega) hz
              rw [show start + (c - start) = c by omega] at this
              rw [this, hav z hzm]
            · rename_i hc
              rw [d3, if_neg (by omega)]
              exact h4 c z hz
          · intro c hc
            simp only
            rw [d3, if_neg ?_]
            · exact h5 c hc
            · intro hc'
              exact hc ⟨by omega, by omega⟩
          · intro j y hj hy
            simp only
            by_cases hji : i ≤ j
            · exact hnew j y hji hj hy
            · rw [d3, if_neg (by omega)]
              exact h6 j y (by omega) hy
        | none =>
          simp only
          have hv : (x.ex node).eval t.env (fun a k => t.mem (id a - 1 + k)) = argVal node env (fun a k => m0 (id a - 1 + k)) x := by
            unfold argVal
            rw [h3]
            exact eval_congr _ (fun a k hk => h5 _ (hread x hxm a k hk))
          rw [hv]
          refine ih (i + 1) _ (by omega) (by omega) h3 ?_ ?_ ?_
          · intro c z hz
            simp only [setCell] at hz ⊢
            by_cases hc : c = start + i
            · rw [if_pos hc] at hz ⊢
              cases hz
              exact hav x hxm
            · rw [if_neg hc] at hz ⊢
              exact h4 c z hz
          · intro c hc
            simp only [setCell]
            rw [if_neg]
            · exact h5 c hc
            · rintro rfl
              exact hc ⟨by omega, by omega⟩
          · intro j y hj hy
            simp only [setCell]
            by_cases hji : j = i
            · subst hji
              rw [hx] at hy
              cases hy
              rw [if_pos rfl]
            · rw [if_neg (by omega)]
              exact h6 j y (by omega) hy

/-! ### the whole program -/

/-- the printed program and the one with separate arrays agree before step `p` -/
structure Agree (prog : List (Step V)) (last : Nat → Nat) (id : Nat → Nat) (val : Nat → V) (p : Nat) (s : St V) (t : Pr V) : Prop where
  env : t.env = s.env
  arr : ∀ a q, q < p → CreatedAt prog a q → p < last a → ∀ i, i < sizeOf' prog a → t.mem (id a - 1 + i) = s.arr a i
  cache : CacheOk val t

theorem step_agree {node : Nat → Ex V} {prog : List (Step V)} {last : Nat → Nat} (hl : Lifetimes node prog last) {eq : V → V → Bool}
    (heq : ∀ a b, eq a b = true → a = b) {lp : V → V} {id : Nat → Nat} {c : Comp V} (hP : Placed node prog last 0 c id) {val : Nat → V}
    {p : Nat} {st : Step V} (hst : prog[p]? = some st) {s : St V} {t : Pr V} (h : Agree prog last id val p s t)
    (hlp : ∀ b args, st = .create b args → ∀ v, Arg.par v ∈ args → lp v = v)
    (hval : ∀ b args, st = .create b args → ∀ n, Arg.op n ∈ args → (node n).eval s.env s.arr = val n)
    (hnest : ∀ b args, st = .create b args → ∀ x ∈ args, (∃ a i, x.ex node = .elem a i) ∨ ∀ a i, (a, i) ∈ (x.ex node).reads → p + 1 < last a) :
    Agree prog last id val (p + 1) (st.run node (sizeOf' prog) s) (st.runP node eq lp (sizeOf' prog) id t) := by
  have hone : (arraysOf prog).Nodup := hl.once
  -- elements read by this step
  have hrd : ∀ a i, (a, i) ∈ st.reads node → t.mem (id a - 1 + i) = s.arr a i := by
    intro a i hm
    have hu : a ∈ st.uses node := by
      cases st with
      | assign w e => exact List.mem_map.mpr ⟨_, hm, rfl⟩
      | create b args => exact List.mem_map.mpr ⟨_, hm, rfl⟩
      | call tx ty f => simp [Step.reads] at hm
    obtain ⟨⟨q, hq, hc⟩, h1⟩ := hl.used p st hst a hu
    exact h.arr a q hq hc (by omega) i (hl.inside p st hst a i hm)
  cases st with
  | assign w e =>
    have hnoc : ∀ a, ¬ CreatedAt prog a p := by
      rintro a ⟨args, h'⟩
      rw [hst] at h'
      cases h'
    refine ⟨?_, ?_, ?_⟩
    · simp only [Step.runP, Step.run]
      rw [h.env, eval_congr (rd' := s.arr) e (fun a i hm => hrd a i hm)]
    · intro a q hq hc hlast i hi
      have : q ≠ p := fun e' => hnoc a (e' ▸ hc)
      exact h.arr a q (by omega) hc (by omega) i hi
    · intro c' z hz
      apply h.cache c' z
      simp only [Step.runP] at hz
      cases e with
      | elem a i =>
        simp only [forget, setCell] at hz
        split at hz
        · cases hz
        · exact hz
      | par v => exact hz
      | var w' => exact hz
      | app g l r => exact hz
  | call tx ty f =>
    have hnoc : ∀ a, ¬ CreatedAt prog a p := by
      rintro a ⟨args, h'⟩
      rw [hst] at h'
      cases h'
    obtain ⟨⟨qy, hqy, hcy⟩, hly⟩ := hl.used p _ hst ty (by simp [Step.uses])
    have hargs : (tx.map fun a => (List.range (sizeOf' prog a)).map fun k => t.mem (id a - 1 + k)) =
        tx.map fun a => (List.range (sizeOf' prog a)).map (s.arr a) := by
      apply List.map_congr_left
      intro a ha
      obtain ⟨⟨q, hq, hc⟩, h1⟩ := hl.used p _ hst a (by simp [Step.uses, ha])
      apply List.map_congr_left
      intro k hk
      exact h.arr a q hq hc (by omega) k (List.mem_range.mp hk)
    refine ⟨h.env, ?_, ?_⟩
    · intro a q hq hc hlast i hi
      have hqp : q ≠ p := fun e' => hnoc a (e' ▸ hc)
      simp only [Step.runP, Step.run, setRange, setArr]
      by_cases hay : a = ty
      · subst hay
        rw [if_pos (by omega), if_pos ⟨rfl, hi⟩, hargs]
        congr 1
        omega
      · have hne : ¬ (a = ty ∧ i < sizeOf' prog ty) := fun e1 => hay e1.1
        rw [if_neg hne]
        have hap : ∀ c', InRange (id a - 1) (sizeOf' prog a) c' → ¬ InRange (id ty - 1) (sizeOf' prog ty) c' := by
          rcases Nat.lt_trichotomy q qy with h1 | h1 | h1
          · exact hP.apart a ty q qy h1 (Nat.zero_le _) hc hcy (by omega)
          · subst h1
            obtain ⟨a1, e1⟩ := hc
            obtain ⟨a2, e2⟩ := hcy
            rw [e1] at e2
            cases e2
            exact absurd rfl hay
          · exact fun c' hc1 hc2 => hP.apart ty a qy q h1 (Nat.zero_le _) hcy hc (by omega) c' hc2 hc1
        have hnr : ¬ (id ty - 1 ≤ id a - 1 + i ∧ id a - 1 + i < id ty - 1 + sizeOf' prog ty) := hap (id a - 1 + i) ⟨by omega, by omega⟩
        rw [if_neg hnr]
        exact h.arr a q (by omega) hc (by omega) i hi
    · intro c' z hz
      simp only [Step.runP, setRange] at hz ⊢
      split at hz
      · cases hz
      · rename_i hc
        rw [if_neg hc]
        exact h.cache c' z hz
  | create b args =>
    have hsz : sizeOf' prog b = args.length := by unfold sizeOf'; rw [argsOf_eq hone hst]
    have hcb : CreatedAt prog b p := ⟨args, hst⟩
    -- the new array is apart from arrays used later
    have hnewap : ∀ a q, q < p → CreatedAt prog a q → p + 1 < last a → ∀ c', InRange (id a - 1) (sizeOf' prog a) c' →
        ¬ InRange (id b - 1) args.length c' := by
      intro a q hq hc h1
      have := hP.apart a b q p hq (Nat.zero_le _) hc hcb h1
      rw [hsz] at this
      exact this
    have hreads : ∀ x ∈ args, ∀ a i, (a, i) ∈ (x.ex node).reads → (a, i) ∈ (Step.create b args).reads node :=
      fun x hx a i hm => List.mem_flatMap.mpr ⟨x, hx, hm⟩
    have hread : ∀ x ∈ args, ∀ a i, (a, i) ∈ (x.ex node).reads → ¬ InRange (id b - 1) args.length (id a - 1 + i) := by
      intro x hx a i hm
      have hm' := hreads x hx a i hm
      rcases hnest b args rfl x hx with ⟨a', i', he⟩ | hlive
      · rw [he] at hm
        simp only [Ex.reads, List.mem_singleton, Prod.mk.injEq] at hm
        obtain ⟨rfl, rfl⟩ := hm
        have := hP.direct b p args (Nat.zero_le _) hst x hx a i he
        rw [hsz] at this
        exact this
      · obtain ⟨⟨q, hq, hc⟩, _⟩ := hl.used p _ hst a (List.mem_map.mpr ⟨_, hm', rfl⟩)
        exact hnewap a q hq hc (hlive a i hm) _ ⟨by omega, by have := hl.inside p _ hst a i hm'; omega⟩
    have hev : ∀ x ∈ args, argVal node s.env (fun a k => t.mem (id a - 1 + k)) x = (x.ex node).eval s.env s.arr :=
      fun x hx => eval_congr _ (fun a i hm => hrd a i (hreads x hx a i hm))
    obtain ⟨f1, f2, f3, f4⟩ := fillArray_ok (node := node) heq (id := id) (start := id b - 1) (args := args) (lp := lp) (hlp b args rfl)
      (val := val) (env := s.env) (m0 := t.mem) (fun n hn => by
        rw [← hval b args rfl n hn]
        exact hev (.op n) hn) hread args.length 0 t (by omega) (by omega) h.env h.cache (fun _ _ => rfl) (fun j x hj => by omega)
    refine ⟨f1, ?_, f2⟩
    intro a q hq hc hlast i hi
    simp only [Step.runP, Step.run, setArr]
    by_cases hab : a = b
    · subst hab
      rw [hsz] at hi
      rw [if_pos ⟨rfl, hi⟩]
      rw [List.getElem?_eq_getElem hi]
      simp only
      rw [f4 i _ (List.getElem?_eq_getElem hi), hev _ (List.getElem_mem hi)]
    · rw [if_neg (by rintro ⟨e1, _⟩; exact hab e1)]
      have hqp : q ≠ p := by
        rintro rfl
        obtain ⟨args', e'⟩ := hc
        rw [hst] at e'
        cases e'
        exact hab rfl
      rw [f3 _ (hnewap a q (by omega) hc (by omega) _ ⟨by omega, by omega⟩)]
      exact h.arr a q (by omega) hc (by omega) i hi

end Verif.Arrays
