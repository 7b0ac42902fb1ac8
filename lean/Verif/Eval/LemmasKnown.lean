import Verif.Eval.ModelKnown

/-
Lemmas for C85.
-/
namespace Verif.Eval.Known

variable {A : Type}

theorem processArray_spec : ∀ (es : List (El A)) (vs : List A) (d ap : Bool),
    match es.mapM El.value with
    | some l => (processArray es vs d ap).1 = vs ++ l ∧ (processArray es vs d ap).2.1 = d
    | none => (processArray es vs d ap).2.1 = false
  | [], vs, d, ap => by simp [processArray]
  | e :: es, vs, d, ap => by
    rw [List.mapM_cons, processArray]
    cases he : e.value with
    | none => rfl
    | some v =>
      have ih := processArray_spec es (vs ++ [v]) d (if e.param then ap else false)
      cases hm : es.mapM El.value with
      | none =>
        rw [hm] at ih
        exact ih
      | some l =>
        rw [hm] at ih
        exact ⟨by rw [ih.1]; simp, ih.2⟩

theorem processArgs_spec : ∀ (as : List (List (El A))) (vals : List (List A)) (d ap : Bool),
    match as.mapM (fun (a : List (El A)) => a.mapM El.value) with
    | some l => ((d = true → (processArgs as vals d ap).1 = vals ++ l)) ∧ (processArgs as vals d ap).2.1 = d
    | none => (processArgs as vals d ap).2.1 = false
  | [], vals, d, ap => by simp [processArgs]
  | a :: as, vals, d, ap => by
    rw [List.mapM_cons, processArgs]
    have h1 := processArray_spec a [] d ap
    have ih := processArgs_spec as (vals ++ [(processArray a [] d ap).1]) (processArray a [] d ap).2.1 (processArray a [] d ap).2.2
    cases ha : a.mapM El.value with
    | none =>
      rw [ha] at h1
      simp only at h1
      rw [h1] at ih
      show (processArgs as (vals ++ [(processArray a [] d ap).1]) (processArray a [] d ap).2.1 (processArray a [] d ap).2.2).2.1 = false
      rw [h1]
      cases hm : as.mapM (fun (a : List (El A)) => a.mapM El.value) with
      | none => rw [hm] at ih; exact ih
      | some l => rw [hm] at ih; exact ih.2
    | some v =>
      rw [ha] at h1
      obtain ⟨h2, h3⟩ := h1
      cases hm : as.mapM (fun (a : List (El A)) => a.mapM El.value) with
      | none => rw [hm] at ih; exact ih
      | some l =>
        rw [hm] at ih
        refine ⟨fun hd => ?_, ih.2.trans h3⟩
        have := ih.1 (h3.trans hd)
        rw [this, h2]
        simp

theorem taylor_zero (tx : List A) : taylor 0 [tx] = tx := by
  have : ∀ l : List A, (List.range l.length).flatMap (fun j => (List.range 1).filterMap fun k => ([l][k]?).bind (·[j]?)) = l := by
    intro l
    have h1 : (fun (j : Nat) => (List.range 1).filterMap fun k => ([l][k]?).bind (·[j]?)) = fun (j : Nat) => (l[j]?).toList := by
      funext j
      show List.filterMap (fun k => ([l][k]?).bind (·[j]?)) [0] = _
      cases h : l[j]? <;> simp [h]
    rw [h1]
    induction l with
    | nil => rfl
    | cons a l ih =>
      rw [List.length_cons, List.range_succ_eq_map, List.flatMap_cons, List.flatMap_map]
      simp only [List.getElem?_cons_zero, Option.toList_some, List.getElem?_cons_succ]
      rw [ih]
      · rfl
      · funext j
        show List.filterMap (fun k => ([l][k]?).bind (·[j]?)) [0] = _
        cases h : l[j]? <;> simp [h]
  exact this tx

/-- the calls of an evaluation are of order zero, with arrays for arguments and results, and available functions succeed -/
def Simple (fns : Funs A) (c : Call A) : Prop :=
  c.p = 0 ∧ c.args.length = 2 ∧ ∀ f, fns c.id = some f → ∀ q tx n, ∃ l, f q 0 tx n = some l

theorem evalCall_spec (fns : Funs A) (c : Call A) (hc : Simple fns c) (t : Nat) (cache cache' : Cache A) (h0 : cache t = none) (h : evalCall fns c t cache = some cache') :
    (∀ i, (cache' t).bind (·[i]?) = expected fns c 0 i) ∧ ∀ m, m ≠ t → cache' m = cache m := by
  obtain ⟨hp, hlen, hf⟩ := hc
  have hs := processArgs_spec c.args [] true true
  rw [evalCall] at h
  cases hm : c.args.mapM (fun (a : List (El A)) => a.mapM El.value) with
  | none =>
    rw [hm] at hs
    simp only at hs
    rw [hs] at h
    cases h
    refine ⟨fun i => ?_, fun _ _ => rfl⟩
    rw [h0, expected, hm]
    cases c.forward <;> rfl
  | some vals =>
    rw [hm] at hs
    obtain ⟨h1, h2⟩ := hs
    have h1 := h1 rfl
    rw [h2, h1, List.nil_append] at h
    simp only [if_true] at h
    cases hfw : c.forward with
    | false =>
      rw [hfw] at h
      cases h
      exact ⟨fun i => by rw [h0, expected, hfw]; rfl, fun _ _ => rfl⟩
    | true =>
      rw [hfw] at h
      simp only [if_true] at h
      cases hfn : fns c.id with
      | none =>
        rw [hfn] at h
        simp only at h
        split at h
        · cases h
        · cases h
          refine ⟨fun i => ?_, fun _ _ => rfl⟩
          rw [h0, expected, hfw, hm, hfn]
          rfl
      | some f =>
        rw [hfn] at h
        simp only [Option.some.injEq] at h
        have hl2 : vals.length = 2 := by
          have : ∀ (as : List (List (El A))) (l : List (List A)), as.mapM (fun (a : List (El A)) => a.mapM El.value) = some l → l.length = as.length := by
            intro as
            induction as with
            | nil => intro l hl; cases hl; rfl
            | cons a as ih =>
              intro l hl
              rw [List.mapM_cons] at hl
              cases ha : a.mapM El.value with
              | none => rw [ha] at hl; cases hl
              | some v =>
                cases has : as.mapM (fun (a : List (El A)) => a.mapM El.value) with
                | none => rw [ha, has] at hl; cases hl
                | some l' =>
                  rw [ha, has] at hl
                  cases hl
                  rw [List.length_cons, List.length_cons, ih l' has]
          rw [this _ _ hm, hlen]
        obtain ⟨tx, ty, rfl⟩ : ∃ tx ty, vals = [tx, ty] := by
          match vals, hl2 with
          | [tx, ty], _ => exact ⟨tx, ty, rfl⟩
        obtain ⟨l, hl⟩ := hf f hfn c.q tx ty.length
        rw [hp] at h
        have hl' : f c.q 0 (([tx, ty] : List (List A)).getD 0 []) (([tx, ty] : List (List A)).getD 1 []).length = some l := hl
        rw [hl'] at h
        subst h
        refine ⟨fun i => ?_, fun m hm => by simp [hm]⟩
        rw [expected, hfw, hm, hfn, hp]
        simp only [if_true, Option.bind_some]
        have : taylor 0 (([tx, ty] : List (List A)).take (0 + 1)) = tx := taylor_zero tx
        rw [this]
        have : f c.q 0 tx ((0 + 1) * (([tx, ty] : List (List A)).getD (0 + 1) []).length) = some l := by
          rw [Nat.zero_add, Nat.one_mul]
          exact hl
        rw [this]
        simp

theorem run_spec (fns : Funs A) (calls : Nat → Call A) : ∀ (rs : List Req) (saved : List Nat) (cache cache' : Cache A) (vs : List (Option A)),
    (∀ t k i, Req.elem t k i ∈ rs → Simple fns (calls t) ∧ k = 0) →
    (∀ t, t ∈ saved → ∀ i, (cache t).bind (·[i]?) = expected fns (calls t) 0 i) → (∀ t, t ∉ saved → cache t = none) →
    run fns calls rs saved cache = (some vs, cache') →
    ∃ es : List (Nat × Nat × Nat), rs = es.map (fun e => .elem e.1 e.2.1 e.2.2) ∧ vs = es.map fun e => expected fns (calls e.1) e.2.1 e.2.2
  | [], _, _, _, _, _, _, _, h => by cases h; exact ⟨[], rfl, rfl⟩
  | .fail :: _, _, _, _, _, _, _, _, h => by cases h
  | .elem t k i :: rs, saved, cache, cache', vs, hs, h1, h2, h => by
    obtain ⟨hc, rfl⟩ := hs t k i (by simp)
    rw [run] at h
    cases he : evalElem fns calls t i saved cache with
    | none => rw [he] at h; cases h
    | some r =>
      obtain ⟨v, cache1⟩ := r
      rw [he] at h
      simp only at h
      have key : v = expected fns (calls t) 0 i ∧ (∀ j, (cache1 t).bind (·[j]?) = expected fns (calls t) 0 j) ∧ ∀ m, m ≠ t → cache1 m = cache m := by
        rw [evalElem] at he
        by_cases hm : t ∈ saved
        · rw [if_pos hm] at he
          simp only [Option.some.injEq, Prod.mk.injEq] at he
          obtain ⟨rfl, rfl⟩ := he
          exact ⟨h1 t hm i, h1 t hm, fun _ _ => rfl⟩
        · rw [if_neg hm] at he
          cases hcall : evalCall fns (calls t) t cache with
          | none => rw [hcall] at he; cases he
          | some c =>
            rw [hcall] at he
            simp only [Option.some.injEq, Prod.mk.injEq] at he
            obtain ⟨rfl, rfl⟩ := he
            obtain ⟨h3, h4⟩ := evalCall_spec fns (calls t) hc t cache c (h2 t hm) hcall
            exact ⟨h3 i, h3, h4⟩
      obtain ⟨h3, h4, h5⟩ := key
      cases hr : run fns calls rs (t :: saved) cache1 with
      | mk r cache2 =>
        rw [hr] at h
        cases r with
        | none => cases h
        | some vs' =>
          simp only [Prod.mk.injEq, Option.some.injEq] at h
          obtain ⟨rfl, -⟩ := h
          obtain ⟨es, h6, h7⟩ := run_spec fns calls rs (t :: saved) cache1 cache2 vs' (fun t k i ht => hs t k i (by simp [ht]))
            (fun m hm => by
              by_cases e : m = t
              · rw [e]; exact h4
              · rw [h5 m e]; exact h1 m ((List.mem_cons.1 hm).resolve_left e))
            (fun m hm => by
              rw [List.mem_cons, not_or] at hm
              rw [h5 m hm.1]; exact h2 m hm.2) hr
          exact ⟨(t, 0, i) :: es, by rw [h6]; rfl, by rw [h7, h3]; rfl⟩

end Verif.Eval.Known
