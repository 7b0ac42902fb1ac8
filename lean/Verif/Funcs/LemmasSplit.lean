import Verif.Funcs.LemmasRun

/-! Helper lemmas: splitting into functions. -/

namespace Verif.Funcs

variable {M L : Type}

/-! ### the text does not depend on where functions start -/

/-- `GenSt.op` changes the code only by appending to it, and does not look at `count` and `funcs` -/
theorem op_code (g : GenSt) (o : Br Op) : ∃ ts, ∀ (code : List (Br Tok)) (count : Nat) (funcs : List (List (Br Tok))),
    (GenSt.op { g with code := code, count := count, funcs := funcs } o).code = code ++ ts ∧
    (GenSt.op { g with code := code, count := count, funcs := funcs } o).funcs = funcs ∧
    (GenSt.op { g with code := code, count := count, funcs := funcs } o).cache = (g.op o).cache ∧
    (GenSt.op { g with code := code, count := count, funcs := funcs } o).loops = (g.op o).loops := by
  cases o with
  | tok t =>
    refine ⟨(opToks g.cache t).1.map .tok, fun code count funcs => ?_⟩
    simp only [GenSt.op_tok]
    exact ⟨trivial, trivial, trivial, trivial⟩
  | forOpen h s => exact ⟨_, fun _ _ _ => ⟨rfl, rfl, rfl, rfl⟩⟩
  | forClose => exact ⟨_, fun _ _ _ => ⟨rfl, rfl, rfl, rfl⟩⟩
  | ifOpen c s => exact ⟨_, fun _ _ _ => ⟨rfl, rfl, rfl, rfl⟩⟩
  | elif c s => exact ⟨_, fun _ _ _ => ⟨rfl, rfl, rfl, rfl⟩⟩
  | els s => exact ⟨_, fun _ _ _ => ⟨rfl, rfl, rfl, rfl⟩⟩
  | ifClose => exact ⟨_, fun _ _ _ => ⟨rfl, rfl, rfl, rfl⟩⟩

/-- same cache and loops, same text so far -/
def SameText (g g' : GenSt) : Prop :=
  g.cache = g'.cache ∧ g.loops = g'.loops ∧ g.funcs.flatten ++ g.code = g'.funcs.flatten ++ g'.code

theorem SameText.save (g : GenSt) : SameText g.save g := ⟨rfl, rfl, by simp [GenSt.save]⟩

theorem SameText.op {g g' : GenSt} (h : SameText g g') (o : Br Op) : SameText (g.op o) (g'.op o) := by
  obtain ⟨h1, h2, h3⟩ := h
  obtain ⟨ts, ht⟩ := op_code g o
  have e' : g' = { g with code := g'.code, count := g'.count, funcs := g'.funcs } := by
    cases g; cases g'; simp_all
  obtain ⟨a1, a2, a3, a4⟩ := ht g.code g.count g.funcs
  obtain ⟨b1, b2, b3, b4⟩ := ht g'.code g'.count g'.funcs
  rw [← e'] at b1 b2 b3 b4
  refine ⟨b3.symm, b4.symm, ?_⟩
  have a1' : (g.op o).code = g.code ++ ts := a1
  have a2' : (g.op o).funcs = g.funcs := a2
  rw [a1', a2', b1, b2, ← List.append_assoc, h3, List.append_assoc]

theorem SameText.trans {g g' g'' : GenSt} (h : SameText g g') (h' : SameText g' g'') : SameText g g'' :=
  ⟨h.1.trans h'.1, h.2.1.trans h'.2.1, h.2.2.trans h'.2.2⟩

theorem SameText.step (limit : Option Nat) {g g' : GenSt} (h : SameText g g') (o : Br Op) :
    SameText (g.step limit o) (g'.step none o) := by
  have h1 : g'.step none o = g'.op o := rfl
  rw [h1]
  cases limit with
  | none => exact h.op o
  | some k =>
    simp only [GenSt.step]
    split
    · exact ((SameText.save g).trans h).op o
    · exact h.op o

theorem SameText.fold (limit : Option Nat) : ∀ (ops : List (Br Op)) {g g' : GenSt}, SameText g g' →
    SameText (ops.foldl (GenSt.step limit) g) (ops.foldl (GenSt.step none) g')
  | [], _, _, h => h
  | o :: ops, _, _, h => SameText.fold limit ops (h.step limit o)

theorem fold_none_funcs : ∀ (ops : List (Br Op)) (g : GenSt), (ops.foldl (GenSt.step none) g).funcs = g.funcs
  | [], _ => rfl
  | o :: ops, g => by
    rw [List.foldl_cons, fold_none_funcs ops]
    show (g.op o).funcs = g.funcs
    obtain ⟨ts, ht⟩ := op_code g o
    exact (ht g.code g.count g.funcs).2.1

theorem fold_funcs_grow (limit : Option Nat) : ∀ (ops : List (Br Op)) (g : GenSt),
    ∃ fs, (ops.foldl (GenSt.step limit) g).funcs = g.funcs ++ fs
  | [], g => ⟨[], by simp⟩
  | o :: ops, g => by
    obtain ⟨fs, h⟩ := fold_funcs_grow limit ops (g.step limit o)
    rw [List.foldl_cons, h]
    have hop : ∀ g' : GenSt, (g'.op o).funcs = g'.funcs := fun g' => by
      obtain ⟨ts, ht⟩ := op_code g' o
      exact (ht g'.code g'.count g'.funcs).2.1
    cases limit with
    | none => exact ⟨fs, by show (g.op o).funcs ++ fs = _; rw [hop]⟩
    | some k =>
      simp only [GenSt.step]
      split
      · exact ⟨g.code :: fs, by rw [hop]; simp [GenSt.save]⟩
      · exact ⟨fs, by rw [hop]⟩

theorem fold_no_funcs (limit : Option Nat) : ∀ (ops : List (Br Op)) (g : GenSt),
    (ops.foldl (GenSt.step limit) g).funcs = [] → ops.foldl (GenSt.step limit) g = ops.foldl (GenSt.step none) g
  | [], _, _ => rfl
  | o :: ops, g, h => by
    rw [List.foldl_cons] at h ⊢
    rw [fold_no_funcs limit ops _ h, List.foldl_cons]
    congr 1
    cases limit with
    | none => rfl
    | some k =>
      have hno : ¬ (g.count ≥ k ∧ g.loops = 0) := by
        intro hc
        obtain ⟨fs, hfs⟩ := fold_funcs_grow (some k) ops (g.step (some k) o)
        rw [h] at hfs
        have : (g.step (some k) o).funcs = g.funcs ++ [g.code] := by
          simp only [GenSt.step, if_pos hc]
          obtain ⟨ts, ht⟩ := op_code g.save o
          exact (ht g.save.code g.save.count g.save.funcs).2.1
        rw [this] at hfs
        simp at hfs
      simp only [GenSt.step, if_neg hno]

/-! ### code after code -/

theorem Code.trans_append : ∀ (d e : Code Op) (c : Cache),
    (d.append e).trans c = ((d.trans c).1.append (e.trans (d.trans c).2).1, (e.trans (d.trans c).2).2)
  | .nil, e, c => by simp [Code.append, Code.trans]
  | .one t r, e, c => by simp [Code.append, Code.trans, Code.trans_append r e, Code.append_assoc]
  | .loop k s b r, e, c => by simp [Code.append, Code.trans, Code.trans_append r e]
  | .ifs k s b a r, e, c => by simp [Code.append, Code.trans, Code.trans_append r e]

theorem Code.all_append {τ : Type} (P : Nat → τ → Prop) (s : Nat) : ∀ (c d : Code τ),
    (c.append d).All P s ↔ c.All P s ∧ d.All P s
  | .nil, d => by simp [Code.append, Code.All]
  | .one t r, d => by simp [Code.append, Code.All, Code.all_append P s r d, and_assoc]
  | .loop k s' b r, d => by simp [Code.append, Code.All, Code.all_append P s r d, and_assoc]
  | .ifs k s' b a r, d => by simp [Code.append, Code.All, Code.all_append P s r d, and_assoc]

theorem Code.scopes_append {τ : Type} : ∀ (c d : Code τ), (c.append d).scopes = c.scopes ++ d.scopes
  | .nil, d => by simp [Code.append, Code.scopes]
  | .one t r, d => by simp [Code.append, Code.scopes, Code.scopes_append r d]
  | .loop k s' b r, d => by simp [Code.append, Code.scopes, Code.scopes_append r d]
  | .ifs k s' b a r, d => by simp [Code.append, Code.scopes, Code.scopes_append r d]

theorem Code.units_append {τ : Type} : ∀ (c d : Code τ), (c.append d).units = c.units ++ d.units
  | .nil, d => by simp [Code.append, Code.units]
  | .one t r, d => by simp [Code.append, Code.units, Code.units_append r d]
  | .loop k s' b r, d => by simp [Code.append, Code.units, Code.units_append r d]
  | .ifs k s' b a r, d => by simp [Code.append, Code.units, Code.units_append r d]

/-- no calls outside of blocks -/
def Code.NoTop : Code Op → Prop
  | .nil => True
  | .one t r => t.NoCall ∧ r.NoTop
  | .loop _ _ _ r => r.NoTop
  | .ifs _ _ _ _ r => r.NoTop

theorem Code.noTop_append : ∀ (c d : Code Op), (c.append d).NoTop ↔ c.NoTop ∧ d.NoTop
  | .nil, d => by simp [Code.append, Code.NoTop]
  | .one t r, d => by simp [Code.append, Code.NoTop, Code.noTop_append r d, and_assoc]
  | .loop k s' b r, d => by simp [Code.append, Code.NoTop, Code.noTop_append r d]
  | .ifs k s' b a r, d => by simp [Code.append, Code.NoTop, Code.noTop_append r d]

theorem Code.Splits.noTop : ∀ {c : Code Op}, c.Splits → c.NoTop
  | .nil, _ => trivial
  | .one t r, h => ⟨by cases t <;> first | trivial | exact h.1.elim, Code.Splits.noTop h.2⟩
  | .loop _ _ _ r, h => Code.Splits.noTop (c := r) h
  | .ifs .., h => h.elim

theorem op_noCall {t : Op} (h : t.NoCall) (c : Cache) : (opToks c t).2 = c := by
  cases t <;> first | rfl | exact h.elim

theorem Code.fill_top : ∀ (d : Code Op) (sc : Nat) (c : Cache), d.All Op.Placed sc → d.NoTop →
    Fill d.scopes c (d.trans c).2
  | .nil, sc, c, _, _ => Fill.refl _ _
  | .one t r, sc, c, h, hn => by
    rw [Code.trans]
    simp only [op_noCall hn.1]
    exact Code.fill_top r sc c h.2 hn.2
  | .loop k s b r, sc, c, h, hn => by
    rw [Code.trans]
    refine (Code.fill b s c h.1).trans (Code.fill_top r sc _ h.2 hn) ?_ ?_
    · intro x hx
      simp only [Code.scopes, List.mem_cons, List.mem_append] at hx ⊢
      rcases hx with rfl | hx
      · simp
      · simp [hx]
    · intro x hx
      simp [Code.scopes, hx]
  | .ifs k s b a r, sc, c, h, hn => by
    rw [Code.trans]
    have h1 := (Code.fill b s c h.1).trans (V := s :: (b.scopes ++ a.scopes)) (Alts.fill a _ h.2.1) (by
      intro x hx
      simp only [List.mem_cons, List.mem_append] at hx ⊢
      rcases hx with rfl | hx
      · simp
      · simp [hx]) (by intro x hx; simp [hx])
    refine h1.trans (Code.fill_top r sc _ h.2.2 hn) ?_ ?_
    · intro x hx
      simp only [Code.scopes, List.mem_cons, List.mem_append] at hx ⊢
      rcases hx with rfl | hx | hx
      · simp
      · simp [hx]
      · simp [hx]
    · intro x hx
      simp [Code.scopes, hx]

/-! ### the operations always have a meaning -/

theorem iter_some {S : Type} (idx : Nat → S → S) (body : S → Option S) (hb : ∀ s, ∃ x, body s = some x) :
    ∀ (n k : Nat) (s : S), ∃ x, iter idx body n k s = some x
  | 0, k, s => ⟨_, rfl⟩
  | n + 1, k, s => by
    obtain ⟨x, hx⟩ := hb (idx k s)
    rw [iter, hx, Option.bind_some]
    exact iter_some idx body hb n (k + 1) x

mutual
theorem Code.spec_some (σ : Sem M L) : ∀ (d : Code Op) (s : M × L), ∃ x, σ.spec.run d s = some x
  | .nil, s => ⟨s, rfl⟩
  | .one t r, s => by
    have : ∃ x, σ.spec.step t s = some x := by cases t <;> exact ⟨_, rfl⟩
    obtain ⟨x, hx⟩ := this
    rw [Machine.run, hx, Option.bind_some]
    exact Code.spec_some σ r x
  | .loop k s' b r, s => by
    obtain ⟨x, hx⟩ := iter_some (σ.spec.index k) (σ.spec.run b) (Code.spec_some σ b) (σ.spec.count k s) 0 s
    rw [Machine.run, hx, Option.bind_some]
    exact Code.spec_some σ r x
  | .ifs k s' b a r, s => by
    have : ∃ x, (if σ.spec.cond k s then σ.spec.run b s else σ.spec.runAlts a s) = some x := by
      split
      · exact Code.spec_some σ b s
      · exact Alts.spec_some σ a s
    obtain ⟨x, hx⟩ := this
    rw [Machine.run, hx, Option.bind_some]
    exact Code.spec_some σ r x
theorem Alts.spec_some (σ : Sem M L) : ∀ (d : Alts Op) (s : M × L), ∃ x, σ.spec.runAlts d s = some x
  | .done, s => ⟨s, rfl⟩
  | .els _ b, s => Code.spec_some σ b s
  | .elif k _ b a, s => by
    rw [Machine.runAlts]
    split
    · exact Code.spec_some σ b s
    · exact Alts.spec_some σ a s
end

/-! ### variables of the functions -/

theorem units_split {τ : Type} (c : Code τ) : c = .nil ∨ ∃ u r, c.units = u :: r.units ∧ c = u.append r := by
  cases c with
  | nil => exact .inl rfl
  | one t r => exact .inr ⟨.one t .nil, r, rfl, rfl⟩
  | loop h s b r => exact .inr ⟨.loop h s b .nil, r, rfl, rfl⟩
  | ifs k s b a r => exact .inr ⟨.ifs k s b a .nil, r, rfl, rfl⟩

theorem effect_append (σ : Sem M L) (c d : Code Op) (m : M) (l : L) :
    σ.effect (c.append d) m l = (σ.spec.run c (m, l)).bind fun x => σ.effect d x.1 x.2 := by
  rw [Sem.effect, Machine.run_append, Option.map_bind]
  rfl

theorem Sem.Local.effect_eq {σ : Sem M L} : ∀ (us : List (Code Op)) (c : Code Op), c.units = us → σ.Local c →
    ∀ m l l', σ.effect c m l = σ.effect c m l'
  | [], c, hu, h, m, l, l' => by
    rcases units_split c with rfl | ⟨u, r, h1, -⟩
    · rfl
    · rw [h1] at hu; cases hu
  | u :: us, c, hu, h, m, l, l' => by
    rcases units_split c with rfl | ⟨v, r, h1, h2⟩
    · cases hu
    rw [h1] at hu
    obtain ⟨rfl, hr⟩ := List.cons.inj hu
    have hl : σ.Local r := fun w hw => h w (by rw [h1]; exact List.mem_cons_of_mem _ hw)
    have ih := Sem.Local.effect_eq us r hr hl
    rw [h2, effect_append, effect_append]
    have hv := h v (by rw [h1]; exact List.mem_cons_self) m l l'
    simp only [Sem.effect] at hv
    obtain ⟨⟨m1, l1⟩, e1⟩ := Code.spec_some σ v (m, l)
    obtain ⟨⟨m2, l2⟩, e2⟩ := Code.spec_some σ v (m, l')
    rw [e1, e2] at hv
    simp only [Option.map_some, Option.some.injEq] at hv
    subst hv
    rw [e1, e2, Option.bind_some, Option.bind_some]
    exact ih m1 l1 l2

theorem Sem.Local.append {σ : Sem M L} {c d : Code Op} : σ.Local (c.append d) ↔ σ.Local c ∧ σ.Local d := by
  simp only [Sem.Local, Code.units_append, List.mem_append]
  exact ⟨fun h => ⟨fun u hu => h u (.inl hu), fun u hu => h u (.inr hu)⟩,
    fun ⟨h1, h2⟩ u hu => hu.elim (h1 u) (h2 u)⟩

def Code.concat : List (Code Op) → Code Op
  | [] => .nil
  | c :: cs => c.append (Code.concat cs)

theorem Code.concat_append : ∀ (cs ds : List (Code Op)), Code.concat (cs ++ ds) = (Code.concat cs).append (Code.concat ds)
  | [], ds => rfl
  | c :: cs, ds => by simp [Code.concat, Code.concat_append cs ds, Code.append_assoc]

/-- bodies of functions, `c` is the cache when the first is started -/
def bodies : Cache → List (Code Op) → List (List (Br Tok))
  | _, [] => []
  | c, d :: ds => (d.trans c).1.text :: bodies (d.trans c).2 ds

theorem bodies_append : ∀ (ds es : List (Code Op)) (c : Cache),
    bodies c (ds ++ es) = bodies c ds ++ bodies ((Code.concat ds).trans c).2 es
  | [], es, c => rfl
  | d :: ds, es, c => by
    simp only [List.cons_append, bodies, Code.concat, Code.trans_append, bodies_append ds es]

theorem calls_ok (σ : Sem M L) (fresh : Nat → L) (sc : Nat) : ∀ (ds : List (Code Op)) (c : Cache),
    (Code.concat ds).All Op.Placed sc → (Code.concat ds).NoTop → (sc :: (Code.concat ds).scopes).Nodup →
    Fresh (sc :: (Code.concat ds).scopes) c → σ.Local (Code.concat ds) →
    ∀ (k : Nat) (m : M) (l : L) (r : Option M),
      σ.Calls fresh k (bodies c ds) m r ↔ r = σ.effect (Code.concat ds) m l
  | [], _, _, _, _, _, _, k, m, l, r => by
    constructor
    · intro h
      cases h
      rfl
    · rintro rfl
      exact .done k m
  | d :: ds, c, hp, ht, hn, hf, hl, k, m, l, r => by
    have hloc := hl
    rw [Code.concat, Sem.Local.append] at hl
    rw [Code.concat, Code.all_append] at hp
    rw [Code.concat, Code.noTop_append] at ht
    rw [Code.concat, Code.scopes_append] at hn hf
    have hn' := hn
    simp only [List.nodup_cons, List.mem_append, not_or, List.nodup_append] at hn
    obtain ⟨⟨n1, n2⟩, n3, n4, n5⟩ := hn
    obtain ⟨⟨m1, l1⟩, A', hx, hg, -, -⟩ := Code.run_ok σ d sc c hp.1 (List.nodup_cons.mpr ⟨n1, n3⟩)
      (fun s e he hm => hf s e he (by simp [hm])) (fun _ => {}) (hf.match List.mem_cons_self _) m (fresh k)
    have hf' : Fresh (sc :: (Code.concat ds).scopes) (d.trans c).2 := by
      refine Fresh.after (T := d.scopes) (fun s e he hm => hf s e he ?_) (Code.fill_top d sc c hp.1 ht.1) ?_
      · simp only [List.mem_cons, List.mem_append] at hm ⊢
        rcases hm with hm | hm
        · exact .inl hm
        · exact .inr (.inr hm)
      · intro x hx hx'
        rcases List.mem_cons.mp hx' with rfl | hx'
        · exact n1 hx
        · exact n5 x hx x hx' rfl
    have he : σ.effect (Code.concat (d :: ds)) m l = σ.effect (Code.concat ds) m1 l1 := by
      rw [Sem.Local.effect_eq _ _ rfl hloc m l (fresh k), Code.concat, effect_append, hx, Option.bind_some]
    have ih := calls_ok σ fresh sc ds (d.trans c).2 hp.2 ht.2 (List.nodup_cons.mpr ⟨n2, n4⟩) hf' hl.2 (k + 1) m1 l1 r
    rw [he, bodies]
    constructor
    · intro h
      cases h with
      | bad _ _ _ _ h =>
        have h := (Machine.runs_text σ.gen _ _ _).mp h
        rw [hg] at h
        cases h
      | next _ _ _ _ s _ h h' =>
        have h := (Machine.runs_text σ.gen _ _ _).mp h
        rw [hg] at h
        obtain rfl := Option.some.inj h
        exact ih.mp h'
    · intro h
      exact .next k _ _ m (m1, l1, A') r ((Machine.runs_text σ.gen _ _ _).mpr hg.symm) (ih.mpr h)

/-! ### where functions start -/

/-- if functions were saved and nothing was counted since then nothing was printed since -/
def GenSt.Inv (g : GenSt) : Prop := g.funcs ≠ [] → g.count = 0 → g.code = []

/-- the state when the functions `ds` were saved, and `d` is the code after that -/
structure Reached (c : Cache) (fs : List (List (Br Tok))) (ds : List (Code Op)) (d : Code Op) (g : GenSt) : Prop where
  loops : g.loops = 0
  funcs : g.funcs = fs ++ bodies c ds
  code : g.code = (d.trans ((Code.concat ds).trans c).2).1.text
  cache : g.cache = (d.trans ((Code.concat ds).trans c).2).2
  inv : g.Inv

theorem Reached.save {c : Cache} {fs : List (List (Br Tok))} {ds : List (Code Op)} {d : Code Op} {g : GenSt}
    (h : Reached c fs ds d g) : Reached c fs (ds ++ [d]) .nil g.save where
  loops := h.loops
  funcs := by
    rw [bodies_append, ← List.append_assoc, ← h.funcs]
    simp only [GenSt.save, bodies, h.code]
  code := rfl
  cache := by
    rw [Code.concat_append, Code.trans_append]
    simp only [Code.concat, Code.append_nil, Code.trans, GenSt.save, h.cache]
  inv := fun _ _ => rfl

/-- the check before each operation -/
theorem Reached.check {c : Cache} {fs : List (List (Br Tok))} {ds : List (Code Op)} {d : Code Op} {g : GenSt}
    (h : Reached c fs ds d g) (k : Nat) (o : Br Op) : ∃ g1 ds1 d1, g.step (some k) o = g1.op o ∧ Reached c fs ds1 d1 g1 ∧
      Code.concat (ds1 ++ [d1]) = Code.concat (ds ++ [d]) := by
  by_cases hsp : g.count ≥ k ∧ g.loops = 0
  · refine ⟨g.save, ds ++ [d], .nil, by simp only [GenSt.step, if_pos hsp], h.save, ?_⟩
    rw [Code.concat_append]
    simp only [Code.concat, Code.append_nil]
  · exact ⟨g, ds, d, by simp only [GenSt.step, if_neg hsp], h, rfl⟩

theorem concat_last (ds : List (Code Op)) (d e : Code Op) :
    Code.concat (ds ++ [d.append e]) = (Code.concat (ds ++ [d])).append e := by
  simp [Code.concat_append, Code.concat, Code.append_nil, Code.append_assoc]

theorem split_fold (k : Nat) (c0 : Cache) (fs : List (List (Br Tok))) : ∀ (c : Code Op) (g : GenSt) (ds : List (Code Op))
    (d : Code Op), c.Splits → Reached c0 fs ds d g →
    ∃ ds' d', Reached c0 fs ds' d' (c.text.foldl (GenSt.step (some k)) g) ∧
      Code.concat (ds' ++ [d']) = (Code.concat (ds ++ [d])).append c
  | .nil, g, ds, d, _, h => ⟨ds, d, h, (Code.append_nil _).symm⟩
  | .one t r, g, ds, d, hs, h => by
    obtain ⟨g1, ds1, d1, e1, e2, e3⟩ := h.check k (.tok t)
    have hr : Reached c0 fs ds1 (d1.append (.one t .nil)) (g1.op (.tok t)) := by
      rw [GenSt.op_tok]
      refine ⟨e2.loops, e2.funcs, ?_, ?_, ?_⟩
      · rw [Code.trans_append, Code.append_text, ← e2.code, ← e2.cache]
        simp [Code.trans, Code.append_nil, Code.ofList_text]
      · rw [Code.trans_append, ← e2.cache]
        simp [Code.trans]
      · intro hf hcount
        simp only at hf hcount ⊢
        have hline : opLines t = 0 := by omega
        have hg0 : g1.count = 0 := by omega
        have hsil : t = .silent := by
          cases t with
          | silent => rfl
          | indexedDep n => exact hs.1.elim
          | plain n j => exact absurd hs.1 (by simp only [Op.Counted, opLines] at *; omega)
          | forward => exact hs.1.elim
          | reverse => exact hs.1.elim
        subst hsil
        rw [e2.inv hf hg0]
        rfl
    obtain ⟨ds', d', f1, f2⟩ := split_fold k c0 fs r _ _ _ hs.2 hr
    refine ⟨ds', d', ?_, ?_⟩
    · rw [Code.text, List.foldl_cons, e1]; exact f1
    · rw [f2, concat_last, e3, Code.append_assoc]
      rfl
  | .loop h s b r, g, ds, d, hs, hR => by
    obtain ⟨g1, ds1, d1, e1, e2, e3⟩ := hR.check k (.forOpen h s)
    have hr : Reached c0 fs ds1 (d1.append (.loop h s b .nil))
        ((b.text ++ [Br.forClose]).foldl (GenSt.step (some k)) (g1.op (.forOpen h s))) := by
      rw [List.foldl_append, Code.fold_noSplit (some k) b _ (.inr (by simp [GenSt.op, GenSt.print]))]
      rw [List.foldl_cons, step_noSplit (.inr (by simp [GenSt.op, GenSt.print]))]
      refine ⟨?_, ?_, ?_, ?_, ?_⟩
      · simp [GenSt.op, GenSt.print, e2.loops]
      · simp [GenSt.op, GenSt.print, e2.funcs]
      · rw [Code.trans_append, Code.append_text, ← e2.code, ← e2.cache]
        simp [GenSt.op, GenSt.print, Code.trans, Code.text]
      · rw [Code.trans_append, ← e2.cache]
        simp [GenSt.op, GenSt.print, Code.trans]
      · intro _ hc
        simp [GenSt.op, GenSt.print] at hc
    obtain ⟨ds', d', f1, f2⟩ := split_fold k c0 fs r _ _ _ hs hr
    have htext : (Code.loop h s b r).text.foldl (GenSt.step (some k)) g = r.text.foldl (GenSt.step (some k))
        ((b.text ++ [Br.forClose]).foldl (GenSt.step (some k)) (g1.op (.forOpen h s))) := by
      rw [Code.text, List.foldl_cons, e1, show b.text ++ Br.forClose :: r.text = (b.text ++ [Br.forClose]) ++ r.text from by simp,
        List.foldl_append]
    rw [htext]
    refine ⟨ds', d', f1, ?_⟩
    rw [f2, concat_last, e3, Code.append_assoc]
    rfl

/-! ### statements given as numbers -/

theorem texts_placed (sc : Nat) : ∀ ns : List Nat, (Code.texts ns).All Op.Placed sc
  | [] => trivial
  | _ :: ns => ⟨⟨trivial, trivial⟩, texts_placed sc ns⟩

theorem texts_scopes : ∀ ns : List Nat, (Code.texts ns).scopes = []
  | [] => rfl
  | _ :: ns => texts_scopes ns

theorem texts_noTop : ∀ ns : List Nat, (Code.texts ns).NoTop
  | [] => trivial
  | _ :: ns => ⟨trivial, texts_noTop ns⟩

theorem texts_trans (c : Cache) : ∀ ns : List Nat,
    ((Code.texts ns).trans c).2 = c ∧ ((Code.texts ns).trans c).1.text = ns.map fun n => .tok (.text n)
  | [] => ⟨rfl, rfl⟩
  | n :: ns => by
    obtain ⟨h1, h2⟩ := texts_trans c ns
    simp only [Code.texts, Code.trans, opToks]
    refine ⟨h1, ?_⟩
    simp [Code.append_text, Code.ofList_text, h2]

theorem text_nil {τ : Type} {c : Code τ} (h : c.text = []) : c = .nil := by
  cases c <;> simp_all [Code.text]

/-! ### sizes of the functions -/

theorem plain_fold (k : Nat) (hk : k > 0) : ∀ (ns : List Nat) (g : GenSt), g.loops = 0 → g.count = g.code.length →
    g.code.length ≤ k → (∀ f ∈ g.funcs, f.length = k) →
    let g' := (ns.map fun n => Br.tok (Op.plain n 1)).foldl (GenSt.step (some k)) g
    g'.loops = 0 ∧ g'.count = g'.code.length ∧ g'.code.length ≤ k ∧ (∀ f ∈ g'.funcs, f.length = k) ∧
      (ns ≠ [] → 0 < g'.code.length)
  | [], g, h1, h2, h3, h4 => ⟨h1, h2, h3, h4, fun h => absurd rfl h⟩
  | n :: ns, g, h1, h2, h3, h4 => by
    have hstep : ∃ g1 : GenSt, g.step (some k) (.tok (.plain n 1)) = g1 ∧ g1.loops = 0 ∧ g1.count = g1.code.length ∧
        g1.code.length ≤ k ∧ (∀ f ∈ g1.funcs, f.length = k) ∧ 0 < g1.code.length := by
      refine ⟨_, rfl, ?_⟩
      by_cases hsp : g.count ≥ k ∧ g.loops = 0
      · simp only [GenSt.step, if_pos hsp, GenSt.op, GenSt.print, GenSt.save]
        refine ⟨h1, by simp, by simp; omega, ?_, by simp⟩
        intro f hf
        simp only [List.mem_append, List.mem_singleton] at hf
        rcases hf with hf | rfl
        · exact h4 f hf
        · omega
      · simp only [GenSt.step, if_neg hsp, GenSt.op, GenSt.print]
        refine ⟨h1, by simp [h2], by simp; omega, h4, by simp⟩
    obtain ⟨g1, e, a1, a2, a3, a4, a5⟩ := hstep
    have ih := plain_fold k hk ns g1 a1 a2 a3 a4
    simp only [List.map_cons, List.foldl_cons, e]
    refine ⟨ih.1, ih.2.1, ih.2.2.1, ih.2.2.2.1, fun _ => ?_⟩
    cases ns with
    | nil => exact a5
    | cons n' ns' => exact ih.2.2.2.2 (by simp)

/-! ### orders of the calls -/

theorem maxOrder_ge : ∀ (l : List Int) (x : Int), x ∈ l → x ≤ maxOrder l := by
  have key : ∀ (l : List Int) (a : Int), a ≤ l.foldl max a ∧ ∀ x ∈ l, x ≤ l.foldl max a := by
    intro l
    induction l with
    | nil => intro a; simp
    | cons b l ih =>
      intro a
      obtain ⟨h1, h2⟩ := ih (max a b)
      simp only [List.foldl_cons]
      refine ⟨by omega, ?_⟩
      intro x hx
      rcases List.mem_cons.mp hx with rfl | hx
      · omega
      · exact h2 x hx
  intro l x hx
  cases l with
  | nil => cases hx
  | cons a r =>
    rcases List.mem_cons.mp hx with rfl | hx
    · exact (key r x).1
    · exact (key r a).2 x hx

/-- the order of the call is covered -/
def Covers (m : MaxOrders) (c : CallInfo) : Prop :=
  if c.fwd then (c.order : Int) ≤ maxOrder m.forward else (c.order : Int) ≤ maxOrder m.reverse

def Above (l l' : List Int) : Prop := l.length = l'.length ∧ ∀ (i : Nat) (x : Int), l[i]? = some x → ∃ y, l'[i]? = some y ∧ x ≤ y

theorem Above.modify (l : List Int) (p : Nat) (o : Int) : Above l (l.modify p (max · o)) := by
  refine ⟨by simp, ?_⟩
  intro i x hx
  rw [List.getElem?_modify, hx]
  by_cases h : p = i
  · simp [h]; omega
  · simp [h]

theorem Above.trans {a b c : List Int} (h : Above a b) (h' : Above b c) : Above a c :=
  ⟨h.1.trans h'.1, fun i x hx => by
    obtain ⟨y, hy, hxy⟩ := h.2 i x hx
    obtain ⟨z, hz, hyz⟩ := h'.2 i y hy
    exact ⟨z, hz, by omega⟩⟩

theorem Above.refl (a : List Int) : Above a a := ⟨rfl, fun _ x hx => ⟨x, hx, by omega⟩⟩

theorem visit_above (m : MaxOrders) (c : CallInfo) : Above m.forward (m.visit c).forward ∧ Above m.reverse (m.visit c).reverse := by
  rw [MaxOrders.visit]
  split
  · exact ⟨Above.modify _ _ _, Above.refl _⟩
  · exact ⟨Above.refl _, Above.modify _ _ _⟩

theorem visits_above : ∀ (cs : List CallInfo) (m : MaxOrders),
    Above m.forward (cs.foldl MaxOrders.visit m).forward ∧ Above m.reverse (cs.foldl MaxOrders.visit m).reverse
  | [], m => ⟨Above.refl _, Above.refl _⟩
  | c :: cs, m => by
    obtain ⟨h1, h2⟩ := visit_above m c
    obtain ⟨h3, h4⟩ := visits_above cs (m.visit c)
    exact ⟨h1.trans h3, h2.trans h4⟩

theorem visits_cover : ∀ (cs : List CallInfo) (m : MaxOrders) (c : CallInfo), c ∈ cs → c.pos < m.forward.length →
    c.pos < m.reverse.length → Covers (cs.foldl MaxOrders.visit m) c
  | [], _, _, h, _, _ => by cases h
  | d :: cs, m, c, h, hf, hr => by
    rcases List.mem_cons.mp h with rfl | h
    · obtain ⟨h3, h4⟩ := visits_above cs (m.visit c)
      rw [Covers, List.foldl_cons]
      by_cases hb : c.fwd = true
      · rw [if_pos hb]
        obtain ⟨y, hy, hxy⟩ := h3.2 c.pos (max (m.forward[c.pos]) c.order) (by
          simp [MaxOrders.visit, hb, List.getElem?_modify, List.getElem?_eq_getElem hf])
        have := maxOrder_ge _ y (List.mem_of_getElem? hy)
        omega
      · rw [if_neg hb]
        obtain ⟨y, hy, hxy⟩ := h4.2 c.pos (max (m.reverse[c.pos]) c.order) (by
          simp [MaxOrders.visit, hb, List.getElem?_modify, List.getElem?_eq_getElem hr])
        have := maxOrder_ge _ y (List.mem_of_getElem? hy)
        omega
    · have ha := visit_above m d
      exact visits_cover cs (m.visit d) c h (by rw [← ha.1.1]; exact hf) (by rw [← ha.2.1]; exact hr)

end Verif.Funcs
