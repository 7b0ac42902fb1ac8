import Verif.Dae.Model
import Mathlib.Data.List.Nodup
namespace Verif.Dae

/-- the graph is well formed: edges are recorded on both sides, deleted variables have no edges, links to
derivatives are mutual -/
structure W (g : BG) : Prop where
  nodup : ∀ i, (g.e i).orig.Nodup
  vars : ∀ i, (g.e i).vars = (g.e i).orig.filter fun j => !(g.v j).deleted
  eqs : ∀ i j, i ∈ (g.v j).eqs ↔ j ∈ (g.e i).vars
  bound : ∀ i j, j ∈ (g.e i).orig → j < g.nv
  fresh : ∀ i, g.ne ≤ i → (g.e i).orig = []
  link : ∀ j d, (g.v j).deriv = some d → j < g.nv ∧ d < g.nv ∧ (g.v d).anti = some j
  unlink : ∀ j d, d < g.nv → (g.v d).anti = some j → (g.v j).deriv = some d
  param : ∀ j, (g.v j).param = false
  deleted : ∀ j, (g.v j).deleted = true → (g.v j).deriv ≠ none

theorem setV_v {g : BG} {j k : Nat} {f : VN → VN} : (g.setV j f).v k = if k = j then f (g.v k) else g.v k := rfl
theorem setV_e {g : BG} {j : Nat} {f : VN → VN} : (g.setV j f).e = g.e := rfl
theorem setE_e {g : BG} {j k : Nat} {f : EN → EN} : (g.setE j f).e k = if k = j then f (g.e k) else g.e k := rfl
theorem setE_v {g : BG} {j : Nat} {f : EN → EN} : (g.setE j f).v = g.v := rfl

/-! ### deletion -/

theorem deleteFold_v : ∀ (l : List Nat) (g : BG) (j : Nat),
    (l.foldl (fun g i => g.setE i fun n => { n with vars := n.vars.erase j }) g).v = g.v ∧
    (l.foldl (fun g i => g.setE i fun n => { n with vars := n.vars.erase j }) g).nv = g.nv ∧
    (l.foldl (fun g i => g.setE i fun n => { n with vars := n.vars.erase j }) g).ne = g.ne := by
  intro l
  induction l with
  | nil => intro g j; exact ⟨rfl, rfl, rfl⟩
  | cons a l ih =>
    intro g j
    rw [List.foldl_cons]
    exact ih (g.setE a _) j

/-- erasing a variable from some equations, once it is in no other -/
theorem deleteFold_e : ∀ (l : List Nat) (g : BG) (j : Nat), (∀ i, (g.e i).vars.Nodup) →
    ∀ i, ((l.foldl (fun g i => g.setE i fun n => { n with vars := n.vars.erase j }) g).e i) =
      if i ∈ l then { g.e i with vars := (g.e i).vars.erase j } else g.e i := by
  intro l
  induction l with
  | nil => intro g j _ i; simp
  | cons a l ih =>
    intro g j hn i
    rw [List.foldl_cons, ih _ _ ?_]
    · by_cases hi : i = a
      · subst hi
        have hno : ((g.e i).vars.erase j).erase j = (g.e i).vars.erase j :=
          List.erase_of_not_mem ((hn i).not_mem_erase)
        by_cases hl : i ∈ l
        · rw [if_pos hl, if_pos List.mem_cons_self, setE_e, if_pos rfl]
          simp only [hno]
        · rw [if_neg hl, if_pos List.mem_cons_self, setE_e, if_pos rfl]
      · have : (i ∈ a :: l) ↔ i ∈ l := by rw [List.mem_cons]; exact ⟨fun h => h.resolve_left hi, .inr⟩
        simp only [this]
        rw [setE_e, if_neg hi]
    · intro k
      rw [setE_e]
      split
      · exact (hn k).erase j
      · exact hn k

theorem W.varsNodup {g : BG} (h : W g) (i : Nat) : (g.e i).vars.Nodup := by
  rw [h.vars]; exact (h.nodup i).filter _

theorem deleteV_v {g : BG} {j k : Nat} : (g.deleteV j).v k = if k = j then { g.v k with deleted := true, eqs := [] } else g.v k := by
  unfold BG.deleteV
  simp only
  rw [setV_v, (deleteFold_v _ _ _).1]
  by_cases hk : k = j
  · rw [if_pos hk, if_pos hk, setV_v, if_pos hk]
  · rw [if_neg hk, if_neg hk, setV_v, if_neg hk]

theorem deleteV_e {g : BG} (h : W g) {j i : Nat} : (g.deleteV j).e i = { g.e i with vars := (g.e i).vars.erase j } := by
  unfold BG.deleteV
  simp only
  rw [setV_e, deleteFold_e (g.v j).eqs (g.setV j fun n => { n with deleted := true }) j (fun i => h.varsNodup i)]
  show (if i ∈ (g.v j).eqs then { g.e i with vars := (g.e i).vars.erase j } else g.e i) = _
  split
  · rfl
  · rename_i hi
    rw [h.eqs] at hi
    rw [List.erase_of_not_mem hi]

theorem deleteV_n {g : BG} {j : Nat} : (g.deleteV j).nv = g.nv ∧ (g.deleteV j).ne = g.ne := by
  unfold BG.deleteV
  have := deleteFold_v (g.v j).eqs (g.setV j fun n => { n with deleted := true }) j
  exact ⟨this.2.1, this.2.2⟩

theorem W.deleteV {g : BG} (h : W g) {j : Nat} (hj : (g.v j).deriv ≠ none) : W (g.deleteV j) := by
  have hderiv : ∀ k, ((g.deleteV j).v k).deriv = (g.v k).deriv := by intro k; rw [deleteV_v]; split <;> rfl
  have hanti : ∀ k, ((g.deleteV j).v k).anti = (g.v k).anti := by intro k; rw [deleteV_v]; split <;> rfl
  have horig : ∀ i, ((g.deleteV j).e i).orig = (g.e i).orig := by intro i; rw [deleteV_e h]
  refine ⟨fun i => by rw [horig]; exact h.nodup i, ?_, ?_, fun i k hk => ?_, fun i hi => ?_, ?_, ?_, ?_, ?_⟩
  · intro i
    rw [horig, deleteV_e h]
    show (g.e i).vars.erase j = _
    rw [(h.varsNodup i).erase_eq_filter, h.vars, List.filter_filter]
    refine List.filter_congr fun k _ => ?_
    rw [deleteV_v]
    by_cases hk : k = j
    · subst hk; simp
    · rw [if_neg hk]; simp [hk]
  · intro i k
    rw [deleteV_e h, deleteV_v]
    show _ ↔ k ∈ (g.e i).vars.erase j
    rw [(h.varsNodup i).mem_erase_iff]
    split
    · rename_i hk; simp [hk]
    · rename_i hk
      rw [h.eqs]
      exact ⟨fun a => ⟨hk, a⟩, fun a => a.2⟩
  · rw [horig] at hk; rw [deleteV_n.1]; exact h.bound i k hk
  · rw [deleteV_n.2] at hi; rw [horig]; exact h.fresh i hi
  · intro k d hk
    rw [hderiv] at hk
    rw [deleteV_n.1, hanti]
    exact h.link k d hk
  · intro k d hd hk
    rw [deleteV_n.1] at hd
    rw [hanti] at hk
    rw [hderiv]
    exact h.unlink k d hd hk
  · intro k; rw [deleteV_v]; split <;> exact h.param k
  · intro k hk
    rw [hderiv]
    rw [deleteV_v] at hk
    split at hk
    · rename_i hkj; rw [hkj]; exact hj
    · exact h.deleted k hk

/-- the graph without edges to variables which have a derivative -/
structure Pruned (g g' : BG) : Prop where
  nv : g'.nv = g.nv
  ne : g'.ne = g.ne
  va : ∀ j, (g'.v j).assign = (g.v j).assign
  ea : ∀ i, (g'.e i).assign = (g.e i).assign
  deriv : ∀ j, (g'.v j).deriv = (g.v j).deriv
  anti : ∀ j, (g'.v j).anti = (g.v j).anti
  orig : ∀ i, (g'.e i).orig = (g.e i).orig
  diff : ∀ i, (g'.e i).diff = (g.e i).diff
  diffOf : ∀ i, (g'.e i).diffOf = (g.e i).diffOf

theorem Pruned.refl (g : BG) : Pruned g g :=
  ⟨rfl, rfl, fun _ => rfl, fun _ => rfl, fun _ => rfl, fun _ => rfl, fun _ => rfl, fun _ => rfl, fun _ => rfl⟩

theorem Pruned.trans {a b c : BG} (h : Pruned a b) (h' : Pruned b c) : Pruned a c :=
  ⟨h'.nv.trans h.nv, h'.ne.trans h.ne, fun j => (h'.va j).trans (h.va j), fun j => (h'.ea j).trans (h.ea j),
    fun j => (h'.deriv j).trans (h.deriv j), fun j => (h'.anti j).trans (h.anti j), fun i => (h'.orig i).trans (h.orig i),
    fun i => (h'.diff i).trans (h.diff i), fun i => (h'.diffOf i).trans (h.diffOf i)⟩

theorem pruned_deleteV {g : BG} (h : W g) (j : Nat) : Pruned g (g.deleteV j) := by
  refine ⟨deleteV_n.1, deleteV_n.2, ?_, ?_, ?_, ?_, ?_, ?_, ?_⟩ <;> intro k
  · rw [deleteV_v]; split <;> rfl
  · rw [deleteV_e h]
  · rw [deleteV_v]; split <;> rfl
  · rw [deleteV_v]; split <;> rfl
  · rw [deleteV_e h]
  · rw [deleteV_e h]
  · rw [deleteV_e h]

theorem deleteDerived_fold : ∀ (l : List Nat) (g : BG), W g →
    let g' := l.foldl (fun g j => if !(g.v j).deleted && (g.v j).deriv.isSome then g.deleteV j else g) g
    W g' ∧ Pruned g g' ∧ (∀ j, (g.v j).deleted = true → (g'.v j).deleted = true) ∧
      ∀ j ∈ l, (g.v j).deriv ≠ none → (g'.v j).deleted = true := by
  intro l
  induction l with
  | nil => intro g h; exact ⟨h, Pruned.refl g, fun _ h => h, fun j hj => by cases hj⟩
  | cons a l ih =>
    intro g h
    simp only [List.foldl_cons]
    by_cases hc : (!(g.v a).deleted && (g.v a).deriv.isSome) = true
    · rw [if_pos hc]
      simp only [Bool.and_eq_true, Bool.not_eq_true'] at hc
      obtain ⟨h1, h2, h3, h4⟩ := ih (g.deleteV a) (h.deleteV (by
        intro e; rw [e] at hc; simp at hc))
      refine ⟨h1, (pruned_deleteV h a).trans h2, ?_, ?_⟩
      · intro j hj
        refine h3 j ?_
        rw [deleteV_v]; split
        · rfl
        · exact hj
      · intro j hj hd
        rcases List.mem_cons.mp hj with rfl | hj
        · exact h3 j (by rw [deleteV_v, if_pos rfl])
        · exact h4 j hj (by rw [(pruned_deleteV h a).deriv]; exact hd)
    · rw [if_neg hc]
      obtain ⟨h1, h2, h3, h4⟩ := ih g h
      refine ⟨h1, h2, h3, ?_⟩
      intro j hj hd
      rcases List.mem_cons.mp hj with rfl | hj
      · refine h3 j ?_
        cases hdel : (g.v j).deleted with
        | true => rfl
        | false =>
          exfalso
          obtain ⟨d, hd⟩ := Option.ne_none_iff_exists'.mp hd
          rw [hdel, hd] at hc; simp at hc
      · exact h4 j hj hd

theorem deleteDerived_ok {g : BG} (h : W g) : W (deleteDerived g) ∧ Pruned g (deleteDerived g) ∧
    ∀ j, ((deleteDerived g).v j).deleted = true ↔ ((deleteDerived g).v j).deriv ≠ none := by
  obtain ⟨h1, h2, _, h4⟩ := deleteDerived_fold (List.range g.nv) g h
  refine ⟨h1, h2, fun j => ⟨h1.deleted j, fun hd => ?_⟩⟩
  have hd' : (g.v j).deriv ≠ none := by rw [← h2.deriv]; exact hd
  obtain ⟨d, hd''⟩ := Option.ne_none_iff_exists'.mp hd'
  exact h4 j (List.mem_range.mpr (h.link j d hd'').1) hd'

theorem uncolorAll_ok {g : BG} (h : W g) : W g.uncolorAll ∧ Pruned g g.uncolorAll :=
  ⟨⟨h.nodup, h.vars, h.eqs, h.bound, h.fresh, h.link, h.unlink, h.param, h.deleted⟩,
    ⟨rfl, rfl, fun _ => rfl, fun _ => rfl, fun _ => rfl, fun _ => rfl, fun _ => rfl, fun _ => rfl, fun _ => rfl⟩⟩

/-! ### new edges -/

theorem addVariable_n {g : BG} {i j : Nat} : (g.addVariable i j).nv = g.nv ∧ (g.addVariable i j).ne = g.ne := by
  unfold BG.addVariable
  split
  · exact ⟨rfl, rfl⟩
  · simp only; split <;> exact ⟨rfl, rfl⟩

theorem addVariable_v {g : BG} {i j k : Nat} : (g.addVariable i j).v k =
    if k = j ∧ j ∉ (g.e i).orig ∧ (g.v j).deleted = false then { g.v k with eqs := (g.v k).eqs ++ [i] } else g.v k := by
  unfold BG.addVariable
  by_cases ho : j ∈ (g.e i).orig
  · simp [ho]
  · simp only [ho, if_false]
    by_cases hd : (g.v j).deleted = true
    · simp only [hd, if_true, setE_v]
      rw [if_neg (by simp)]
    · have : (g.v j).deleted = false := by simpa using hd
      simp only [this, Bool.false_eq_true, if_false]
      rw [setV_v, setE_v, setE_v]
      by_cases hk : k = j
      · subst hk; rw [if_pos rfl, if_pos (by simp)]
      · rw [if_neg hk, if_neg (fun h => hk h.1)]

theorem addVariable_e {g : BG} {i j k : Nat} : (g.addVariable i j).e k =
    if k = i ∧ j ∉ (g.e i).orig then
      { g.e k with orig := (g.e k).orig ++ [j], vars := if (g.v j).deleted then (g.e k).vars else (g.e k).vars ++ [j] }
    else g.e k := by
  unfold BG.addVariable
  by_cases ho : j ∈ (g.e i).orig
  · simp [ho]
  · simp only [ho, if_false]
    by_cases hd : (g.v j).deleted = true
    · simp only [hd, if_true]
      rw [setE_e]
      by_cases hk : k = i
      · simp [hk]
      · simp [hk]
    · have : (g.v j).deleted = false := by simpa using hd
      simp only [this, Bool.false_eq_true, if_false]
      rw [setV_e, setE_e, setE_e]
      by_cases hk : k = i
      · simp [hk]
      · simp [hk]

theorem W.addVariable {g : BG} (h : W g) {i j : Nat} (hi : i < g.ne) (hj : j < g.nv) : W (g.addVariable i j) := by
  by_cases ho : j ∈ (g.e i).orig
  · have : g.addVariable i j = g := by unfold BG.addVariable; rw [if_pos ho]
    rw [this]; exact h
  have hdel : ∀ k, ((g.addVariable i j).v k).deleted = (g.v k).deleted := by intro k; rw [addVariable_v]; split <;> rfl
  have hderiv : ∀ k, ((g.addVariable i j).v k).deriv = (g.v k).deriv := by intro k; rw [addVariable_v]; split <;> rfl
  have hanti : ∀ k, ((g.addVariable i j).v k).anti = (g.v k).anti := by intro k; rw [addVariable_v]; split <;> rfl
  refine ⟨?_, ?_, ?_, ?_, ?_, ?_, ?_, ?_, ?_⟩
  · intro k
    rw [addVariable_e]
    split
    · rename_i hk
      obtain ⟨rfl, _⟩ := hk
      show ((g.e k).orig ++ [j]).Nodup
      rw [List.nodup_append]
      refine ⟨h.nodup k, by simp, ?_⟩
      intro a ha b hb
      rw [List.mem_singleton] at hb
      rintro rfl
      exact ho (hb ▸ ha)
    · exact h.nodup k
  · intro k
    have : (fun x => !((g.addVariable i j).v x).deleted) = fun x => !(g.v x).deleted := by funext x; rw [hdel]
    rw [this, addVariable_e]
    split
    · rename_i hk
      obtain ⟨rfl, _⟩ := hk
      show (if (g.v j).deleted then (g.e k).vars else (g.e k).vars ++ [j]) = ((g.e k).orig ++ [j]).filter _
      rw [List.filter_append, h.vars]
      cases hd : (g.v j).deleted <;> simp [hd]
    · exact h.vars k
  · intro a b
    rw [addVariable_v, addVariable_e]
    by_cases hd : (g.v j).deleted = true
    · rw [if_neg (by simp [hd])]
      rw [h.eqs]
      split
      · rename_i ha
        simp [hd]
      · rfl
    · have hd' : (g.v j).deleted = false := by simpa using hd
      by_cases hb : b = j
      · subst hb
        rw [if_pos ⟨rfl, ho, hd'⟩]
        simp only [List.mem_append, List.mem_singleton, h.eqs]
        by_cases ha : a = i
        · subst ha
          rw [if_pos ⟨rfl, ho⟩]
          simp [hd']
        · rw [if_neg (fun x => ha x.1)]
          simp [ha]
      · rw [if_neg (fun x => hb x.1), h.eqs]
        split
        · simp [hd', hb]
        · rfl
  · intro a b hb
    rw [addVariable_n.1]
    rw [addVariable_e] at hb
    split at hb
    · rcases List.mem_append.mp hb with hb | hb
      · exact h.bound a b hb
      · rw [List.mem_singleton] at hb; omega
    · exact h.bound a b hb
  · intro a ha
    rw [addVariable_n.2] at ha
    rw [addVariable_e, if_neg (fun x => by omega)]
    exact h.fresh a ha
  · intro a d hk
    rw [hderiv] at hk
    rw [addVariable_n.1, hanti]
    exact h.link a d hk
  · intro a d hd hk
    rw [addVariable_n.1] at hd
    rw [hanti] at hk
    rw [hderiv]
    exact h.unlink a d hd hk
  · intro k; rw [addVariable_v]; split <;> exact h.param k
  · intro k hk
    rw [hderiv]; rw [hdel] at hk
    exact h.deleted k hk

/-- only edges of equation `d` were added -/
structure Edges (d : Nat) (g g' : BG) : Prop where
  nv : g'.nv = g.nv
  ne : g'.ne = g.ne
  v : ∀ j, { g'.v j with eqs := (g.v j).eqs } = g.v j
  e : ∀ i, i ≠ d → g'.e i = g.e i
  ed : { g'.e d with orig := (g.e d).orig, vars := (g.e d).vars } = g.e d

theorem Edges.refl (d : Nat) (g : BG) : Edges d g g := ⟨rfl, rfl, fun _ => rfl, fun _ _ => rfl, rfl⟩

theorem Edges.fields {d : Nat} {g g' : BG} (h : Edges d g g') (j : Nat) :
    (g'.v j).colored = (g.v j).colored ∧ (g'.v j).deleted = (g.v j).deleted ∧ (g'.v j).assign = (g.v j).assign ∧
    (g'.v j).deriv = (g.v j).deriv ∧ (g'.v j).anti = (g.v j).anti ∧ (g'.v j).param = (g.v j).param := by
  have := h.v j
  refine ⟨?_, ?_, ?_, ?_, ?_, ?_⟩ <;> (rw [← this])

theorem Edges.fieldsE {d : Nat} {g g' : BG} (h : Edges d g g') (i : Nat) :
    (g'.e i).colored = (g.e i).colored ∧ (g'.e i).assign = (g.e i).assign ∧ (g'.e i).diff = (g.e i).diff ∧
    (g'.e i).diffOf = (g.e i).diffOf := by
  by_cases hi : i = d
  · subst hi
    have := h.ed
    refine ⟨?_, ?_, ?_, ?_⟩ <;> (rw [← this])
  · rw [h.e i hi]; exact ⟨rfl, rfl, rfl, rfl⟩

theorem Edges.trans {d : Nat} {a b c : BG} (h : Edges d a b) (h' : Edges d b c) : Edges d a c := by
  refine ⟨h'.nv.trans h.nv, h'.ne.trans h.ne, fun j => ?_, fun i hi => (h'.e i hi).trans (h.e i hi), ?_⟩
  · rw [← h.v j, ← h'.v j]
  · rw [← h.ed, ← h'.ed]

theorem edges_addVariable (g : BG) (d j : Nat) : Edges d g (g.addVariable d j) := by
  refine ⟨addVariable_n.1, addVariable_n.2, fun k => ?_, fun i hi => ?_, ?_⟩
  · rw [addVariable_v]; split <;> rfl
  · rw [addVariable_e, if_neg (fun x => hi x.1)]
  · rw [addVariable_e]; split <;> rfl

theorem addVariable_orig {g : BG} {d j k : Nat} : k ∈ ((g.addVariable d j).e d).orig ↔ k ∈ (g.e d).orig ∨ k = j := by
  rw [addVariable_e]
  split
  · simp
  · rename_i h
    have : j ∈ (g.e d).orig := by simpa using h
    constructor
    · exact .inl
    · rintro (h | rfl)
      · exact h
      · exact this

/-- differentiation of an equation when all of its variables have derivatives -/
theorem dirty_fold {d : Nat} : ∀ (js : List Nat) (g : BG), W g → d < g.ne → (∀ j ∈ js, ∃ dj, (g.v j).deriv = some dj) →
    W (js.foldl (BG.dirtyVar true d) g) ∧ Edges d g (js.foldl (BG.dirtyVar true d) g) ∧
    ∀ k, k ∈ ((js.foldl (BG.dirtyVar true d) g).e d).orig ↔
      k ∈ (g.e d).orig ∨ k ∈ js ∨ ∃ j ∈ js, (g.v j).deriv = some k := by
  intro js
  induction js with
  | nil => intro g h _ _; exact ⟨h, Edges.refl d g, fun k => by simp⟩
  | cons a js ih =>
    intro g h hd hj
    obtain ⟨da, hda⟩ := hj a List.mem_cons_self
    obtain ⟨l1, l2, l3⟩ := h.link a da hda
    rw [List.foldl_cons]
    have hE1 := edges_addVariable g d a
    have hW1 := h.addVariable (i := d) (j := a) hd l1
    have hstep : BG.dirtyVar true d g a = (g.addVariable d a).addVariable d da := by
      unfold BG.dirtyVar
      simp only [if_true]
      rw [(hE1.fields a).2.2.2.1, hda]
    rw [hstep]
    have hE2 := edges_addVariable (g.addVariable d a) d da
    have hE := hE1.trans hE2
    have hW2 := hW1.addVariable (i := d) (j := da) (by rw [hE1.ne]; exact hd) (by rw [hE1.nv]; exact l2)
    obtain ⟨h1, h2, h3⟩ := ih _ hW2 (by rw [hE.ne]; exact hd) (fun j hj' => by
      rw [(hE.fields j).2.2.2.1]; exact hj j (List.mem_cons_of_mem _ hj'))
    refine ⟨h1, hE.trans h2, fun k => ?_⟩
    rw [h3, addVariable_orig, addVariable_orig]
    have : ∀ j, (((g.addVariable d a).addVariable d da).v j).deriv = (g.v j).deriv := fun j => (hE.fields j).2.2.2.1
    simp only [this, List.mem_cons]
    constructor
    · rintro (((h | h) | h) | h | ⟨j, h, h'⟩)
      · exact .inl h
      · exact .inr (.inl (.inl h))
      · exact .inr (.inr ⟨a, .inl rfl, by rw [h]; exact hda⟩)
      · exact .inr (.inl (.inr h))
      · exact .inr (.inr ⟨j, .inr h, h'⟩)
    · rintro (h | (h | h) | ⟨j, rfl | h, h'⟩)
      · exact .inl (.inl (.inl h))
      · exact .inl (.inl (.inr h))
      · exact .inr (.inl h)
      · rw [hda] at h'; exact .inl (.inr (Option.some.inj h').symm)
      · exact .inr (.inr ⟨j, h, h'⟩)

/-! ### new variables -/

theorem derivV_none {g : BG} {j : Nat} (h : (g.v j).deriv = none) : g.derivV j =
    (g.nv, { (g.setV j fun n => { n with deriv := some g.nv }).setV g.nv (fun _ => { anti := some j }) with nv := g.nv + 1 }) := by
  unfold BG.derivV; rw [h]

/-- the graph with the derivative of `j` -/
theorem W.derivV {g : BG} (h : W g) {j : Nat} (hj : j < g.nv) (hd : (g.v j).deriv = none) : W (g.derivV j).2 := by
  rw [derivV_none hd]
  simp only
  have hv : ∀ k, ((g.setV j fun n => { n with deriv := some g.nv }).setV g.nv (fun _ => { anti := some j })).v k =
      if k = g.nv then { anti := some j } else if k = j then { g.v k with deriv := some g.nv } else g.v k := by
    intro k; rw [setV_v, setV_v]
  have hndel : (g.v j).deleted = false := by
    cases hh : (g.v j).deleted with
    | false => rfl
    | true => exact absurd hd (h.deleted j hh)
  have hnew : ∀ i, g.nv ∉ (g.e i).orig := fun i hi => by have := h.bound i _ hi; omega
  have hdel : ∀ i, ∀ k ∈ (g.e i).orig, ((({ (g.setV j fun n => { n with deriv := some g.nv }).setV g.nv
      (fun _ => { anti := some j }) with nv := g.nv + 1 } : BG).v k).deleted) = (g.v k).deleted := by
    intro i k hk
    have := h.bound i k hk
    show (((g.setV j fun n => { n with deriv := some g.nv }).setV g.nv (fun _ => { anti := some j })).v k).deleted = _
    rw [hv, if_neg (by omega)]
    split <;> rfl
  refine ⟨h.nodup, ?_, ?_, ?_, h.fresh, ?_, ?_, ?_, ?_⟩
  · intro i
    show (g.e i).vars = _
    rw [h.vars]
    refine List.filter_congr fun k hk => ?_
    rw [hdel i k hk]
  · intro i k
    show i ∈ (((g.setV j fun n => { n with deriv := some g.nv }).setV g.nv (fun _ => { anti := some j })).v k).eqs ↔ k ∈ (g.e i).vars
    rw [hv]
    split
    · rename_i hk
      rw [h.vars, List.mem_filter, hk]
      simp [hnew i]
    · split <;> exact h.eqs i k
  · intro i k hk
    have := h.bound i k hk
    show k < g.nv + 1
    omega
  · intro a d had
    change (((g.setV j fun n => { n with deriv := some g.nv }).setV g.nv (fun _ => { anti := some j })).v a).deriv = some d at had
    show a < g.nv + 1 ∧ d < g.nv + 1 ∧
      (((g.setV j fun n => { n with deriv := some g.nv }).setV g.nv (fun _ => { anti := some j })).v d).anti = some a
    rw [hv] at had ⊢
    split at had
    · cases had
    · split at had
      · rename_i ha; cases had
        exact ⟨by omega, by omega, by rw [if_pos rfl, ha]⟩
      · obtain ⟨l1, l2, l3⟩ := h.link a d had
        refine ⟨by omega, by omega, ?_⟩
        rw [if_neg (by omega)]
        split <;> exact l3
  · intro a d hdlt had
    change (((g.setV j fun n => { n with deriv := some g.nv }).setV g.nv (fun _ => { anti := some j })).v d).anti = some a at had
    change d < g.nv + 1 at hdlt
    show (((g.setV j fun n => { n with deriv := some g.nv }).setV g.nv (fun _ => { anti := some j })).v a).deriv = some d
    rw [hv] at had ⊢
    split at had
    · rename_i hdn
      cases had
      rw [if_neg (by omega), if_pos rfl, hdn]
    · have hdlt' : d < g.nv := by omega
      have had' : (g.v d).anti = some a := by
        split at had
        · exact had
        · exact had
      have l := h.unlink a d hdlt' had'
      have haj : a ≠ j := by rintro rfl; rw [hd] at l; cases l
      have := (h.link a d l).1
      rw [if_neg (by omega), if_neg haj]
      exact l
  · intro k
    show (((g.setV j fun n => { n with deriv := some g.nv }).setV g.nv (fun _ => { anti := some j })).v k).param = false
    rw [hv]
    split
    · rfl
    · split <;> exact h.param k
  · intro k hk
    change (((g.setV j fun n => { n with deriv := some g.nv }).setV g.nv (fun _ => { anti := some j })).v k).deleted = true at hk
    show (((g.setV j fun n => { n with deriv := some g.nv }).setV g.nv (fun _ => { anti := some j })).v k).deriv ≠ none
    rw [hv] at hk ⊢
    split at hk
    · cases hk
    · rename_i hkn
      rw [if_neg hkn]
      split at hk
      · rename_i hkj; rw [if_pos hkj]; simp
      · rename_i hkj; rw [if_neg hkj]; exact h.deleted k hk

/-- variables were added, each the derivative of a variable without one -/
structure NewVars (g g' : BG) : Prop where
  nv : g.nv ≤ g'.nv
  ne : g'.ne = g.ne
  e : ∀ i, g'.e i = g.e i
  old : ∀ j, j < g.nv → { g'.v j with deriv := (g.v j).deriv } = g.v j
  keep : ∀ j d, (g.v j).deriv = some d → (g'.v j).deriv = some d
  new : ∀ j, g.nv ≤ j → j < g'.nv → ∃ a, a < g.nv ∧ (g.v a).deriv = none ∧ g'.v j = { anti := some a }
  fresh : ∀ j, g'.nv ≤ j → g'.v j = g.v j

theorem NewVars.refl (g : BG) : NewVars g g :=
  ⟨Nat.le_refl _, rfl, fun _ => rfl, fun _ _ => rfl, fun _ _ h => h, fun j h1 h2 => by omega, fun _ _ => rfl⟩

/-- the derivatives of some variables -/
theorem derivMarkedV_fold {g : BG} : ∀ (l : List Nat) (g1 : BG), W g1 → NewVars g g1 → l.Nodup → (∀ j ∈ l, j < g.nv) →
    (∀ j ∈ l, (g.v j).colored = true → (g.v j).deleted = false → (g1.v j).deriv = none) →
    (∀ j, j < g.nv → (g.v j).deriv = none → (g1.v j).deriv ≠ none →
      (g.v j).colored = true ∧ (g.v j).deleted = false) →
    let g' := l.foldl (fun g j => if (g.v j).colored && !(g.v j).deleted then (g.derivV j).2 else g) g1
    W g' ∧ NewVars g g' ∧ (∀ j, (g1.v j).deriv ≠ none → (g'.v j).deriv ≠ none) ∧
      (∀ j ∈ l, (g.v j).colored = true → (g.v j).deleted = false → (g'.v j).deriv ≠ none) ∧
      (∀ j, j < g.nv → (g.v j).deriv = none → (g'.v j).deriv ≠ none →
        (g.v j).colored = true ∧ (g.v j).deleted = false) := by
  intro l
  induction l with
  | nil => intro g1 hW hN _ _ _ hx; exact ⟨hW, hN, fun _ h => h, fun j hj => (by cases hj), hx⟩
  | cons a l ih =>
    intro g1 hW hN hnd hlt hnone hx
    rw [List.nodup_cons] at hnd
    simp only [List.foldl_cons]
    have ha := hlt a List.mem_cons_self
    have hold := hN.old a ha
    have hcol : (g1.v a).colored = (g.v a).colored := by rw [← hold]
    have hdel : (g1.v a).deleted = (g.v a).deleted := by rw [← hold]
    by_cases hc : ((g1.v a).colored && !(g1.v a).deleted) = true
    · rw [if_pos hc]
      rw [hcol, hdel] at hc
      simp only [Bool.and_eq_true, Bool.not_eq_true'] at hc
      have hd1 := hnone a List.mem_cons_self hc.1 hc.2
      have hd0 : (g.v a).deriv = none := by
        cases h : (g.v a).deriv with
        | none => rfl
        | some d => rw [hN.keep a d h] at hd1; cases hd1
      have ha1 : a < g1.nv := Nat.lt_of_lt_of_le ha hN.nv
      have hW2 := hW.derivV ha1 hd1
      have hv : ∀ k, ((g1.derivV a).2.v k) =
          if k = g1.nv then { anti := some a } else if k = a then { g1.v k with deriv := some g1.nv } else g1.v k := by
        intro k; rw [derivV_none hd1]; rfl
      have hnv : (g1.derivV a).2.nv = g1.nv + 1 := by rw [derivV_none hd1]
      have hN2 : NewVars g (g1.derivV a).2 := by
        refine ⟨by rw [hnv]; have := hN.nv; omega, ?_, ?_, ?_, ?_, ?_, ?_⟩
        · rw [derivV_none hd1]; exact hN.ne
        · intro i; rw [derivV_none hd1]; exact hN.e i
        · intro j hj
          have := hN.nv
          rw [hv, if_neg (by omega)]
          have ho := hN.old j hj
          split
          · rw [← ho]
          · exact ho
        · intro j d hj
          have h1 := hN.keep j d hj
          have := (hW.link j d h1).1
          rw [hv, if_neg (by omega), if_neg (by rintro rfl; rw [hd1] at h1; cases h1)]
          exact h1
        · intro j h1 h2
          rw [hnv] at h2
          rw [hv]
          by_cases hj : j = g1.nv
          · rw [if_pos hj]; exact ⟨a, ha, hd0, rfl⟩
          · rw [if_neg hj, if_neg (by omega)]
            exact hN.new j h1 (by omega)
        · intro j hj
          rw [hnv] at hj
          rw [hv, if_neg (by omega), if_neg (by omega)]
          exact hN.fresh j (by omega)
      obtain ⟨r1, r2, r3, r4, r5⟩ := ih (g1.derivV a).2 hW2 hN2 hnd.2 (fun j hj => hlt j (List.mem_cons_of_mem _ hj))
        (by
          intro j hj h1 h2
          have hja : j ≠ a := by rintro rfl; exact hnd.1 hj
          have := hlt j (List.mem_cons_of_mem _ hj)
          have := hN.nv
          rw [hv, if_neg (by omega), if_neg hja]
          exact hnone j (List.mem_cons_of_mem _ hj) h1 h2)
        (by
          intro j hj h1 h2
          have := hN.nv
          rw [hv, if_neg (by omega)] at h2
          by_cases hja : j = a
          · rw [hja]; exact hc
          · rw [if_neg hja] at h2; exact hx j hj h1 h2)
      refine ⟨r1, r2, ?_, ?_, r5⟩
      · intro j hj
        refine r3 j ?_
        rw [hv]
        have : j ≠ g1.nv := by
          rintro rfl
          obtain ⟨d, hd⟩ := Option.ne_none_iff_exists'.mp hj
          have := (hW.link _ d hd).1; omega
        rw [if_neg this]
        split
        · simp
        · exact hj
      · intro j hj h1 h2
        rcases List.mem_cons.mp hj with rfl | hj
        · refine r3 j ?_
          rw [hv, if_neg (by omega), if_pos rfl]
          simp
        · exact r4 j hj h1 h2
    · rw [if_neg hc]
      obtain ⟨r1, r2, r3, r4, r5⟩ := ih g1 hW hN hnd.2 (fun j hj => hlt j (List.mem_cons_of_mem _ hj))
        (fun j hj => hnone j (List.mem_cons_of_mem _ hj)) hx
      refine ⟨r1, r2, r3, ?_, r5⟩
      intro j hj h1 h2
      rcases List.mem_cons.mp hj with rfl | hj
      · exfalso; rw [hcol, hdel, h1, h2] at hc; simp at hc
      · exact r4 j hj h1 h2

/-- the derivatives of the marked variables, none of which has one -/
theorem derivMarkedV_ok {g : BG} (h : W g) (hn : ∀ j, j < g.nv → (g.v j).colored = true → (g.v j).deleted = false → (g.v j).deriv = none) :
    W (derivMarkedV g) ∧ NewVars g (derivMarkedV g) ∧
      ∀ j, j < g.nv → (g.v j).deriv = none →
        (((derivMarkedV g).v j).deriv ≠ none ↔ (g.v j).colored = true ∧ (g.v j).deleted = false) := by
  obtain ⟨h1, h2, _, h4, h5⟩ := derivMarkedV_fold (g := g) (List.range g.nv) g h (NewVars.refl g) List.nodup_range
    (fun j hj => List.mem_range.mp hj) (fun j hj => hn j (List.mem_range.mp hj)) (fun j _ h h' => absurd h h')
  exact ⟨h1, h2, fun j hj hd => ⟨h5 j hj hd, fun hc => h4 j (List.mem_range.mpr hj) hc.1 hc.2⟩⟩

end Verif.Dae
