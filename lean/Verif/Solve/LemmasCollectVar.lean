import Verif.Solve.LemmasCollect
/- `collectVariable`: number of bifurcations and the clone of the whole expression. -/
namespace Verif.Solve
open Verif.Codegen Verif.Cg Verif.Paths Verif.Eval

section
variable {α : Type}

theorem sum_le {f : Nat → Nat} {k : Nat} : ∀ l : List Nat, (∀ x ∈ l, f x ≤ k) → (l.map f).sum ≤ l.length * k := by
  intro l
  induction l with
  | nil => intro _; simp
  | cons a l ih =>
    intro h
    have h1 := h a List.mem_cons_self
    have h2 := ih fun x hx => h x (List.mem_cons_of_mem _ hx)
    simp only [List.map_cons, List.sum_cons, List.length_cons, Nat.add_mul, Nat.one_mul]
    omega

theorem pairwise_bounded {l : List Nat} {N : Nat} (h : l.Pairwise (· < ·)) (hb : ∀ x ∈ l, x < N) : l.length ≤ N := by
  have hsub : l ⊆ List.range N := fun x hx => List.mem_range.mpr (hb x hx)
  have hn : l.Nodup := h.imp (fun h => Nat.ne_of_lt h)
  have := (List.subperm_of_subset hn hsub).length_le
  simpa using this

/-- bound of the number of bifurcations -/
theorem bifs_bounded {G : Graph α} {rank : Nat → Nat} (hrank : Ranked G rank) {fuel root T maxB N k : Nat}
    (hfuel : rank root < fuel) (hN : ∀ r v, Route G root r v → v < N) (hk : ∀ v, (G v).args.length ≤ k) {g : PGraph}
    {b : Nat} (e : findPathGraph G fuel root T 0 maxB = some (g, b)) : b ≤ N * k := by
  unfold findPathGraph at e
  rw [if_pos (Nat.zero_le _)] at e
  by_cases hrt : root = T
  · rw [if_pos hrt] at e
    cases e
    exact Nat.zero_le _
  · rw [if_neg hrt] at e
    have hinv : Paths.Inv G T 0 ⟨fun _ => none, 0, []⟩ := by
      refine ⟨List.nodup_nil, by simp, ?_, ?_, ?_, ?_, rfl, ?_, rfl⟩
      · intro v _ h; simp at h
      · intro m p i; simp [useOf, argsOf]
      · intro p i h; simp [argsOf] at h
      · intro p; simp [argsOf]
      · intro h; simp at h
    obtain ⟨f, st', e', hp⟩ := graphSearch_spec (maxB := maxB) hrank fuel root _ hfuel hinv (fun _ v hv => by simp at hv)
    rw [e'] at e
    cases e
    rw [hp.inv.count, Nat.zero_add]
    unfold extra
    have hlen : st'.visited.length ≤ N := by
      have hsub : st'.visited ⊆ List.range N := by
        intro v hv
        rw [List.mem_range]
        rcases hp.frame.new v hv with h | ⟨r, h⟩
        · simp at h
        · exact hN r v h
      have := (List.subperm_of_subset hp.inv.nodup hsub).length_le
      simpa using this
    refine Nat.le_trans (sum_le (k := k) _ ?_) (Nat.mul_le_mul_right k hlen)
    intro v _
    refine Nat.le_trans (Nat.sub_le _ _) (Nat.le_trans ?_ (hk v))
    refine pairwise_bounded (hp.inv.sorted v) ?_
    intro i hi
    obtain ⟨m, h, _⟩ := hp.inv.sound v i hi
    exact (List.getElem?_eq_some_iff.mp h).1

theorem arity_le (op : Op) : arity op ≤ 4 := by cases op <;> simp [arity]

end

/-- the operations above the collected one can be evaluated -/
def Above (G : Graph ℝ) (root n : Nat) (val : Nat → ℝ) : Prop :=
  ∀ m, Reaches G root m → Reaches G m n → m ≠ n → (G m).op = .div → ((G m).args.map (argVal val)).getD 1 0 ≠ 0

section
variable {w0 w : World ℝ} {root n : Nat}

theorem graphClone_means {I : Interp ℝ} (R : RealI I) {ord : Op → List Nat}
    (hord : ∀ op, (ord op).Perm (List.range (arity op))) {rank : Nat → Nat} (hs : ShapedG w.graph)
    (hr : Ranked w.graph rank) (hext : Ext w0 w) (hc0 : Closed w0) (hroot : root < w0.nodes.length)
    (hkn : ∀ m f, Reaches w0.graph root m → Reaches w0.graph m n → m ≠ n → (w0.graph m).op = .un f → supported f = true)
    {g : PGraph} (hg : PathGraph w.graph root n g) {sub : Cg ℝ} (hva : VaC none w sub) {P : (Nat → ℝ) → Prop}
    (hsub : Den I w sub (haveI := Classical.propDecidable; fun val => if P val then some (val n) else none)) :
    ∀ x val, Means (cloneSetup I w ord (graphHook g n sub)) I (VaC none)
      (fun s => s.Val I x val ∧ P val ∧ Above w0.graph root n val) (Good False val) (cgDom I) [root] rank w val := by
  intro x val
  have hlt : ∀ {m}, Reaches w.graph root m → m < w0.nodes.length := by
    rintro m ⟨r, h⟩
    exact reaches_lt hc0 r root m hroot ((route_ext hext hc0 hroot).mp h)
  have hle : ∀ {m}, m < w0.nodes.length → m < w.nodes.length := by
    intro m hm
    obtain ⟨⟨s, hs⟩, _⟩ := hext
    rw [hs, List.length_append]; omega
  have hvis : ∀ {path m}, Visit (cloneSetup I w ord (graphHook g n sub)) [root] path m → Reaches w.graph root m := by
    intro path m h
    obtain ⟨pre, h1, _⟩ := visit_route h
    exact ⟨pre, h1⟩
  -- an operation which is cloned
  have hcl : ∀ {path m}, Visit (cloneSetup I w ord (graphHook g n sub)) [root] path m →
      graphHook g n sub path m = none → m < w0.nodes.length ∧ Reaches w0.graph root m ∧ Reaches w0.graph m n ∧ m ≠ n ∧
        ∃ (i : Nat) (k : Nat), (w.graph m).args[i]? = some (.node k) := by
    intro path m hv hh
    have h1 := hvis hv
    have hm := hlt h1
    unfold graphHook at hh
    cases hgm : g m with
    | none => rw [hgm] at hh; cases hh
    | some e =>
      rw [hgm] at hh
      simp only at hh
      split at hh
      · cases hh
      · rename_i hne
        have h2 := ((hg.present m).mp (by rw [hgm]; rfl)).2
        refine ⟨hm, ?_, ?_, hne, ?_⟩
        · obtain ⟨r, h⟩ := h1
          exact ⟨r, (route_ext hext hc0 hroot).mp h⟩
        · obtain ⟨r, h⟩ := h2
          exact ⟨r, (route_ext hext hc0 hm).mp h⟩
        · obtain ⟨r, h⟩ := h2
          cases r with
          | nil => exact absurd (route_nil.mp h) hne
          | cons i r =>
            obtain ⟨k, hi, _⟩ := route_cons.mp h
            exact ⟨i, k, hi⟩
  refine ⟨?_, ?_, ?_, ?_⟩
  · intro path m r hv hh
    change graphHook g n sub path m = some r at hh
    have h1 := hvis hv
    unfold graphHook at hh
    cases hgm : g m with
    | none =>
      rw [hgm] at hh; cases hh
      exact ⟨⟨hle (hlt h1), fun v hv => by cases hv⟩, fun _ => ⟨rfl, fun h => h.elim⟩⟩
    | some e =>
      rw [hgm] at hh
      simp only at hh
      split at hh
      · rename_i hmn
        cases hh
        refine ⟨hva, ?_⟩
        rintro ⟨h2, h3, _⟩
        rw [hmn]
        exact hsub x val h2 _ (by simp only [h3, if_true])
      · cases hh
  · intro path m hv hh hinv
    obtain ⟨_, _, _, _, i, k, hi⟩ := hcl hv hh
    exfalso
    have := hs m
    unfold Shaped at this
    change (w.graph m).op = .inv at hinv
    rw [hinv] at this
    rw [List.length_eq_zero_iff.mp this] at hi
    cases hi
  · intro path m hv hh hinv
    obtain ⟨hm, h1, h2, h3, i, k, hi⟩ := hcl hv hh
    refine ⟨hs m, ?_, hord _, ?_⟩
    · show unsupportedOp (w.graph m).op = false
      rw [graph_ext hext hm]
      cases hop : (w0.graph m).op with
      | un f => simp only [unsupportedOp, hkn m f h1 h2 h3 hop, Bool.not_true]
      | _ => rfl
    · rintro ⟨h4, _, h5⟩
      refine ⟨?_, val_node h4 hs hi⟩
      intro hop
      change (w.graph m).op = .div at hop
      change ((w.graph m).args.map (argVal val))[1]? ≠ some I.zero
      rw [graph_ext hext hm] at hop ⊢
      intro h6
      apply h5 m h1 h2 h3 hop
      rw [List.getD_eq_getElem?_getD, h6, R.zero]; rfl
  · intro path m _ _ k hk
    exact hr m k hk

open Classical in
theorem collectVariable_does {I : Interp ℝ} (R : RealI I) {ord : Op → List Nat}
    (hord : ∀ op, (ord op).Perm (List.range (arity op))) {h0 : Nat} {l : Nat} {r is js : List Nat} (hw : OkW h0 (some l) w)
    (hs : ShapedG w.graph) (hr : ∃ rank, Ranked w.graph rank) (hroot : root < w.nodes.length)
    (hn : Route w.graph root r n) (F : Fork w.graph n l is js) {a b : Nat}
    (ha : (w.graph n).args = [.node a, .node b])
    (hc1 : collectablePath w.graph (stepsUp w.graph a is) = true)
    (hc2 : collectablePath w.graph (stepsUp w.graph b js) = true)
    (hs1 : SameSides w.graph 0 a is) (hs2 : SameSides w.graph 1 b js)
    (hkn : ∀ m f, Reaches w.graph root m → Reaches w.graph m n → m ≠ n → (w.graph m).op = .un f → supported f = true)
    {depth maxB : Nat} (hd : w.nodes.length < depth) (hmax : w.nodes.length * 4 < maxB) :
    Does I h0 none w (collectVariable I ord depth maxB w root (stepsUp w.graph root (r ++ 0 :: is))
        (stepsUp w.graph root (r ++ 1 :: js)) r.length)
      (fun val => if DivOk w.graph n is js val ∧ Above w.graph root n val then some (val root) else none) := by
  have L := real_laws R
  have hnl : n < w.nodes.length := reaches_lt hw.closed r root n hroot hn
  have hia : (w.graph n).args[0]? = some (.node a) := by rw [ha]; rfl
  obtain ⟨s, e, q, w1, e1, g1, ok1, va1, vs, ve, ds, de, dq⟩ :=
    collectAddSub_does R hord hw hs hr hnl F ha hc1 hc2 hd
  have hsub : Den I w1 q (fun val => if DivOk w.graph n is js val then some (val n) else none) := by
    intro x val hv p hp
    by_cases hP : DivOk w.graph n is js val
    · simp only [hP, if_true] at hp
      cases hp
      have h1 := ds x val hv _ (codeSum_slope R hs F ha hc1 hc2 hs1 hs2 hP)
      have h2 := de x val hv _ (if_pos hP)
      exact (dq x val hv _ _ h1 h2).congr (by ring)
    · simp only [hP, if_false] at hp; cases hp
  obtain ⟨rank, hrank, hle⟩ := rank_ext g1.ext hw.closed hr (g1.acyclic hr)
  have hfuel := Nat.lt_of_le_of_lt (hle root hroot) hd
  obtain ⟨g, b', eg, _, hg⟩ := findPathGraph_spec hrank (T := n) hfuel (Nat.zero_le maxB)
  have hb := bifs_bounded hrank hfuel (N := w.nodes.length) (k := 4)
    (fun r' v h => reaches_lt hw.closed r' root v hroot ((route_ext g1.ext hw.closed hroot).mp h))
    (fun v => by rw [g1.shaped hs v]; exact arity_le _) eg
  obtain ⟨hpg, _⟩ := hg (by omega)
  have hM := graphClone_means R hord (g1.shaped hs) hrank g1.ext hw.closed hroot hkn hpg va1
    (P := DivOk w.graph n is js) (by
      intro x val hv p hp
      refine hsub x val hv p ?_
      rw [← hp])
  have hcl := cloneExpr_does L (OkW.none ok1) hfuel (fun val => DivOk w.graph n is js val ∧ Above w.graph root n val)
    (fun val => val) hM
  obtain ⟨c, w2, e2, g2, ok2, va2, d2⟩ := hcl.ex
  refine ⟨c, w2, ?_, g1.trans g2, ok2, va2, by convert d2⟩
  unfold collectVariable
  have hdrop : ∀ t, (stepsUp w.graph root (r ++ t)).drop r.length = stepsUp w.graph n t := by
    intro t
    rw [stepsUp_append hn, List.drop_left' (edgesUp_length hn)]
  rw [hdrop, hdrop]
  have hat : (stepsUp w.graph root (r ++ 0 :: is))[r.length]? = some (n, some 0) := by
    rw [stepsUp_append hn, List.getElem?_append_right (by rw [edgesUp_length hn]),
      edgesUp_length hn, Nat.sub_self, stepsUp_cons hia]
    rfl
  simp only [e1, bind, Except.bind, hat, eg]
  exact e2

end

end Verif.Solve
