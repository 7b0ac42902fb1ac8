import Verif.Scopes.LemmasMark
import Verif.Scopes.SpecOrder

/-
Lemmas: without conditional temporaries the scope of every value is around its uses.
-/
namespace Verif.Scopes

theorem Op.needed_of_begins {o : Op} (h : o.begins = true) : o.needed = true := by cases o <;> simp_all [Op.begins, Op.needed]
theorem Op.needed_of_isEnd {o : Op} (h : o.isEnd = true) : o.needed = true := by cases o <;> simp_all [Op.isEnd, Op.ends, Op.needed]

variable {nd0 : Nat → Node} {N fuel : Nat} {roots : List Nat} {own : Nat → Option Nat} {st : St}

open Order

theorem mark_nested (hg : LoopGraph nd0 N) (hr : Roots nd0 N roots) (hix : ∀ r ∈ roots, (nd0 r).op ≠ .indexed)
    (hl : LoopLocal nd0 N roots own) (h : mark fuel nd0 N roots = .ok st)
    (hs : st.size = N) (hx : ∀ n, N ≤ n → (nd0 n).op ≠ .loopTmp) : Nested st.placed roots := by
  obtain ⟨⟨hi, hroot⟩, hown⟩ := mark_ok_own hg hr hl h
  have hb := hi.base
  have hno : ∀ n, (st.nd n).op ≠ .loopTmp := by
    intro n
    by_cases hn : n < N
    · rcases hb.orig n hn with h1 | h1
      · rw [h1]; exact (hg.original n hn).2.2
      · rw [h1.2]; simp
    · rw [hb.rest n (by omega)]; exact hx n (by omega)
  -- no node was changed
  have hnd : ∀ n < N, st.nd n = nd0 n := by
    intro n hn
    rcases hb.orig n hn with h1 | h1
    · exact h1
    · obtain ⟨d, e, s, r, t, k, L, el, -, -, -, h4, -⟩ := hb.tmp n hn h1.2
      exact absurd (by rw [h4]) (hno t)
  -- nodes which are needed are visited
  have hvis : ∀ x, Reach st.nd roots x → x < N ∧ 1 ≤ st.count x := by
    intro x hx
    induction hx with
    | root h => exact ⟨(hr _ h).1, hroot _ h⟩
    | @arg u a _ ha ih =>
      have ha' := ha
      rw [hnd u ih.1] at ha'
      exact ⟨hg.closed u ih.1 a ha', (hi.avail u ih.2 (by simp) a ha).1⟩
  have hleaf : ∀ u, Reach st.nd roots u → (st.nd u).op.needed = false → (st.nd u).args = [] := by
    intro u hu hne
    obtain ⟨h1, _⟩ := hvis u hu
    rw [hnd u h1] at hne ⊢
    apply hg.leaf u h1
    cases ho : (nd0 u).op <;> rw [ho] at hne <;> simp_all [Op.needed]
  -- the node at the beginning of the scope which ends with a node
  have hbegin : ∀ e, 1 ≤ st.count e → (st.nd e).op.isEnd = true → ∃ b as, (st.nd e).args = b :: as ∧ (st.nd b).op.begins = true ∧
      st.scope b = st.inner e ∧ 1 ≤ st.count b := by
    intro e hv he
    obtain ⟨b, as, h1, h2⟩ := hb.head e (hb.visLt hv) he
    have hbv := (hi.avail e hv (by simp) b (by rw [h1]; simp)).1
    obtain ⟨e', k1, k2, k3, k4⟩ := hb.begins b hbv h2
    have := hb.uniq e (hb.visLt hv) e' (hb.visLt k1) he k2 (by rw [k3, h1]; rfl)
    subst this
    exact ⟨b, as, h1, h2, k4, hbv⟩
  have hinside : ∀ u, Reach st.nd roots u → ∀ a ∈ (st.nd u).args, (st.nd a).op.needed = true →
      st.path (st.scope a) <+: st.placed.around u := by
    intro u hu a ha hne
    obtain ⟨hun, huv⟩ := hvis u hu
    have hw := ((hi.avail u huv (by simp) a ha).2.2 hne).2 hno
    unfold Placed.around
    simp only [St.placed]
    by_cases he : (st.nd u).op.isEnd = true
    · obtain ⟨b, as, h1, -, h3, -⟩ := hbegin u huv he
      simp only [he, if_true, h1, h3]
      simpa [St.use, Op.ctrl, he] using hw
    · by_cases hbg : (st.nd u).op.begins = true
      · simp only [he, hbg, if_true]
        have : (st.nd u).op = .loopStart ∨ ∃ rs, (st.nd u).op = .startIf rs := by
          cases ho : (st.nd u).op <;> rw [ho] at hbg he <;> simp_all [Op.begins, Op.isEnd, Op.ends]
        have h2 := hb.opens u huv this
        simp only [Bool.false_eq_true, if_false]
        rw [← h2]
        simpa [St.use, Op.ctrl, hbg] using hw
      · simp only [he, hbg, Bool.false_eq_true, if_false]
        simpa [St.use, Op.ctrl, hbg, he] using hw
  have hends : ∀ u, Reach st.nd roots u → (st.nd u).op.isEnd = true → ∃ p b as, (st.nd u).args = b :: as ∧ (st.nd b).op.begins = true ∧
      st.path (st.scope b) = p ++ [(st.scope b, u)] ∧
      if (st.nd u).op.begins then ∃ el, st.path (st.scope u) = p ++ [el] else st.path (st.scope u) = p := by
    intro u hu he
    obtain ⟨hun, huv⟩ := hvis u hu
    obtain ⟨b, as, h1, h2, h3, hbv⟩ := hbegin u huv he
    rcases isEnd_cases he with hop | hop
    · obtain ⟨k1, k2⟩ := hb.loopEnd u huv hop
      refine ⟨[], b, as, h1, h2, ?_, ?_⟩
      · rw [h3]; exact k2.1
      · rw [hop, k1, hb.zero]
        simp [Op.begins]
    · obtain ⟨L, el, k1, k2, k3, k4⟩ := hb.branch u huv hop
      refine ⟨[(L, el)], b, as, h1, h2, by rw [h3]; exact k3, ?_⟩
      by_cases hbg : (st.nd u).op.begins = true
      · rw [if_pos hbg]
        -- the branch after it
        obtain ⟨e', m1, m2, m3, m4⟩ := hb.begins u huv hbg
        have hop' : (st.nd e').op.ends = true := by
          rcases isEnd_cases m2 with h | h
          · exfalso
            have hen := hb.visLt m1
            obtain ⟨b', as', q1, q2⟩ := hb.head e' hen m2
            rw [q1] at m3
            have hbu : b' = u := by simpa using m3
            subst hbu
            obtain ⟨k', -⟩ := hb.loopEnd e' m1 h
            have heN : e' < N := by rw [hb.small hno] at hen; exact hen
            have h' := h
            rw [hnd e' heN] at h' q1
            obtain ⟨s, as2, r1, r2, -⟩ := hg.loopEnd e' heN h'
            rw [q1] at r1
            have hs : b' = s := by simp at r1; exact r1.1
            subst hs
            rw [hnd b' hun] at hop
            rw [r2] at hop
            cases hop
          · exact h
        obtain ⟨L', el', q1, q2, q3, -⟩ := hb.branch e' m1 hop'
        have hLL : L = L' ∧ el = el' := by
          have hbN : b < N := (hvis b (.arg hu (by rw [h1]; simp))).1
          have hou := hown u hun huv (by rw [← hb.needed hun]; exact Op.needed_of_isEnd he)
          have hob := hown b hbN hbv (by rw [← hb.needed hbN]; exact Op.needed_of_begins h2)
          have hla := hl.args u hun b (by rw [← hnd u hun, h1]; simp) (by rw [← hb.needed hbN]; exact Op.needed_of_begins h2)
          have hus : useLoop nd0 own u = own u := by
            unfold useLoop
            rw [← hnd u hun]
            cases ho : (st.nd u).op <;> rw [ho] at hop hbg <;> simp_all [Op.ends, Op.begins]
          rw [hus] at hla
          unfold OwnAt at hou hob
          cases hoe : own b with
          | none =>
            rw [hoe] at hob
            simp only at hob
            exact absurd (h3.symm.trans hob) k1.ne0
          | some e =>
            have hoe' : own u = some e := by
              rcases hla with h | h
              · rw [← h]; exact hoe
              · rw [hoe] at h; cases h.1
            rw [hoe] at hob
            rw [hoe'] at hou
            simp only at hou hob
            rw [m4] at hou
            rw [h3] at hob
            rcases hou with h | ⟨L1, hou⟩
            · exact absurd h q1.ne0
            · rcases hob with h | ⟨L2, hob⟩
              · exact absurd h k1.ne0
              · have s1 := InL.same hb hou hob
                have s2 := k1.unique hob
                have s3 := q1.unique hou
                exact ⟨by rw [s2.1, s3.1, s1], by rw [s2.2, s3.2]⟩
        rw [m4, q3, hLL.1, hLL.2]
        exact ⟨_, rfl⟩
      · rw [if_neg hbg]
        have : (st.nd u).op = .endIf := by
          cases ho : (st.nd u).op <;> rw [ho] at hbg hop <;> simp_all [Op.begins, Op.ends]
        rw [k4 this]
        exact k1.1
  have hbegins : ∀ u, Reach st.nd roots u → (st.nd u).op.begins = true →
      ∃ p e as, st.path (st.scope u) = p ++ [(st.scope u, e)] ∧ (st.nd e).args = u :: as := by
    intro u hu hbg
    obtain ⟨e, h1, h2, h3, h4⟩ := hb.begins u (hvis u hu).2 hbg
    have hla := hb.last h1 h2
    obtain ⟨p, hp⟩ := List.getLast?_eq_some_iff.1 hla
    obtain ⟨b, as, h5, -⟩ := hb.head e (hb.visLt h1) h2
    rw [h5] at h3
    have : b = u := by simpa using h3
    subst this
    exact ⟨p, e, as, by rw [h4]; exact hp, h5⟩
  -- the ends of the scopes around a node are needed
  have hreach : ∀ x, Reach st.nd roots x → (st.nd x).op.needed = true → ∀ el ∈ st.path (st.scope x), Reach st.nd roots el.2 := by
    intro x hx
    induction hx with
    | @root r h =>
      intro hne el hel
      have hon := hown r (hr r h).1 (hroot r h) (by rw [← hb.needed (hr r h).1]; exact hne)
      unfold OwnAt at hon
      rw [hl.roots r h] at hon
      simp only at hon
      rw [hon, hb.zero] at hel
      cases hel
    | @arg u a hu ha ih =>
      intro hne el hel
      have hun : (st.nd u).op.needed = true := by
        cases hq : (st.nd u).op.needed with
        | true => rfl
        | false => rw [hleaf u hu hq] at ha; cases ha
      have hin := (hinside u hu a ha hne).subset hel
      unfold Placed.around at hin
      simp only [St.placed] at hin
      by_cases he : (st.nd u).op.isEnd = true
      · obtain ⟨p, b, as, h1, h2, h3, h4⟩ := hends u hu he
        simp only [he, if_true, h1, h3] at hin
        rcases List.mem_append.1 hin with h | h
        · apply ih hun
          split at h4
          · obtain ⟨el', h4⟩ := h4
            rw [h4]; simp [h]
          · rw [h4]; exact h
        · have : el = (st.scope b, u) := by simpa using h
          rw [this]; exact hu
      · by_cases hbg : (st.nd u).op.begins = true
        · simp only [he, hbg, if_true, Bool.false_eq_true, if_false] at hin
          exact ih hun el (List.dropLast_subset _ hin)
        · simp only [he, hbg, Bool.false_eq_true, if_false] at hin
          exact ih hun el hin
  refine ⟨?_, hb.zero, ?_, hleaf, ?_, ?_, hbegins, hends, hinside⟩
  · obtain ⟨R, hR⟩ := hg.acyclic
    refine ⟨R, fun u hu a ha => ?_⟩
    have := (hvis u hu).1
    exact hR u this a (by rw [← hnd u this]; exact ha)
  · intro r h
    have hrn := (hr r h).1
    rw [show st.placed.nd r = nd0 r from hnd r hrn]
    have hop : (nd0 r).op = .plain ∨ (nd0 r).op = .indep ∨ (nd0 r).op = .multi := by
      rcases (hr r h).2 with h1 | h1
      · rcases value_cases h1 with h2 | h2 | h2
        · exact .inl h2
        · exact .inr (.inl h2)
        · exact absurd h2 (hix r h)
      · exact .inr (.inr h1)
    refine ⟨fun hne => ?_, hop⟩
    have hon := hown r hrn (hroot r h) hne
    unfold OwnAt at hon
    rw [hl.roots r h] at hon
    exact hon
  · intro u hu hne hs
    have hle := hb.scopes u
    rcases hb.paths _ hle with h1 | ⟨L, e, h1⟩
    · exact absurd h1.1 hs
    · rcases h1.last with ⟨h2, h3⟩ | ⟨e', -, h3, -⟩
      · exact ⟨[], e, by show st.path (st.scope u) = [] ++ [(st.scope u, e)]; rw [h2, h1.1]; rfl⟩
      · exact ⟨[(L, e)], e', h3⟩
  · intro u hu hne p el q hp
    have hle := hb.scopes u
    have hmem : el ∈ st.path (st.scope u) := by rw [show st.path (st.scope u) = _ from hp]; simp
    obtain ⟨h1, h2, h3, h4⟩ := hb.pathEnd hle hmem
    obtain ⟨b, as, h5, -, h6, -⟩ := hbegin el.2 h3 h2
    have hla := hb.last h3 h2
    refine ⟨?_, ?_, hreach u hu hne el hmem, h2, b, as, h5, h6.trans h4⟩
    · intro h0
      rw [h4, h0, hb.zero] at hla
      cases hla
    · show st.path el.1 = _
      replace hp : st.path (st.scope u) = p ++ el :: q := hp
      rcases hb.paths _ hle with k1 | ⟨L, e, k1⟩
      · rw [k1.2] at hp; simp at hp
      · rcases k1.last with ⟨k2, k3⟩ | ⟨e', -, k3, -⟩
        · rw [k2, k1.1] at hp
          cases p with
          | nil => simp at hp; rw [← hp.1]; exact k1.1
          | cons x p => simp at hp
        · rw [k3] at hp
          cases p with
          | nil => simp at hp; rw [← hp.1]; exact k1.1
          | cons x p =>
            cases p with
            | nil =>
              simp at hp
              rw [← hp.2.1, ← hp.1]
              exact k3
            | cons y p => simp at hp

end Verif.Scopes
