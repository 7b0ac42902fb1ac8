import Verif.Scopes.ModelJoin

/-
Lemmas on the arguments of operations while conditionals are joined.
-/
namespace Verif.Scopes.Join

open Verif.Scopes Verif.Scopes.Order

section
variable {E : Nat → Bool}

/-- like `Kept`, with a fixed set of ends of conditionals -/
structure KeptE (E : Nat → Bool) (nd nd' : Nat → Node) (x : Nat) : Prop where
  op : (nd' x).op = (nd x).op
  plain : (nd x).op ≠ .condRes → (nd x).op ≠ .tmp → (∀ rs, (nd x).op ≠ .startIf rs) → (nd x).op ≠ .loopStart → (nd' x).args = (nd x).args
  results : (nd x).op = .condRes → (nd' x).args.tail = (nd x).args.tail
  tmp : (nd x).op = .tmp → (nd' x).args.head? = (nd x).args.head?
  order : (nd x).op ≠ .condRes → (nd' x).args.filter (fun a => !E a) = (nd x).args.filter fun a => !E a

theorem KeptE.rfl' {nd : Nat → Node} {x : Nat} : KeptE E nd nd x := ⟨rfl, fun _ _ _ _ => rfl, fun _ => rfl, fun _ => rfl, fun _ => rfl⟩

theorem KeptE.trans {nd nd' nd'' : Nat → Node} {x : Nat} (h : KeptE E nd nd' x) (h' : KeptE E nd' nd'' x) : KeptE E nd nd'' x where
  op := h'.op.trans h.op
  plain a b c d := (h'.plain (by rwa [h.op]) (by rwa [h.op]) (fun rs => by rw [h.op]; exact c rs) (by rwa [h.op])).trans (h.plain a b c d)
  results a := (h'.results (by rwa [h.op])).trans (h.results a)
  tmp a := (h'.tmp (by rwa [h.op])).trans (h.tmp a)
  order a := (h'.order (by rwa [h.op])).trans (h.order a)

theorem KeptE.of_eq {nd nd' : Nat → Node} {x : Nat} (h : nd' x = nd x) : KeptE E nd nd' x := by
  refine ⟨by rw [h], ?_, ?_, ?_, ?_⟩ <;> intros <;> rw [h]

/-- everything is kept, also the ends, in the first part of a step -/
def KeptAll (E : Nat → Bool) (nd nd' : Nat → Node) : Prop := ∀ x, KeptE E nd nd' x

theorem KeptAll.trans {nd nd' nd'' : Nat → Node} (h : KeptAll E nd nd') (h' : KeptAll E nd' nd'') : KeptAll E nd nd'' := fun x => (h x).trans (h' x)

theorem cutTmp_kept {e1 n : Nat} (he : E e1 = true) (nd : Nat → Node) : KeptAll E nd (cutTmp e1 n nd) := by
  intro x
  unfold cutTmp
  split
  · rename_i h
    by_cases hx : x = n
    · subst hx
      obtain ⟨ho, ha⟩ := h
      rcases hargs : (nd x).args with _ | ⟨a, as⟩
      · rw [hargs] at ha; cases ha
      rcases as with _ | ⟨a2, as⟩
      · rw [hargs] at ha; simp at ha
      rw [hargs] at ha
      obtain rfl : a2 = e1 := by simpa using ha
      refine ⟨by simp [set1], fun _ h => absurd ho h, fun h => (by rw [ho] at h; cases h), fun _ => by simp [set1, hargs], fun _ => ?_⟩
      simp [set1, hargs, he, List.filter_cons]
    · exact .of_eq (by simp [set1, hx])
  · exact .rfl'

theorem filter_filter_ne {e1 : Nat} (he : E e1 = true) (l : List Nat) : (l.filter (· ≠ e1)).filter (fun a => !E a) = l.filter fun a => !E a := by
  rw [List.filter_filter]
  congr 1
  funext a
  by_cases h : a = e1
  · subst h; simp [he]
  · simp [h]

theorem cutStart_kept {e1 n : Nat} (he : E e1 = true) (nd : Nat → Node) : KeptAll E nd (cutStart e1 n nd) := by
  intro x
  have key : ((∃ rs, (nd n).op = .startIf rs) ∨ (nd n).op = .loopStart) →
      KeptE E nd (set1 nd n ⟨(nd n).op, (nd n).args.filter (· ≠ e1)⟩) x := by
    intro ho
    by_cases hx : x = n
    · subst hx
      refine ⟨by simp [set1], fun _ _ h1 h2 => ?_, fun h => ?_, fun h => ?_, fun _ => ?_⟩
      · rcases ho with ⟨rs, h⟩ | h
        · exact absurd h (h1 rs)
        · exact absurd h h2
      · rcases ho with ⟨rs, h'⟩ | h' <;> rw [h'] at h <;> cases h
      · rcases ho with ⟨rs, h'⟩ | h' <;> rw [h'] at h <;> cases h
      · simp only [set1, if_true]
        exact filter_filter_ne he _
    · exact .of_eq (by simp [set1, hx])
  unfold cutStart
  split
  · exact key (Or.inl ⟨_, by assumption⟩)
  · exact key (Or.inr (by assumption))
  · exact .rfl'

theorem foldlM_kept {nd : JSt → Nat → Node} {R : (Nat → Node) → (Nat → Node) → Prop} (hr : ∀ a, R a a) (ht : ∀ a b c, R a b → R b c → R a c)
    {f : JSt → Nat → Except Err JSt} : ∀ (l : List Nat) (st st' : JSt), (∀ a ∈ l, ∀ s s', f s a = .ok s' → R (nd s) (nd s')) →
    l.foldlM f st = .ok st' → R (nd st) (nd st') := by
  intro l
  induction l with
  | nil => intro st st' _ h; cases h; exact hr _
  | cons a l ih =>
    intro st st' hf h
    rw [List.foldlM_cons] at h
    rcases h1 : f st a with e | s
    · rw [h1] at h; cases h
    · rw [h1] at h
      exact ht _ _ _ (hf a (by simp) _ _ h1) (ih s st' (fun a ha => hf a (by simp [ha])) h)

theorem breakCycle_kept {c e1 : Nat} (he : E e1 = true) : ∀ f n (st st' : JSt), breakCycle c e1 f n st = .ok st' → KeptAll E st.nd st'.nd := by
  intro f
  induction f with
  | zero => intro n st st' h; cases h
  | succ f ih =>
    intro n st st' h
    simp only [breakCycle] at h
    split at h
    · cases h; exact fun _ => .rfl'
    · split at h
      · cases h
      · cases h; exact cutTmp_kept he _
      · refine (cutTmp_kept (n := n) he st.nd).trans ((cutStart_kept (n := n) he _).trans ?_)
        exact foldlM_kept (nd := fun s => s.nd) (R := KeptAll E) (fun _ _ => .rfl') (fun _ _ _ => KeptAll.trans) _ _ _
          (fun a _ s s' hs => ih a s s' hs) h

theorem replaceScope_nd {old new : Nat} : ∀ f n (st st' : JSt), replaceScope old new f n st = .ok st' → st'.nd = st.nd := by
  intro f
  induction f with
  | zero => intro n st st' h; cases h
  | succ f ih =>
    intro n st st' h
    simp only [replaceScope] at h
    split at h
    · cases h; rfl
    · have := foldlM_kept (nd := fun s => s.nd) (R := fun a b => b = a) (fun _ => rfl) (fun _ _ _ h h' => h'.trans h) _ _ _
        (fun a _ s s' hs => ih a s s' hs) h
      exact this

theorem moveResults_kept {fuel s s1 e1 : Nat} {results : List Nat} {st st' : JSt} (he : E e1 = true)
    (h : moveResults fuel s s1 e1 results st = .ok st') : KeptAll E st.nd st'.nd := by
  unfold moveResults at h
  refine foldlM_kept (nd := fun s => s.nd) (R := KeptAll E) (fun _ _ => .rfl') (fun _ _ _ => KeptAll.trans) results
    { st with visited := fun _ => false } st' ?_ h
  intro a _ t t' ht
  split at ht
  · cases ht
  · rename_i t1 h1
    have h2 := replaceScope_nd _ _ _ _ ht
    rw [h2]
    exact breakCycle_kept he _ _ _ _ h1

theorem setStart_kept {b1 : Nat} : ∀ (results : List Nat) (st st' : JSt), (∀ r ∈ results, (st.nd r).op = .condRes) →
    setStart b1 results st = .ok st' → KeptAll E st.nd st'.nd := by
  intro results
  induction results with
  | nil => intro st st' _ h; cases h; exact fun _ => .rfl'
  | cons r rs ih =>
    intro st st' hr h
    unfold setStart at h
    rw [List.foldlM_cons] at h
    have hro := hr r (by simp)
    rcases hn : st.nd r with ⟨op, _ | ⟨a, as⟩⟩
    · rw [hn] at h; cases h
    · rw [hn] at h hro
      simp only at hro
      have h1 : KeptAll E st.nd (set1 st.nd r ⟨op, b1 :: as⟩) := by
        intro x
        by_cases hx : x = r
        · subst hx
          refine ⟨by simp [set1, hn], fun h => absurd (by rw [hn]; exact hro) h, fun _ => by simp [set1, hn], fun h => ?_, fun h => absurd (by rw [hn]; exact hro) h⟩
          rw [hn] at h
          rw [hro] at h; cases h
        · exact .of_eq (by simp [set1, hx])
      exact h1.trans (ih { st with nd := set1 st.nd r ⟨op, b1 :: as⟩ } st' (fun r' hr' => by
        simp only; rw [(h1 r').op]; exact hr r' (by simp [hr'])) h)

/-- what holds from step to step -/
structure Inv (E : Nat → Bool) (nd0 nd : Nat → Node) : Prop where
  kept : ∀ x, E x = false → KeptE E nd0 nd x
  ends : ∀ x, (nd x).op = .endIf → E x = true
  results : ∀ e, (nd e).op = .endIf → ∀ r ∈ (nd e).args.tail, (nd r).op = .condRes

theorem join_inv {nd0 : Nat → Node} {fuel c p1 p e1 b1 e b : Nat} {st st' : JSt} (hI : Inv E nd0 st.nd) (ho : (st.nd e).op = .endIf)
    (ho1 : (st.nd e1).op = .endIf) (h : join fuel c p1 p e1 b1 e b st = .ok st') : Inv E nd0 st'.nd := by
  have he := hI.ends e ho
  have he1 := hI.ends e1 ho1
  unfold join at h
  simp only at h
  split at h
  · cases h
  · rename_i t1 h1
    have k1 := moveResults_kept (E := E) he1 h1
    split at h
    · cases h
    · split at h
      · cases h
      · rename_i t2 h2
        have hres : ∀ r ∈ (st.nd e).args.tail, (t1.nd r).op = .condRes := fun r hr => by rw [(k1 r).op]; exact hI.results e ho r hr
        have k2 : KeptAll E t1.nd t2.nd := by
          have := setStart_kept (E := E) _ _ _ (by simpa using hres) h2
          simpa using this
        have k := k1.trans k2
        cases h
        have hop2 : (t2.nd e1).op = .endIf := by rw [(k e1).op]; exact ho1
        have hargs2 : (t2.nd e1).args = (st.nd e1).args := (k e1).plain (by rw [ho1]; simp) (by rw [ho1]; simp) (by rw [ho1]; simp) (by rw [ho1]; simp)
        refine ⟨?_, ?_, ?_⟩
        · intro x hx
          refine (hI.kept x hx).trans ((k x).trans (.of_eq ?_))
          have hxe : x ≠ e := by rintro rfl; rw [he] at hx; cases hx
          have hxe1 : x ≠ e1 := by rintro rfl; rw [he1] at hx; cases hx
          simp [set1, hxe, hxe1]
        · intro x hx
          by_cases hxe : x = e
          · subst hxe; exact he
          · by_cases hxe1 : x = e1
            · subst hxe1; exact he1
            · simp only [set1, if_neg hxe, if_neg hxe1] at hx
              exact hI.ends x (by rw [← (k x).op]; exact hx)
        · have hcond : ∀ r, (st.nd r).op = .condRes → (set1 (set1 t2.nd e1 ⟨(t2.nd e1).op, (t2.nd e1).args ++ (st.nd e).args.tail⟩) e ⟨.plain, [e1]⟩ r).op =
              .condRes := by
            intro r hr
            have hre : r ≠ e := by rintro rfl; rw [ho] at hr; cases hr
            have hre1 : r ≠ e1 := by rintro rfl; rw [ho1] at hr; cases hr
            simp only [set1, if_neg hre, if_neg hre1]
            rw [(k r).op]; exact hr
          intro x hx r hr
          apply hcond
          by_cases hxe : x = e
          · subst hxe; simp [set1] at hx
          · by_cases hxe1 : x = e1
            · subst hxe1
              simp only [set1, if_neg hxe, if_true, hargs2] at hr
              rcases hl : (st.nd x).args with _ | ⟨b, as⟩
              · rw [hl] at hr
                exact hI.results e ho r (List.mem_of_mem_tail hr)
              · rw [hl] at hr
                simp only [List.cons_append, List.tail_cons, List.mem_append] at hr
                rcases hr with hr | hr
                · exact hI.results x ho1 r (by rw [hl]; exact hr)
                · exact hI.results e ho r hr
            · simp only [set1, if_neg hxe, if_neg hxe1] at hx hr
              have hox : (st.nd x).op = .endIf := by rw [← (k x).op]; exact hx
              have : (t2.nd x).args = (st.nd x).args := (k x).plain (by rw [hox]; simp) (by rw [hox]; simp) (by rw [hox]; simp) (by rw [hox]; simp)
              rw [this] at hr
              exact hI.results x hox r hr

theorem step_inv {nd0 : Nat → Node} {fuel c p : Nat} {st st' : JSt} (hI : Inv E nd0 st.nd) (h : step fuel c p st = .ok st') : Inv E nd0 st'.nd := by
  unfold step at h
  simp only at h
  split at h
  · cases h
  · split at h
    · cases h; exact hI
    · rename_i ho
      split at h
      · cases h
      · split at h
        · cases h
        · split at h
          · cases h; exact hI
          · rename_i ho1
            split at h
            · split at h
              · split at h
                · exact join_inv hI (by simpa using ho) (by simpa using ho1) h
                · cases h; exact hI
              · cases h; exact hI
            · cases h

theorem positions_inv {nd0 : Nat → Node} {fuel c : Nat} : ∀ p (st st' : JSt), Inv E nd0 st.nd → positions fuel c p st = .ok st' → Inv E nd0 st'.nd := by
  intro p
  induction p with
  | zero => intro st st' hI h; cases h; exact hI
  | succ p ih =>
    intro st st' hI h
    simp only [positions] at h
    split at h
    · cases h
    · rename_i t ht
      exact ih t st' (step_inv hI ht) h

theorem optimizeIfs_inv {nd0 : Nat → Node} {fuel size : Nat} {st st' : JSt} (hI : Inv E nd0 st.nd) (h : optimizeIfs fuel size st = .ok st') :
    Inv E nd0 st'.nd := by
  unfold optimizeIfs at h
  split at h
  · cases h; exact hI
  · have := foldlM_kept (nd := fun s => s.nd) (R := fun a b => Inv E nd0 a → Inv E nd0 b) (fun _ h => h) (fun _ _ _ h h' x => h' (h x)) _ _ _
      (fun a _ s s' hs hi => positions_inv _ _ _ hi hs) h
    exact this hI

end

end Verif.Scopes.Join
