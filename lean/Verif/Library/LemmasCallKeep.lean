import Verif.Library.SpecCallRes
import Verif.Library.LemmasCallMat

/-
No call of the interface changes the sizes of the arrays of pointers.
-/
namespace Verif.Library.Call

variable {R α β : Type}

theorem Keeps.refl (s : St R) : Keeps s s := ⟨rfl, rfl, rfl, rfl, rfl, rfl⟩

theorem Keeps.trans {s s' s'' : St R} (h : Keeps s s') (h' : Keeps s' s'') : Keeps s s'' :=
  ⟨h'.ready.trans h.ready, h'.missing.trans h.missing, h'.junk.trans h.junk, h'.inp.trans h.inp, h'.inHess.trans h.inHess, h'.out.trans h.out⟩

def Pres (x : M R α) : Prop := ∀ s s', (x s).after = some s' → Keeps s s'

theorem Pres.bind {x : M R α} {f : α → M R β} (hx : Pres x) (hf : ∀ a, Pres (f a)) : Pres (x >>= f) := by
  intro s s' h
  rw [bind_eq] at h
  cases hxs : x s with
  | ok a s1 =>
    rw [hxs] at h
    exact (hx s s1 (by rw [hxs]; rfl)).trans (hf a s1 s' h)
  | error s1 =>
    rw [hxs] at h
    exact hx s s' (by rw [hxs]; exact h)
  | ub =>
    rw [hxs] at h
    cases h

theorem pres_pure (a : α) : Pres (pure a : M R α) := by
  intro s s' h
  cases h
  exact .refl _

theorem pres_get : Pres (get : M R (St R)) := by
  intro s s' h
  cases h
  exact .refl _

theorem pres_ub : Pres (ub : M R α) := by
  intro s s' h
  cases h

theorem pres_known (b : Bool) : Pres (known b : M R Unit) := by
  intro s s' h
  rw [known] at h
  cases b <;> (cases h; exact .refl _)

theorem pres_defined (o : Option α) : Pres (defined o : M R α) := by
  intro s s' h
  cases o <;> (cases h; exact .refl _)

theorem pres_setIn (i : Nat) (p : Ptr) : Pres (setIn i p : M R Unit) := by
  intro s s' h
  rw [setIn] at h
  split at h
  · cases h
    exact ⟨rfl, rfl, rfl, by simp, rfl, rfl⟩
  · cases h

theorem pres_setInHess (i : Nat) (p : Ptr) : Pres (setInHess i p : M R Unit) := by
  intro s s' h
  rw [setInHess] at h
  split at h
  · cases h
    exact ⟨rfl, rfl, rfl, rfl, by simp, rfl⟩
  · cases h

theorem pres_setOut (p : Ptr) : Pres (setOut p : M R Unit) := by
  intro s s' h
  rw [setOut] at h
  split at h
  · cases h
    exact ⟨rfl, rfl, rfl, rfl, rfl, by simp⟩
  · cases h

theorem pres_call (f : Fn R) (ins outs : List (Option Ptr)) : Pres (call f ins outs) := by
  intro s s' h
  unfold call at h
  split at h
  · split at h
    · cases h
      exact ⟨rfl, rfl, rfl, rfl, rfl, rfl⟩
    · cases h
  · cases h

theorem pres_store (v : View) (vs : List R) : Pres (store v vs) := by
  intro s s' h
  rw [store] at h
  split at h
  · cases h
    exact ⟨rfl, rfl, rfl, rfl, rfl, rfl⟩
  · cases h

theorem pres_resize [Zero R] (b k : Nat) : Pres (resize b k : M R Unit) := by
  intro s s' h
  rw [resize] at h
  split at h
  · cases h
    exact ⟨rfl, rfl, rfl, rfl, rfl, rfl⟩
  · cases h

theorem pres_withArray {k : Nat} {body : Nat → M R α} (hb : ∀ b, Pres (body b)) : Pres (withArray k body) := by
  intro s s' h
  simp only [withArray, alloc] at h
  cases hr : body s.heap.length { s with heap := s.heap ++ [(List.range k).map s.junk] } with
  | ok a s1 =>
    rw [hr] at h
    cases h
    have := hb s.heap.length _ s1 (by rw [hr]; rfl)
    exact ⟨this.ready, this.missing, this.junk, this.inp, this.inHess, this.out⟩
  | error s1 =>
    rw [hr] at h
    cases h
    have := hb s.heap.length _ s1 (by rw [hr]; rfl)
    exact ⟨this.ready, this.missing, this.junk, this.inp, this.inHess, this.out⟩
  | ub =>
    rw [hr] at h
    cases h

theorem pres_copyInHess : ∀ {i : Nat} {ps : List Ptr}, Pres (copyInHess i ps : M R Unit)
  | _, [] => pres_pure _
  | i, p :: ps => .bind (pres_setInHess i p) fun _ => pres_copyInHess

/-- the steps of a function -/
syntax "pres" : tactic
macro_rules
  | `(tactic| pres) => `(tactic| repeat (first
      | with_reducible exact pres_pure _ | with_reducible exact pres_get | with_reducible exact pres_ub | with_reducible exact pres_known _
      | with_reducible exact pres_defined _ | with_reducible exact pres_setIn _ _ | with_reducible exact pres_setInHess _ _
      | with_reducible exact pres_setOut _ | with_reducible exact pres_call _ _ _ | with_reducible exact pres_store _ _
      | with_reducible exact pres_resize _ _ | with_reducible exact pres_copyInHess
      | with_reducible refine Pres.bind ?_ ?_ | with_reducible refine pres_withArray ?_ | with_reducible intro _ | split | dsimp only))

theorem pres_createDense [Zero R] (p : Ptr) (nr nc : Nat) (t : Table) (nnz : Nat) (mat : View) : Pres (createDense p nr nc t nnz mat : M R Unit) := by
  unfold createDense; pres

theorem pres_sparsitySet (sp : Option Table) (nr : Nat) : Pres (sparsitySet sp nr : M R _) := by
  unfold sparsitySet; pres

theorem pres_forwardZero (L : Lib R) (x dep : View) : Pres (forwardZero L x dep) := by
  unfold forwardZero; pres

theorem pres_forwardZeroArrays (L : Lib R) (x : List Ptr) (dep : View) : Pres (forwardZeroArrays L x dep) := by
  unfold forwardZeroArrays; pres

theorem pres_forwardZeroVars (L : Lib R) (vx vy : List Bool) (x dep : View) : Pres (forwardZeroVars L vx vy x dep) := by
  unfold forwardZeroVars marks; pres
  all_goals first | apply pres_sparsitySet | skip
  all_goals pres

theorem pres_jacobian (L : Lib R) (x jac : View) : Pres (jacobian L x jac) := by
  unfold jacobian; pres

theorem pres_hessian (L : Lib R) (x w hess : View) : Pres (hessian L x w hess) := by
  unfold hessian; pres

theorem pres_hessianOf [One R] (L : Lib R) (x : View) (i : Nat) (hess : View) : Pres (hessianOf L x i hess) := by
  unfold hessianOf; pres
  apply pres_hessian

theorem pres_sparseJacobianDense [Zero R] (L : Lib R) (x jac : View) : Pres (sparseJacobianDense L x jac) := by
  unfold sparseJacobianDense; pres
  all_goals apply pres_createDense

theorem pres_sparseJacobianVec [Zero R] (L : Lib R) (x jac : Nat) : Pres (sparseJacobianVec L x jac) := by
  unfold sparseJacobianVec; pres

theorem pres_sparseJacobianView (L : Lib R) (x jac : View) : Pres (sparseJacobianView L x jac) := by
  unfold sparseJacobianView; pres

theorem pres_sparseJacobianArrays (L : Lib R) (x : List Ptr) (jac : View) : Pres (sparseJacobianArrays L x jac) := by
  unfold sparseJacobianArrays; pres

theorem pres_sparseHessianDense [Zero R] (L : Lib R) (x w hess : View) : Pres (sparseHessianDense L x w hess) := by
  unfold sparseHessianDense; pres
  all_goals apply pres_createDense

theorem pres_sparseHessianVec [Zero R] (L : Lib R) (x w hess : Nat) : Pres (sparseHessianVec L x w hess) := by
  unfold sparseHessianVec; pres

theorem pres_sparseHessianView (L : Lib R) (x w hess : View) : Pres (sparseHessianView L x w hess) := by
  unfold sparseHessianView; pres

theorem pres_sparseHessianArrays (L : Lib R) (x : List Ptr) (w hess : View) : Pres (sparseHessianArrays L x w hess) := by
  unfold sparseHessianArrays; pres

theorem keeps_step [Zero R] [One R] {L : Lib R} {s s' : St R} {o : Op R} (h : s.step L o = some s') : Keeps s s' := by
  cases o
  case memory => cases h; exact ⟨rfl, rfl, rfl, rfl, rfl, rfl⟩
  case zero => exact pres_forwardZero _ _ _ _ _ h
  case zeroArrays => exact pres_forwardZeroArrays _ _ _ _ _ h
  case zeroVars => exact pres_forwardZeroVars _ _ _ _ _ _ _ h
  case jac => exact pres_jacobian _ _ _ _ _ h
  case hess => exact pres_hessian _ _ _ _ _ _ h
  case hessOf => exact pres_hessianOf _ _ _ _ _ _ h
  case sjacDense => exact pres_sparseJacobianDense _ _ _ _ _ h
  case sjacVec => exact pres_sparseJacobianVec _ _ _ _ _ h
  case sjacView => exact pres_sparseJacobianView _ _ _ _ _ h
  case sjacArrays => exact pres_sparseJacobianArrays _ _ _ _ _ h
  case shessDense => exact pres_sparseHessianDense _ _ _ _ _ _ h
  case shessVec => exact pres_sparseHessianVec _ _ _ _ _ _ h
  case shessView => exact pres_sparseHessianView _ _ _ _ _ _ h
  case shessArrays => exact pres_sparseHessianArrays _ _ _ _ _ _ h

theorem Keeps.fits {L : Lib R} {s s' : St R} (h : Keeps s s') (hf : s.Fits L) : s'.Fits L :=
  ⟨h.inp.trans hf.inp, h.inHess.trans hf.inHess, by rw [h.out]; exact hf.out⟩

theorem keeps_steps [Zero R] [One R] {L : Lib R} : ∀ {os : List (Op R)} {s s' : St R}, s.steps L os = some s' → Keeps s s'
  | [], s, s', h => by cases h; exact .refl _
  | o :: os, s, s', h => by
    simp only [St.steps] at h
    split at h
    · rename_i s1 h1
      exact (keeps_step h1).trans (keeps_steps h)
    · cases h

end Verif.Library.Call
