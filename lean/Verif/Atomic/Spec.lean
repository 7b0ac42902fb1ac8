import Mathlib.Algebra.Ring.Defs
import Verif.Deriv.Spec
/-
Specification for atomic functions: the Taylor coefficients and the partial derivatives an atomic function has to give.

A function with `n` arguments and `m` results is given by its values, first and second derivatives at every point. For a
point `x` and a direction `t` the first order Taylor coefficients of the results are `tangent`. With weights `w0` of the
zero order and `w1` of the first order coefficients of the results the weighted sum is

  `W(x, t) = Σ_i w0_i f_i(x) + Σ_i w1_i Σ_k ∂f_i/∂x_k(x) t_k`

`partialX` is its derivative with respect to `x_j` and `partialT` the one with respect to `t_j`.
-/
namespace Verif.Atomic
open Verif.Deriv (sumTo)

structure Fn (R : Type) where
  n : Nat
  m : Nat
  /-- `f_i(x)` -/
  val : List R → Nat → R
  /-- the derivative of `f_i` with respect to `x_j` -/
  jac : List R → Nat → Nat → R
  /-- the derivative of `jac x i k` with respect to `x_j` -/
  hes : List R → Nat → Nat → Nat → R

variable {R : Type} [Zero R] [Add R] [Mul R]

def tangent (F : Fn R) (x : List R) (t : Nat → R) (i : Nat) : R := sumTo F.n fun j => F.jac x i j * t j

def partialT (F : Fn R) (x : List R) (w1 : Nat → R) (j : Nat) : R := sumTo F.m fun i => F.jac x i j * w1 i

def partialX (F : Fn R) (x : List R) (t w0 w1 : Nat → R) (j : Nat) : R :=
  (sumTo F.m fun i => F.jac x i j * w0 i) + sumTo F.n fun k => (sumTo F.m fun i => F.hes x i k j * w1 i) * t k

/-- the first derivatives which may be different from zero are in `dep` -/
def JacIn (F : Fn R) (dep : Nat → Nat → Prop) : Prop := ∀ x, ∀ i < F.m, ∀ j < F.n, ¬ dep i j → F.jac x i j = 0

/-- the second derivatives of `f_i` which may be different from zero are in `hdep i` -/
def HesIn (F : Fn R) (hdep : Nat → Nat → Nat → Prop) : Prop :=
  ∀ x, ∀ i < F.m, ∀ k < F.n, ∀ j < F.n, ¬ hdep i k j → F.hes x i k j = 0

end Verif.Atomic
