import Verif.Lemmas.CubicSpline
import Mathlib.Algebra.Ring.Periodic
import Mathlib.Analysis.Calculus.ContDiff.Defs
import Mathlib.Analysis.Calculus.IteratedDeriv.Lemmas

/-! # What cubic splines are -/

namespace Patsy.Spec

/-- The function is a polynomial of degree at most three on the interval from `a` to `b`. -/
def CubicOn (s : ℝ → ℝ) (a b : ℝ) : Prop :=
  ∃ c0 c1 c2 c3 : ℝ, ∀ x, a ≤ x → x ≤ b → s x = c0 + c1 * x + c2 * x ^ 2 + c3 * x ^ 3

/-- A natural cubic spline: twice continuously differentiable, cubic between adjacent knots and linear outside of
the knots. -/
structure IsNaturalSpline (size : Nat) (knots : Nat → ℝ) (s : ℝ → ℝ) : Prop where
  smooth : ContDiff ℝ 2 s
  cubic : ∀ j, j + 1 < size → CubicOn s (knots j) (knots (j + 1))
  left : ∃ a b, ∀ x, x ≤ knots 0 → s x = a + b * x
  right : ∃ a b, ∀ x, knots (size - 1) ≤ x → s x = a + b * x

/-- A cyclic cubic spline: twice continuously differentiable, with the distance of the first and last knots as a
period, and cubic between adjacent knots. -/
structure IsCyclicSpline (size : Nat) (knots : Nat → ℝ) (s : ℝ → ℝ) : Prop where
  smooth : ContDiff ℝ 2 s
  periodic : Function.Periodic s (knots (size - 1) - knots 0)
  cubic : ∀ j, j + 1 < size → CubicOn s (knots j) (knots (j + 1))

end Patsy.Spec
