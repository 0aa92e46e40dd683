import Verif.Spec.SplineTransform
import Mathlib.Algebra.Polynomial.Derivative

/-! # Vocabulary for B-splines -/

namespace Patsy.Spec

open Patsy.SplineTransform Polynomial

/-- The value at `x` of the B-spline number `i` of degree `k` with the knots `t`, by the recursion of Cox and de Boor,
for a point `x` that belongs to the interval between the knots number `l` and `l + 1`.  (Quotients with denominator zero
are zero.) -/
noncomputable def deBoor (t : ℕ → ℝ) (l : ℕ) (x : ℝ) : ℕ → ℕ → ℝ
  | 0, i => if i = l then 1 else 0
  | k + 1, i => (x - t i) / (t (i + (k + 1)) - t i) * deBoor t l x k i +
      (t (i + 1 + (k + 1)) - x) / (t (i + 1 + (k + 1)) - t (i + 1)) * deBoor t l x k (i + 1)

/-- `splev` computes combinations of B-splines, at the points between the knot number `k` from the left and the knot
number `k` from the right.  The basic intervals are closed on the left and open on the right, but the last one is closed
on both sides.  Nothing is said about a last interval without interior, or about other points. -/
def EvaluatesSplines (splev : Splev) : Prop :=
  ∀ (x : ℝ) (knots : List ℝ) (coefs : ℕ → ℝ) (k l : ℕ) (t : ℕ → ℝ),
    knots.Pairwise (· ≤ ·) → (∀ i (h : i < knots.length), t i = knots[i]) → k ≤ l → l + k + 1 < knots.length →
    t l < t (l + 1) → t l ≤ x → (x < t (l + 1) ∨ x = t (l + 1) ∧ l + k + 2 = knots.length) →
    splev x knots coefs k = ∑ i ∈ Finset.range (knots.length - (k + 1)), coefs i * deBoor t l x k i

/-- `a` and `b` are neighbours among the ends `lo` and `hi` of the range and the inner knots. -/
def Adjacent (lo hi : ℝ) (inner : List ℝ) (a b : ℝ) : Prop :=
  a ∈ lo :: inner ∧ b ∈ hi :: inner ∧ a < b ∧ ∀ c ∈ inner, ¬ (a < c ∧ c < b)

/-- On the range from `lo` to `hi`, the function is a spline of degree `k` with the given inner knots: between neighbouring
knots it is a polynomial of degree at most `k`, and at an inner knot that is listed `m` times the polynomials on both
sides have the same derivatives up to the order `k - m`. -/
def IsSpline (k : ℕ) (lo hi : ℝ) (inner : List ℝ) (f : ℝ → ℝ) : Prop :=
  ∃ p : ℝ → ℝ[X], (∀ a, (p a).natDegree ≤ k) ∧
    (∀ a b, Adjacent lo hi inner a b → ∀ x, a ≤ x → (x < b ∨ x = b ∧ b = hi) → f x = (p a).eval x) ∧
    ∀ a b c, Adjacent lo hi inner a b → Adjacent lo hi inner b c → ∀ r, r + inner.count b ≤ k →
      (derivative^[r] (p a)).eval b = (derivative^[r] (p b)).eval b

end Patsy.Spec
