import Verif.Model.SplineTransform

/-!
# `scipy.interpolate.splev`

`_eval_bspline_basis` (splines.py:19-62) calls SciPy's `splev`, which is the routine of the same name in FITPACK (P. Dierckx).
That code is not part of the repository.  It is restated here from its published source (`splev.f` and `fpbspl.f`), with
real numbers instead of floating point numbers, for one point at a time, and for points between the boundary knots.
-/

namespace Patsy.Splev

open Patsy.SplineTransform

/-- `fpbspl.f`: the `j + 1` B-splines of degree `j` that are not zero between the knots number `l` and `l + 1` (counting from
zero).  The inner loop adds at most two contributions to every entry; a contribution is left out if the knots coincide. -/
noncomputable def fpbspl (t : ℕ → ℝ) (x : ℝ) (l : ℕ) : ℕ → ℕ → ℝ
  | 0 => fun _ => 1
  | j + 1 => fun i =>
    let f := fun m => if t (l + m + 1) = t (l + m - j) then 0 else fpbspl t x l j m / (t (l + m + 1) - t (l + m - j))
    (if i ≤ j then f i * (t (l + i + 1) - x) else 0) + if 1 ≤ i then f (i - 1) * (x - t (l + i - 1 - j)) else 0

/-- The loop of `splev.f` that looks for the interval of the knots, from `l` on, at most `steps` intervals further. -/
noncomputable def search (t : ℕ → ℝ) (x : ℝ) : ℕ → ℕ → ℕ
  | 0, l => l
  | steps + 1, l => if t (l + 1) ≤ x then search t x steps (l + 1) else l

/-- `splev.f`: find the interval, evaluate the B-splines, add them up.  The first interval is the one after the knot number
`k`, the last one is the one before the knot number `len(t) - k - 1`. -/
noncomputable def splev : Splev := fun x knots coefs k =>
  let t := fun i => knots.getD i 0
  let l := search t x (knots.length - 2 * (k + 1)) k
  ∑ j ∈ Finset.range (k + 1), coefs (l - k + j) * fpbspl t x l k j

end Patsy.Splev
