import Mathlib.Data.Real.Archimedean
import Mathlib.LinearAlgebra.Matrix.NonsingularInverse
import Verif.Model.Err

/-!
# Model of the cubic regression splines of `patsy/mgcv_cubic_splines.py`

Numbers are real numbers.  An array of knots is a function on positions together with its size; it is sorted in
all uses.  The functions work elementwise on `x`; the model is about one element.
-/

namespace Patsy.CubicSpline

/-- Python's and NumPy's `%` on numbers. -/
noncomputable def pymod (a b : ℝ) : ℝ := a - ⌊a / b⌋ * b

/-- `_map_cyclic` (mgcv_cubic_splines.py:61-81). -/
noncomputable def mapCyclic (x lbound ubound : ℝ) : Except Err ℝ :=
  if lbound ≥ ubound then .error .valueError
  else
    let y := if x > ubound then lbound + pymod (x - ubound) (ubound - lbound) else x
    .ok (if y < lbound then ubound - pymod (lbound - y) (ubound - lbound) else y)

/-- Conversion of a number to an integer when it is assigned to an element of an integer array: the fraction is
dropped. -/
noncomputable def truncate (r : ℝ) : Int := if 0 ≤ r then ⌊r⌋ else ⌈r⌉

/-- `_map_cyclic` (mgcv_cubic_splines.py:61-81) when `x` is an array of integers: `np.copy(x)` is an array of
integers as well, and the assignments at lines 78-79 convert.  The bounds are numbers of any kind. -/
noncomputable def mapCyclicInt (x : Int) (lbound ubound : ℝ) : Except Err Int :=
  if lbound ≥ ubound then .error .valueError
  else
    let y := if (x : ℝ) > ubound then truncate (lbound + pymod (x - ubound) (ubound - lbound)) else x
    .ok (if (y : ℝ) < lbound then truncate (ubound - pymod (lbound - y) (ubound - lbound)) else y)

/-- `np.searchsorted(knots, x)` for sorted knots: the number of knots before `x`. -/
noncomputable def searchSorted (size : Nat) (knots : Nat → ℝ) (x : ℝ) : Nat :=
  ((List.range size).filter fun i => decide (knots i < x)).length

/-- `_find_knots_lower_bounds` (mgcv_cubic_splines.py:226-250). -/
noncomputable def lowerBound (size : Nat) (knots : Nat → ℝ) (x : ℝ) : Int :=
  let lb : Int := (searchSorted size knots x : Int) - 1
  let lb := if lb = -1 then 0 else lb
  if lb = (size : Int) - 1 then (size : Int) - 2 else lb

/-- The values of the base functions and the index (mgcv_cubic_splines.py:253-287). -/
structure Base where
  ajm : ℝ
  ajp : ℝ
  cjm : ℝ
  cjp : ℝ
  j : Nat

/-- `_compute_base_functions` (mgcv_cubic_splines.py:253-287).  The index is not negative because there are at
least two knots; the smallest and largest knots are the first and last. -/
noncomputable def baseFunctions (size : Nat) (knots : Nat → ℝ) (x : ℝ) : Base :=
  let j := (lowerBound size knots x).toNat
  let hj := knots (j + 1) - knots j
  let xj1_x := knots (j + 1) - x
  let x_xj := x - knots j
  let cjm_3 := if x > knots (size - 1) then 0 else xj1_x * xj1_x * xj1_x / (6 * hj)
  let cjp_3 := if x < knots 0 then 0 else x_xj * x_xj * x_xj / (6 * hj)
  { ajm := xj1_x / hj, ajp := x_xj / hj, cjm := cjm_3 - hj * xj1_x / 6, cjp := cjp_3 - hj * x_xj / 6, j := j }

/-- `h` (mgcv_cubic_splines.py:44, 112). -/
def gap (knots : Nat → ℝ) (i : Nat) : ℝ := knots (i + 1) - knots i

/-- `banded_b` (mgcv_cubic_splines.py:45-47) for `n + 2` knots: rows 0, 1, 2 of the array. -/
noncomputable def bandedB (n : Nat) (knots : Nat → ℝ) (r j : Nat) : ℝ :=
  if r = 0 then if j = 0 then 0 else gap knots j / 6
  else if r = 1 then (gap knots j + gap knots (j + 1)) / 3
  else if j + 1 < n then gap knots (j + 1) / 6 else 0

/-- The matrix that `solve_banded((1, 1), ab, d)` means: the entry at row `i` and column `j` is `ab[1 + i - j, j]`
if that exists. -/
noncomputable def bandedMatrix (n : Nat) (ab : Nat → Nat → ℝ) : Matrix (Fin n) (Fin n) ℝ := fun i j =>
  if (j : Nat) ≤ 1 + i ∧ 1 + (i : Nat) - j ≤ 2 then ab (1 + i - j) j else 0

/-- `d` (mgcv_cubic_splines.py:48-52). -/
noncomputable def naturalD (n : Nat) (knots : Nat → ℝ) : Matrix (Fin n) (Fin (n + 2)) ℝ := fun i c =>
  if (c : Nat) = i then 1 / gap knots i
  else if (c : Nat) = i + 2 then 1 / gap knots (i + 1)
  else if (c : Nat) = i + 1 then -(1 / gap knots i) - 1 / gap knots (i + 1)
  else 0

/-- `_get_natural_f` (mgcv_cubic_splines.py:25-56) for `n + 2` knots, by rows.  The banded solver is exact: it
multiplies by the inverse matrix (which exists, see `natural_b_det`). -/
noncomputable def naturalF (n : Nat) (knots : Nat → ℝ) (i : Nat) (c : Fin (n + 2)) : ℝ :=
  if h : 1 ≤ i ∧ i - 1 < n then
    ((bandedMatrix n (bandedB n knots))⁻¹ * naturalD n knots) ⟨i - 1, h.2⟩ c
  else 0

/-- A row of the result of `_get_free_crs_dmatrix(x, knots)` (mgcv_cubic_splines.py:313-351) for natural splines
with `n + 2` knots.  With two knots the rows of `banded_b` have different lengths, which NumPy rejects. -/
noncomputable def naturalRow (n : Nat) (knots : Nat → ℝ) (x : ℝ) : Except Err (Fin (n + 2) → ℝ) :=
  if n = 0 then .error .valueError
  else
    let b := baseFunctions (n + 2) knots x
    .ok fun c => b.ajm * (if b.j = c then 1 else 0) + b.ajp * (if b.j + 1 = c then 1 else 0) +
      b.cjm * naturalF n knots b.j c + b.cjp * naturalF n knots (b.j + 1) c

/-- `m[i, j] = v`. -/
def put (m : Nat → Nat → ℝ) (i j : Nat) (v : ℝ) : Nat → Nat → ℝ := fun a b => if a = i ∧ b = j then v else m a b

/-- The matrix `b` of `_get_cyclic_f` (mgcv_cubic_splines.py:114-129) for `n + 1` knots, assignment by
assignment. -/
noncomputable def cyclicB (n : Nat) (knots : Nat → ℝ) : Nat → Nat → ℝ :=
  let h := gap knots
  let b : Nat → Nat → ℝ := fun _ _ => 0
  let b := put b 0 0 ((h (n - 1) + h 0) / 3)
  let b := put b 0 (n - 1) (h (n - 1) / 6)
  let b := put b (n - 1) 0 (h (n - 1) / 6)
  (List.range' 1 (n - 1)).foldl (fun b i =>
    let b := put b i i ((h (i - 1) + h i) / 3)
    let b := put b i (i - 1) (h (i - 1) / 6)
    put b (i - 1) i (h (i - 1) / 6)) b

/-- The matrix `d` of `_get_cyclic_f` (mgcv_cubic_splines.py:115-133). -/
noncomputable def cyclicD (n : Nat) (knots : Nat → ℝ) : Nat → Nat → ℝ :=
  let h := gap knots
  let d : Nat → Nat → ℝ := fun _ _ => 0
  let d := put d 0 0 (-1 / h 0 - 1 / h (n - 1))
  let d := put d 0 (n - 1) (1 / h (n - 1))
  let d := put d (n - 1) 0 (1 / h (n - 1))
  (List.range' 1 (n - 1)).foldl (fun d i =>
    let d := put d i i (-1 / h (i - 1) - 1 / h i)
    let d := put d i (i - 1) (1 / h (i - 1))
    put d (i - 1) i (1 / h (i - 1))) d

/-- `_get_cyclic_f` (mgcv_cubic_splines.py:101-133) for `n + 1` knots; `np.linalg.solve` is exact. -/
noncomputable def cyclicF (n : Nat) (knots : Nat → ℝ) : Matrix (Fin n) (Fin n) ℝ :=
  (Matrix.of fun (i j : Fin n) => cyclicB n knots i j)⁻¹ * Matrix.of fun (i j : Fin n) => cyclicD n knots i j

/-- A row of a matrix, zero outside. -/
def rowAt {n : Nat} (f : Matrix (Fin n) (Fin n) ℝ) (i : Nat) (c : Fin n) : ℝ := if h : i < n then f ⟨i, h⟩ c else 0

/-- A row of the result of `_get_free_crs_dmatrix(x, knots, cyclic=True)` (mgcv_cubic_splines.py:331-351) for
`n + 1` knots, after `_map_cyclic`. -/
noncomputable def cyclicRowMapped (n : Nat) (knots : Nat → ℝ) (x : ℝ) : Fin n → ℝ :=
  let b := baseFunctions (n + 1) knots x
  let j1 := if b.j + 1 = n then 0 else b.j + 1
  fun c => b.ajm * (if b.j = c then 1 else 0) + b.ajp * (if j1 = c then 1 else 0) +
    b.cjm * rowAt (cyclicF n knots) b.j c + b.cjp * rowAt (cyclicF n knots) j1 c

/-- A row of the result of `_get_free_crs_dmatrix(x, knots, cyclic=True)` (mgcv_cubic_splines.py:313-351) for
`n + 1` knots.  The elements of `x` are floating-point numbers (modelled as real numbers). -/
noncomputable def cyclicRow (n : Nat) (knots : Nat → ℝ) (x : ℝ) : Except Err (Fin n → ℝ) := do
  let x ← mapCyclic x (knots 0) (knots n)
  pure (cyclicRowMapped n knots x)

/-- The same where the elements of `x` are integers. -/
noncomputable def cyclicRowInt (n : Nat) (knots : Nat → ℝ) (x : Int) : Except Err (Fin n → ℝ) := do
  let x ← mapCyclicInt x (knots 0) (knots n)
  pure (cyclicRowMapped n knots x)

end Patsy.CubicSpline
