import Verif.Model.State
import Mathlib.Data.Rat.Defs
import Mathlib.Algebra.Field.Rat

/-!
# Patsy's own tests about stateful transforms

Transcribed from `/repo/patsy/test_state.py`.  These are tests of the model, not proofs of properties.  Where a test has a square
root in it, the squares of the values are compared here (`root` gives back its argument), with rational numbers.
-/

namespace Patsy.Conformance.StateTests

open Patsy.State

/-- An array with the columns `input` and `input[::-1]`. -/
def both (l : List ℚ) : List (Row Bool ℚ) := (l.zip l.reverse).map fun p b => if b then p.2 else p.1

def unpack (l : List (Row Bool ℚ)) : List (ℚ × ℚ) := l.map fun r => (r false, r true)

/-- `check_stateful` (test_state.py:11-129): one chunk, and one chunk for each row. -/
def check {S : Type} (T : Transform S (List (Row Bool ℚ)) (List (Row Bool ℚ))) (input output : List ℚ) : Bool :=
  [[both input], (both input).map fun r => [r]].all fun chunks =>
    okIs (do pure (unpack (← T.transform (T.memorized chunks) (both input)))) (output.zip output.reverse) &&
    okIs (do pure ((← chunks.mapM (T.transform (T.memorized chunks))).flatMap unpack)) (output.zip output.reverse)

/-! ### `test_Center` (test_state.py:132-135) -/

example : check centerT [1, 2, 3] [-1, 0, 1] = true := by decide +kernel
example : check centerT [1, 2, 1, 2] [-1/2, 1/2, -1/2, 1/2] = true := by decide +kernel
example : check centerT [13/10, -101/10, 7, 12] [-125/100, -1265/100, 445/100, 945/100] = true := by decide +kernel

/-! ### `test_stateful_transform_wrapper` (test_state.py:138-164) -/

example : okIs (do pure (unpack (← centerT.call (both [1, 2, 3])))) [(-1, 1), (0, 0), (1, -1)] = true := by decide +kernel

/-! ### `test_Standardize` (test_state.py:167-207) -/

/-- The values are divided by the variance instead of its root. -/
def byVariance (center rescale : Bool) (ddof : ℚ) := standardizeT (ι := Bool) (fun v : ℚ => v) center rescale ddof

def r20 : List ℚ := (List.range 20).map fun n => (n : ℚ)

example : check (byVariance true true 0) [1, -1] [1, -1] = true := by decide +kernel
example : check (byVariance true true 0) [12, 10] [1, -1] = true := by decide +kernel
/-- The variance is 2/3, so that the values of the test are 1 and -1 divided by its root. -/
example : check (byVariance true true 0) [12, 11, 10] [3/2, 0, -3/2] = true := by decide +kernel
example : check (byVariance true true 1) [1, -1] [1/2, -1/2] = true := by decide +kernel
/-- 5.766... and 5.916... are the roots of 33.25 and 35. -/
example : check (byVariance true true 0) r20 (r20.map fun n => (n - 19/2) / (133/4)) = true := by decide +kernel
example : check (byVariance true true 1) r20 (r20.map fun n => (n - 19/2) / 35) = true := by decide +kernel
example : check (byVariance true false 1) r20 (r20.map fun n => n - 19/2) = true := by decide +kernel
example : check (byVariance false true 1) r20 (r20.map fun n => n / 35) = true := by decide +kernel
example : check (byVariance false false 1) r20 r20 = true := by decide +kernel

end Patsy.Conformance.StateTests
