import Mathlib.Algebra.BigOperators.Group.Finset.Basic
import Mathlib.Algebra.Field.Defs
import Mathlib.Data.Finset.Range
import Verif.Model.DesignInfo

/-!
# Specification: contrast codings and the meaning of their coefficients

The cell means of a factor with `n` levels are `v 0, ..., v (n - 1)`.
-/

namespace Patsy.Contrast

open Patsy.Build (ContrastMatrix)

variable {K : Type} [Field K]

/-- The entry in row `i` and column `j`. -/
def entry (m : List (List K)) (i j : Nat) : K := (m[i]?.getD [])[j]?.getD 0

/-- The mean of the first `n` values. -/
def meanOf (n : Nat) (v : Nat → K) : K := (∑ i ∈ Finset.range n, v i) / n

/-- The level that column `j` belongs to when the level `r` has no column. -/
def skip (r j : Nat) : Nat := if j < r then j else j + 1

/-- `c` is a reduced coding of `n` levels: it has one column and one name less than levels, and every vector
of cell means is intercept plus columns times coefficients in exactly one way, where the intercept is `A v`
and the coefficients are `B v`. -/
structure IsReduced (c : ContrastMatrix K) (n : Nat) (A : (Nat → K) → K) (B : (Nat → K) → Nat → K) :
    Prop where
  rows : c.matrix.length = n
  cols : ∀ r ∈ c.matrix, r.length = n - 1
  ncols : c.ncols = n - 1
  names : c.suffixes.length = n - 1
  meaning : ∀ (v : Nat → K) (a : K) (b : Nat → K),
    (∀ i < n, v i = a + ∑ j ∈ Finset.range (n - 1), entry c.matrix i j * b j) ↔
      a = A v ∧ ∀ j < n - 1, b j = B v j

/-- `c` is a full coding of `n` levels: it has as many columns and names as levels, and every vector of cell
means is columns times coefficients in exactly one way, where the coefficients are `B v`. -/
structure IsFull (c : ContrastMatrix K) (n : Nat) (B : (Nat → K) → Nat → K) : Prop where
  rows : c.matrix.length = n
  cols : ∀ r ∈ c.matrix, r.length = n
  ncols : c.ncols = n
  names : c.suffixes.length = n
  meaning : ∀ (v : Nat → K) (b : Nat → K),
    (∀ i < n, v i = ∑ j ∈ Finset.range n, entry c.matrix i j * b j) ↔ ∀ j < n, b j = B v j

/-- What the manual calls the column of degree `j`. -/
def degreeName : Nat → String
  | 0 => ".Constant"
  | 1 => ".Linear"
  | 2 => ".Quadratic"
  | 3 => ".Cubic"
  | j => "^" ++ toString j

end Patsy.Contrast
