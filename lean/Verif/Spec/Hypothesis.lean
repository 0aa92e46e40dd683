import Verif.Spec.CellMeans
import Verif.Spec.ConstraintWays

/-!
# Specification for C85: least squares under linear constraints
-/

namespace Patsy.Spec

open Patsy.Constraint (Name LinCon)

variable {K : Type} [Field K]

/-- The sum of the columns with the given coefficients. -/
def combination (n : Nat) (cols : List (List K)) (x : List K) : Fin n → K := weighted n cols fun j => x[j]?.getD 0

/-- `v` is a vector of fitted values of least squares with the given columns (`n` rows) and outcome `y`, where only
coefficients are allowed that satisfy the constraint. -/
def FittedUnder [LE K] (n : Nat) (cols : List (List K)) (c : LinCon K) (y v : Fin n → K) : Prop :=
  (∃ x, x.length = cols.length ∧ Sat c x ∧ v = combination n cols x) ∧
    ∀ x, x.length = cols.length → Sat c x → ∑ i, (y i - v i) ^ 2 ≤ ∑ i, (y i - combination n cols x i) ^ 2

/-- The demand that the columns that are not in the smaller design have the coefficient 0. -/
def vanishing (names smaller : List Name) : List (Name × K) := (names.filter (· ∉ smaller)).map fun n => (n, 0)

end Patsy.Spec
