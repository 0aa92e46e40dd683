import Verif.Spec.CellMeans

/-!
# Specification for C83: regression on one numerical variable
-/

namespace Patsy.Spec

variable {K : Type} [Field K]

/-- The mean of `n` numbers. -/
def average {n : Nat} (y : Fin n → K) : K := (∑ i, y i) / n

/-- The sum of the products of the deviations from the means. -/
def deviations {n : Nat} (x y : Fin n → K) : K := ∑ i, (x i - average x) * (y i - average y)

end Patsy.Spec
