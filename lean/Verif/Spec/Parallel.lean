import Verif.Spec.CellMeans

/-!
# Specification for C83: one categorical and one numerical factor
-/

namespace Patsy.Spec

open Patsy.Build Patsy.Desc Patsy.Cat

variable {F K : Type} [DecidableEq F] [Field K]

/-- The sum of the products of the deviations from the means of the groups of the factor `a`. -/
def within (rows : List (F → Option (Cell K))) (a : F) (x y : Fin rows.length → K) : K :=
  ∑ i, (x i - groupMean rows a x (levelAt rows[i] a)) * (y i - groupMean rows a y (levelAt rows[i] a))

end Patsy.Spec
