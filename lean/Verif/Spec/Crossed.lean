import Verif.Spec.CellMeans

/-!
# Specification for C83: two categorical factors
-/

namespace Patsy.Spec

open Patsy.Build Patsy.Desc Patsy.Cat

variable {F K : Type} [DecidableEq F] [Field K]

/-- The rows with level `l` of the factor `a` and level `k` of the factor `b`. -/
def group2 (rows : List (F → Option (Cell K))) (a b : F) (l k : Nat) : Finset (Fin rows.length) :=
  Finset.univ.filter fun i => levelAt rows[i] a = l ∧ levelAt rows[i] b = k

/-- The mean of `y` over these rows. -/
def groupMean2 (rows : List (F → Option (Cell K))) (a b : F) (y : Fin rows.length → K) (l k : Nat) : K :=
  (∑ i ∈ group2 rows a b l k, y i) / (group2 rows a b l k).card

end Patsy.Spec
