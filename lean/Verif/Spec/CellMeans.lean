import Verif.Spec.Predict

/-!
# Cells of a data set and what regression makes of them

Rows belong to the same cell if the categorical factors have the same levels in them.
-/

namespace Patsy.Spec

open Patsy.Build Patsy.Desc Patsy.Cat

variable {F K : Type} [DecidableEq F] [Field K]

/-- The rows in the same cell as row `i`: those with the same levels of the factors `fs`. -/
def cellRows (rows : List (F → Option (Cell K))) (fs : List F) (i : Fin rows.length) : Finset (Fin rows.length) :=
  Finset.univ.filter fun i' => ∀ f ∈ fs, levelAt rows[i] f = levelAt rows[i'] f

/-- The mean of `y` in the cell of row `i`. -/
def cellMean (rows : List (F → Option (Cell K))) (fs : List F) (y : Fin rows.length → K) (i : Fin rows.length) : K :=
  (∑ i' ∈ cellRows rows fs i, y i') / (cellRows rows fs i).card

/-- The rows with level `l` of the factor `a`. -/
def group (rows : List (F → Option (Cell K))) (a : F) (l : Nat) : Finset (Fin rows.length) :=
  Finset.univ.filter fun i => levelAt rows[i] a = l

/-- The mean of `y` over the rows with level `l` of the factor `a`. -/
def groupMean (rows : List (F → Option (Cell K))) (a : F) (y : Fin rows.length → K) (l : Nat) : K :=
  (∑ i ∈ group rows a l, y i) / (group rows a l).card

/-- The coefficients `b` solve the least squares problem with the given columns (`n` rows) and outcome `y`. -/
def Solves [LE K] (n : Nat) (cols : List (List K)) (y : Fin n → K) (b : Nat → K) : Prop :=
  Fitted n cols y (weighted n cols b)

end Patsy.Spec
