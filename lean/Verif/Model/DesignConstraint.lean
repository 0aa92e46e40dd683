import Verif.Model.DesignInfo
import Verif.Model.Constraint

/-!
# Model of `DesignInfo.linear_constraint`
-/

namespace Patsy.Build

open Patsy.Constraint (Name LinCon ConLike)

variable {F D C K : Type} [DecidableEq F] [Field K] [DecidableEq K]

/-- `DesignInfo.linear_constraint` (design_info.py:506-555).  `float` is Python's conversion of numerals. -/
def DesignInfo.linearConstraint (d : DesignInfo F D C) (float : Name → K) (c : ConLike K) : Except Err (LinCon K) :=
  Patsy.Constraint.linearConstraint (d.columnNames.map String.toList) float c

end Patsy.Build
