import Verif.Model.DesignInfo

/-!
# Model of `DesignInfo.terms`, `DesignInfo.term_names` and `DesignInfo.describe` (`patsy/design_info.py`)
-/

namespace Patsy.Build

open Patsy.Desc Patsy.Infix

variable {F D K : Type} [DecidableEq F]

/-- `DesignInfo.terms` (design_info.py:419-424). -/
def DesignInfo.terms (d : DesignInfo F D K) : Option (List (Term F)) := d.termSlices.map (List.map Prod.fst)

/-- `DesignInfo.term_names` (design_info.py:426-429). -/
def DesignInfo.termNames (d : DesignInfo F D K) : List String := d.termNameSlices.map Prod.fst

/-- `DesignInfo.describe` (design_info.py:557-588). -/
def DesignInfo.describe (d : DesignInfo F D K) : String :=
  " + ".intercalate (d.termNames.map fun n => if n = "Intercept" then "1" else n)

end Patsy.Build
