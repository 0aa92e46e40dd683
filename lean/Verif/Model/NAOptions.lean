import Verif.Model.Missing

/-!
# Model of the arguments that say what to do with missing values
-/

namespace Patsy.Build

/-- The argument `NA_types` of `NAAction`: a string, which is refused, or a list of strings. -/
inductive NATypesArg where
  | string (s : String)
  | list (l : List String)
  deriving DecidableEq, Repr

/-- `NAAction.__init__` (missing.py:91-122), with `_valid_NA_types` and `_valid_NA_responses` (missing.py:46-47). -/
def NAAction.make (onNA : String) (types : NATypesArg) : Except Err NAAction :=
  if onNA ∉ ["raise", "drop"] then .error .valueError
  else
    match types with
    | .string _ => .error .valueError
    | .list l =>
      if l.any fun t => decide (t ∉ ["None", "NaN"]) then .error .valueError
      else .ok ⟨if onNA = "raise" then .raise else .drop, decide ("NaN" ∈ l), decide ("None" ∈ l)⟩

/-- The argument `NA_action` of the functions: a string or an object. -/
inductive NAArg where
  | string (s : String)
  | action (a : NAAction)
  deriving DecidableEq, Repr

/-- What the functions make of it (build.py:737-738, 929-930); the default `NA_types` are both (missing.py:91). -/
def NAArg.resolve : NAArg → Except Err NAAction
  | .string s => NAAction.make s (.list ["None", "NaN"])
  | .action a => .ok a

end Patsy.Build
