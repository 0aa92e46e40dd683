import Verif.Model.Builders

/-!
# Model of `LookupFactor` (`patsy/user_util.py:172-262`)
-/

namespace Patsy.UserUtil

open Patsy.Build Patsy.Cat

/-- The attributes of a `LookupFactor` (user_util.py:199-207) but for the origin, which is only used in messages.  `Cn` are
contrast objects.  Two `LookupFactor`s are equal if their attributes are (user_util.py:220-227).  Simplification: the levels
are a tuple (a list cannot be hashed, so that `design_matrix_builders` would raise a `TypeError`), and two tuples of levels are
the same only if their elements are of the same types. -/
structure LookupFactor (Cn : Type) where
  varname : String
  forceCategorical : Bool := false
  contrast : Option Cn := none
  levels : Option (List PyVal) := none
  deriving DecidableEq

variable {Cn D V K H : Type}

/-- `LookupFactor.__init__` (user_util.py:199-212). -/
def LookupFactor.make (varname : String) (forceCategorical : Bool) (contrast : Option Cn) (levels : Option (List PyVal)) :
    Except Err (LookupFactor Cn) :=
  if forceCategorical = false then
    if contrast.isSome then .error .valueError
    else if levels.isSome then .error .valueError
    else .ok ⟨varname, forceCategorical, contrast, levels⟩
  else .ok ⟨varname, forceCategorical, contrast, levels⟩

/-- `LookupFactor.name` (user_util.py:214-215). -/
def LookupFactor.name (f : LookupFactor Cn) : String := f.varname

/-- `LookupFactor.eval` (user_util.py:254-258).  `get` is the subscription of the data, `see` what patsy sees of a value, `specOf`
what a contrast object is for patsy. -/
def LookupFactor.eval (get : D → String → Except Err V) (see : V → Seen K) (specOf : Cn → Contrast.Spec K) (f : LookupFactor Cn)
    (d : D) : Except Err (Seen K) := do
  let value ← get d f.varname
  let s := see value
  if f.forceCategorical then pure { s with value := mkC s.value (f.contrast.map specOf) f.levels }
  else pure s

/-- What `design_matrix_builders` (build.py:693-796) works with if all factors are `LookupFactor`s: as
`memorize_passes_needed` is 0 (user_util.py:245-246), `_factors_memorize` (build.py:386-413) does nothing. -/
def lookupSetting (hash : Redundancy.Subterm (LookupFactor Cn) → H) (visit : List (LookupFactor Cn) → List (LookupFactor Cn))
    (order : List PyVal → List PyVal) (default : Contrast.Spec K) (na : NAAction) (get : D → String → Except Err V)
    (see : V → Seen K) (specOf : Cn → Contrast.Spec K) : Setting (LookupFactor Cn) D K H where
  name := LookupFactor.name
  hash := hash
  visit := visit
  order := order
  default := default
  na := na
  memorize _ := .ok fun f d => f.eval get see specOf d

end Patsy.UserUtil
