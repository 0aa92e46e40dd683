import Mathlib.Data.Prod.Lex
import Mathlib.Data.String.Basic
import Verif.Model.Categorical

/-!
# Specification: missing values, levels and their order
-/

namespace Patsy.Cat

open Patsy.Build (NAAction)

/-- The documented notion of a missing categorical value (missing.py:63-68, 102-106): NaN and
`None`, as far as requested. -/
def Missing (na : NAAction) : PyVal → Prop
  | .nan _ => na.nan = true
  | .none => na.none = true
  | _ => False

/-- Values for which the code agrees with the documented notion: not a string like `"nan"`, not a
gigantic integer. -/
def Ordinary : PyVal → Prop
  | .str s => isNanString s = false
  | .int i => -(2 ^ 1024 - 2 ^ 970) < i ∧ i < 2 ^ 1024 - 2 ^ 970
  | _ => True

/-- A value that can be handled: ordinary, and missing or hashable. -/
def Good (na : NAAction) (v : PyVal) : Prop := Ordinary v ∧ (Missing na v ∨ v.key.isSome = true)

/-- `k` is the key of a level that the data show: that of a non-missing value; the two truth values
always come together. -/
def Shows (na : NAAction) (data : List PyVal) (k : Key) : Prop :=
  (∃ v ∈ data, ¬ Missing na v ∧ v.key = some k) ∨
  ((k = .num 0 ∨ k = .num 1) ∧ ∃ b, PyVal.bool b ∈ data)

/-- The data show exactly the keys of `False` and `True`. -/
def ShowsBools (na : NAAction) (data : List PyVal) : Prop :=
  ∀ k, Shows na data k ↔ k = .num 0 ∨ k = .num 1

/-- The order of levels: numbers by value, then `None`, then strings. -/
def Precedes : PyVal → PyVal → Prop
  | .str s, .str t => s < t
  | .str _, _ => False
  | .none, .str _ => True
  | .none, _ => False
  | a, b =>
    match a.numVal, b.numVal with
    | some x, some y => x < y
    | some _, none => True
    | _, _ => False

/-- `levels` are the distinct levels that the data show, in order. -/
structure AreLevels (na : NAAction) (data levels : List PyVal) : Prop where
  distinct : (levels.map PyVal.key).Nodup
  shown : ∀ k, some k ∈ levels.map PyVal.key ↔ Shows na data k
  hashable : ∀ v ∈ levels, v.key.isSome = true
  ordered : levels.Pairwise Precedes

end Patsy.Cat
