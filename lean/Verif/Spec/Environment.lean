import Verif.Model.Environment

/-!
# Specification of variable lookup

Scopes are functions; the value of a name is its value in the first scope that has it.
-/

namespace Patsy.Spec

open Patsy.Environment

variable {V R : Type}

/-- What a scope says about a name. -/
abbrev Scope (V : Type) := String → Option V

/-- The value in the first scope that has the name. -/
def resolve : List (Scope V) → Scope V
  | [], _ => none
  | s :: ss, n => match s n with
    | some v => some v
    | none => resolve ss n

/-- A scope with one more assignment. -/
def assign (s : Scope V) (n : String) (v : V) : Scope V := fun m => if m = n then some v else s m

/-- What code computes in given scopes, with what it has assigned itself in front; `Q(name)` does not see the
names of Python itself (`py`). -/
def sem (py : Scope V) (scopes : List (Scope V)) : Scope V → Prog V R → Except Err R
  | _, .done r => .ok r
  | _, .fail e => .error e
  | own, .load n k =>
    match resolve (own :: scopes ++ [py]) n with
    | some v => sem py scopes own (k v)
    | none => .error .nameError
  | own, .store n v k => sem py scopes (assign own n v) k
  | own, .quote n k =>
    match resolve (own :: scopes) n with
    | some v => sem py scopes own (k v)
    | none => .error .nameError

/-- Every name that the code loads, quotes or stores has the property. -/
def Uses (P : String → Prop) : Prog V R → Prop
  | .done _ => True
  | .fail _ => True
  | .load n k => P n ∧ ∀ v, Uses P (k v)
  | .store n _ k => P n ∧ Uses P k
  | .quote n k => P n ∧ ∀ v, Uses P (k v)

/-- What scopes say about some names, and nothing about others. -/
def captured (names : List String) (scopes : List (Scope V)) : Scope V := fun n =>
  if n ∈ names then resolve scopes n else none

/-- Lookups refer to dictionaries created earlier. -/
def Valid (h : Heap V) : Prop := ∀ (a : Nat) (ds : List Nat), h[a]? = some (.vld ds) → ∀ b ∈ ds, b < a

end Patsy.Spec
