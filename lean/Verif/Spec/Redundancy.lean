import Mathlib.Data.Finset.Basic

/-!
# What a coding of categorical factors is supposed to mean

(Documented in doc/formulas.rst, section "Redundancy and categorical factors".)
A model over categorical factors is a family of *elementary effects*; an
elementary effect is a finite set of factors (the empty set is the intercept,
`{a, b}` is the pure interaction of `a` and `b`).  This file does not mention
the model of the code.
-/

namespace Patsy.Spec

universe u
variable {F : Type u}

/-- A *coding* assigns to every factor that takes part `some true` (full-rank
coding) or `some false` (reduced-rank coding), and `none` to factors that take no
part.  It spans the elementary effect `S` iff every reduced-coded factor is in
`S` and every factor in `S` takes part: a reduced-coded factor must be present,
a full-coded factor may be present or absent. -/
def Spans (coding : F → Option Bool) (S : Finset F) : Prop :=
  (∀ f, coding f = some false → f ∈ S) ∧ ∀ f ∈ S, coding f ≠ none

/-- The effect `S` is contained in the term made of the categorical factors
`term`. -/
def Contains (term : List F) (S : Finset F) : Prop := ∀ f ∈ S, f ∈ term

end Patsy.Spec
