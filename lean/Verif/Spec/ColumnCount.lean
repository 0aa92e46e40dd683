import Mathlib.Algebra.BigOperators.Group.Finset.Basic
import Mathlib.Data.Finset.Powerset
import Verif.Spec.Build

/-!
# How many columns a model has
-/

namespace Patsy.Spec

open Patsy.Build Patsy.Desc

variable {F : Type} [DecidableEq F]

/-- The numerical and the categorical factors of a term; `nums` has the numbers of columns of the numerical factors. -/
def numericalOf (nums : List (F × Nat)) (t : Term F) : Finset F :=
  (t.factors.filter fun f => (dictGet nums f).isSome).toFinset

def categoricalOf (nums : List (F × Nat)) (t : Term F) : Finset F :=
  (t.factors.filter fun f => (dictGet nums f).isNone).toFinset

/-- The effects of a model: the numerical factors of a term together with any set of categorical factors of the term. -/
def effects (nums : List (F × Nat)) (ts : List (Term F)) : Finset (Finset F × Finset F) :=
  (ts.map fun t => (categoricalOf nums t).powerset.image fun S => (numericalOf nums t, S)).toFinset.biUnion id

/-- The degrees of freedom of an effect: the product of the numbers of columns of the numerical factors, times the product
of the numbers of levels less one. -/
def degrees (nums : List (F × Nat)) (n : F → Nat) (e : Finset F × Finset F) : Nat :=
  (∏ f ∈ e.1, (dictGet nums f).getD 0) * ∏ f ∈ e.2, (n f - 1)

end Patsy.Spec
