import Verif.Spec.TermOrder
import Verif.Spec.Build

/-!
# Specification for C77: terms that are added to a formula
-/

namespace Patsy.Spec

open Patsy.Build Patsy.Desc

variable {F D K : Type} [DecidableEq F]

/-- Is `f` a numerical factor of the design? -/
def numericalIn (d : DesignInfo F D K) (f : F) : Bool :=
  match d.coding.bind fun c => dictGet c.factorInfos f with
  | some ⟨_, _, .numerical _, _⟩ => true
  | _ => false

/-- No new term has fewer factors than an old term with the same numerical factors. -/
def Later (isNum : F → Bool) (old new : List (Term F)) : Prop :=
  ∀ u ∈ new, ∀ t ∈ old, sameGroup isNum t u = true → t.factors.length ≤ u.factors.length

end Patsy.Spec
