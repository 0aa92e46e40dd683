import Verif.Model.Equality

/-! # The contract of `__eq__` and `__hash__` -/

namespace Patsy.Spec

open Patsy.Equality

variable {A H : Type}

/-- `==` is an equivalence relation, and equal objects have equal hashes. -/
structure Lawful (k : Key A H) : Prop where
  refl : ∀ x, k.eq x x = true
  symm : ∀ x y, k.eq x y = true → k.eq y x = true
  trans : ∀ x y z, k.eq x y = true → k.eq y z = true → k.eq x z = true
  hash : ∀ x y, k.eq x y = true → k.hash x = k.hash y

/-- Up to `==`, the lists have the same elements. -/
def SameElements (k : Key A H) (s t : List A) : Prop :=
  (∀ x ∈ s, ∃ y ∈ t, k.eq x y = true) ∧ ∀ y ∈ t, ∃ x ∈ s, k.eq x y = true

end Patsy.Spec
