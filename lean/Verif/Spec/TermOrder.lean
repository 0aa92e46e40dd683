import Verif.Model.Desc

/-!
# The documented order of terms (doc/formulas.rst:379-404)

Terms are grouped by the set of numerical factors they contain.  The group without numerical
factors comes first, the other groups in the order in which they first appear; inside a
group, interactions of lower order come first; otherwise the order is the given one.
-/

namespace Patsy.Spec

open Patsy.Desc

variable {F : Type} [DecidableEq F]

/-- Do the terms have the same numerical factors? -/
def sameGroup (isNum : F → Bool) (s t : Term F) : Bool :=
  (s.factors.all fun f => !isNum f || decide (f ∈ t.factors)) &&
  (t.factors.all fun f => !isNum f || decide (f ∈ s.factors))

/-- Rank of the group of a term among those of `terms`: 0 for the terms without numerical
factors, otherwise given by the position of the first term of the group. -/
def groupRank (isNum : F → Bool) (terms : List (Term F)) (t : Term F) : Nat :=
  if t.factors.any isNum then terms.findIdx (sameGroup isNum t) + 1 else 0

/-- The number of categorical factors of a term. -/
def categoricals (isNum : F → Bool) (t : Term F) : Nat :=
  (t.factors.filter fun f => !isNum f).length

/-- The term `p` (with its position in `terms`) comes before the term `q`. -/
def Precedes (isNum : F → Bool) (terms : List (Term F)) (p q : Term F × Nat) : Prop :=
  groupRank isNum terms p.1 < groupRank isNum terms q.1 ∨
  groupRank isNum terms p.1 = groupRank isNum terms q.1 ∧
    (categoricals isNum p.1 < categoricals isNum q.1 ∨
     categoricals isNum p.1 = categoricals isNum q.1 ∧ p.2 < q.2)

/-- `out` is `terms` in the documented order. -/
def InOrder (isNum : F → Bool) (terms out : List (Term F)) : Prop :=
  ∃ ps : List (Term F × Nat), ps.Perm terms.zipIdx ∧ ps.Pairwise (Precedes isNum terms) ∧
    out = ps.map Prod.fst

end Patsy.Spec
