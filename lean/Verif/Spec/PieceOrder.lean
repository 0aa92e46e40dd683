import Mathlib.Data.List.Basic

/-!
# Order of the pieces of one term

A piece of a term is coded for a list of categorical factors of the term, written in the order
in which the term has them.
-/

namespace Patsy.Spec

universe u

/-- A piece `s` of the term with the categorical factors `cat` comes before the piece `t`: it has
fewer factors, or as many, and at the first place where they differ its factor comes first in
the term. -/
def PieceBefore {F : Type u} [DecidableEq F] (cat s t : List F) : Prop :=
  s.length < t.length ∨
    s.length = t.length ∧ List.Lex (· < ·) (s.map (List.idxOf · cat)) (t.map (List.idxOf · cat))

end Patsy.Spec
