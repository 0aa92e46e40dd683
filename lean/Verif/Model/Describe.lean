import Verif.Model.Desc

/-!
# Model of `ModelDesc.describe` (`patsy/desc.py`)

Simplification: the Python method returns a string.  The model returns the formula
tokens of that string: every factor name is one expression token, `" + "`, `":"`,
`" ~ "`, `"~ "`, `"0"` and `"1"` are the tokens they spell.  That Python's tokenizer
reads the name of a factor back as one expression is not part of the model.  Positions
are all zero.
-/

namespace Patsy.Desc

open Patsy.Infix

variable {F : Type} [DecidableEq F]

/-- A token of a given type and text. -/
def tk (s : String) (extra : Option String) : Tok String (Option String) := ⟨.sym s, ⟨0, 0⟩, extra⟩

/-- `sep.join(parts)` on token lists. -/
def joinToks (sep : Tok String (Option String)) :
    List (List (Tok String (Option String))) → List (Tok String (Option String))
  | [] => []
  | x :: xs => x ++ xs.flatMap fun y => sep :: y

/-- `term_code` (desc.py:142-146) with `Term.name` (desc.py:62-67). -/
def termToks (name : F → String) (t : Term F) : List (Tok String (Option String)) :=
  if Term.eqv t INTERCEPT then [tk "ONE" (some "1")]
  else joinToks (tk ":" none) (t.factors.map fun f => [tk "PYTHON_EXPR" (some (name f))])

/-- The right-hand side of `describe` (desc.py:153-161). -/
def describeRhs (name : F → String) (rhs : List (Term F)) : List (Tok String (Option String)) :=
  if rhs.length = 1 ∧ rhs.all (fun t => Term.eqv t INTERCEPT) then [tk "ONE" (some "1")]
  else joinToks (tk "+" none)
    ((if rhs.any (fun t => Term.eqv t INTERCEPT) then [] else [[tk "ZERO" (some "0")]]) ++
      (rhs.filter fun t => !Term.eqv t INTERCEPT).map (termToks name))

/-- `ModelDesc.describe` (desc.py:130-162). -/
def describe (name : F → String) (d : ModelDesc F) : List (Tok String (Option String)) :=
  joinToks (tk "+" none) (d.lhs.map (termToks name)) ++ tk "~" none :: describeRhs name d.rhs

end Patsy.Desc
