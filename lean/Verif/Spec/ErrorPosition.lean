import Verif.Spec.Grammar
import Verif.Spec.Tokens
import Verif.Model.FormulaOps

/-!
# Specification of the positions of syntax errors

Where a formula stops making sense: nothing of the parser is used, only the grammar and what formula tokens are.
-/

namespace Patsy.Spec

open Patsy.Infix Patsy.Tokens Patsy.Formula

/-- The operators of the formula language. -/
def opStrings : List String := defaultOps.map (·.tokenType)

/-- The Python tokens `ts` are a formula. -/
def IsFormula (isNumber : String → Bool) (ts : List PyTok) : Prop :=
  ∃ c : Cst String (Option String), c.WF (mkTable defaultOps atomicTokenTypes) ∧ Tokenizes isNumber opStrings ts c.flatten

/-- The Python tokens `u` are the beginning of a formula. -/
def BeginsFormula (isNumber : String → Bool) (u : List PyTok) : Prop := ∃ v, IsFormula isNumber (u ++ v)

/-- The beginning of an embedded Python expression, perhaps with open brackets. -/
structure PartExpr (ops : List String) (e : List PyTok) : Prop where
  nonempty : e ≠ []
  notParen : ∀ t ∈ e.head?, t.str ≠ "("
  never_negative : ∀ p s, e = p ++ s → 0 ≤ depth p
  no_operator : ∀ p t s, e = p ++ t :: s → depth p = 0 → t.str ≠ ")" ∧ t.str ∉ ops

/-- `o` is the stretch of text from the beginning of the first to the end of the last of the tokens. -/
def Covers (o : Origin) (w : List PyTok) : Prop :=
  (∀ t ∈ w, o.start ≤ t.origin.start ∧ t.origin.stop ≤ o.stop) ∧ (∃ t ∈ w, t.origin.start = o.start) ∧
    ∃ t ∈ w, t.origin.stop = o.stop

/-- How the tokens of Python end: at the end of the text, at a token that is not allowed, or within a string. -/
inductive Stop where
  | finished
  | bad (t : PyTok)
  | unterminated

/-- What is wrong with a text whose Python tokens are `ts` and then end with `stop`, and the stretch of text to blame. -/
inductive Blames (isNumber : String → Bool) (whole : Origin) : List PyTok → Stop → Origin → Prop where
  /-- A formula can begin with `u` but not with `u` and the next token `w` (an operator, a parenthesis or an embedded
  expression). -/
  | misplaced (u w v : List PyTok) (stop : Stop) (o : Origin) : BeginsFormula isNumber u → ¬ BeginsFormula isNumber (u ++ w) →
      ((∃ t, w = [t] ∧ IsMagic opStrings t) ∨ IsExpr opStrings w) → Covers o w → Blames isNumber whole (u ++ w ++ v) stop o
  /-- A closing bracket in an embedded expression without an opening one. -/
  | bracket (u w : List PyTok) (t : PyTok) (v : List PyTok) (stop : Stop) : BeginsFormula isNumber u →
      ¬ BeginsFormula isNumber (u ++ w ++ [t]) → (w = [] ∨ IsExpr opStrings w) → (t.str = "]" ∨ t.str = "}") →
      Blames isNumber whole (u ++ w ++ t :: v) stop t.origin
  /-- A token that is not allowed, perhaps within an embedded expression. -/
  | notAllowed (u w : List PyTok) (t : PyTok) : BeginsFormula isNumber u → (w = [] ∨ PartExpr opStrings w) →
      Blames isNumber whole (u ++ w) (.bad t) t.origin
  /-- A string without an end: the whole text. -/
  | string (u w : List PyTok) : BeginsFormula isNumber u → (w = [] ∨ PartExpr opStrings w) →
      Blames isNumber whole (u ++ w) .unterminated whole
  /-- An embedded expression with an open bracket at the end of the text. -/
  | unclosed (u w : List PyTok) (o : Origin) : BeginsFormula isNumber u → PartExpr opStrings w → 0 < depth w → Covers o w →
      Blames isNumber whole (u ++ w) .finished o
  /-- The text ends after an operator or an opening parenthesis. -/
  | unfinished (u : List PyTok) (t : PyTok) : BeginsFormula isNumber (u ++ [t]) → ¬ IsFormula isNumber (u ++ [t]) →
      IsMagic opStrings t → t.str ≠ ")" → Blames isNumber whole (u ++ [t]) .finished t.origin
  /-- The text ends with a formula in an open parenthesis. -/
  | open (u : List PyTok) (t : PyTok) (v : List PyTok) : BeginsFormula isNumber (u ++ t :: v) →
      ¬ IsFormula isNumber (u ++ t :: v) → t.str = "(" → IsFormula isNumber v →
      Blames isNumber whole (u ++ t :: v) .finished t.origin

end Patsy.Spec
