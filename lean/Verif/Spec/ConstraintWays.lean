import Verif.Spec.ConstraintTokens
import Verif.Spec.Constraint

/-!
# Specification of the ways to demand values of columns

What it means that columns have given values, as equations and as texts.
-/

namespace Patsy.Spec

open Patsy.Constraint (Sym Name LinCon isSpace isDigit)

variable {K : Type} [Field K] [DecidableEq K]

/-- The row of a matrix that selects a column by its name. -/
def selector (names : List Name) (n : Name) : List K := names.map fun m => if m = n then 1 else 0

/-- The equations saying that columns have given values. -/
def columnsEqual (names : List Name) (items : List (Name × K)) : LinCon K :=
  ⟨names, items.map fun p => selector names p.1, items.map Prod.snd⟩

/-- The text is a numeral, possibly with a minus sign, for the number. -/
inductive Literal (num : Name → K) : List Char → K → Prop
  | plain {v : List Char} (h : Numeral v) : Literal num v (num v)
  | minus {v : List Char} (h : Numeral v) : Literal num ('-' :: v) (-num v)

/-- The equation `name = value`. -/
def equationText (n : Name) (v : List Char) : List Char := n ++ " = ".toList ++ v

/-- Several equations, separated by commas. -/
def equationsText : List (Name × List Char) → List Char
  | [] => []
  | [p] => equationText p.1 p.2
  | p :: q :: l => equationText p.1 p.2 ++ ", ".toList ++ equationsText (q :: l)

/-- The names can be used in constraints: they do not begin with an operator, a parenthesis, a digit, a point or a blank,
and none reads like another one followed by an equality sign.  (Names of columns made from formulas begin with the code of a
factor, or are `Intercept`.) -/
structure Mentionable (names : List Name) : Prop where
  begins : ∀ n ∈ names, ∃ c t, n = c :: t ∧ c ∉ ['(', ')', ',', '=', '+', '-', '*', '/'] ∧ isDigit c = false ∧ c ≠ '.' ∧
    isSpace c = false
  apart : ∀ n ∈ names, ∀ m ∈ names, m ≠ n ++ [' '] ∧ m ≠ n ++ [' ', '='] ∧ ¬ n ++ [' ', '=', ' '] <+: m

end Patsy.Spec
