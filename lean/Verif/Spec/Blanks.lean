import Verif.Model.Tokens

/-!
# Where the blanks of normalised code stand (specification for C14)

The text of a factor, which is also its name, is the code with the blanks that a careful programmer would put: around
binary operators, after commas and colons, but not around signs, starred arguments, keyword arguments and slices.
-/

namespace Patsy.Spec.Blanks

open Patsy.Tokens

/-- A token: its type and text. -/
abbrev Tok := PyType × String

/-- Names, numbers and strings. -/
def Word (t : Tok) : Prop := t.1 = .name ∨ t.1 = .number ∨ t.1 = .string

/-- The symbol `s`. -/
def Symbol (s : String) (t : Tok) : Prop := ¬ Word t ∧ t.2 = s

instance (t : Tok) : Decidable (Word t) := by unfold Word; infer_instance

instance (s : String) (t : Tok) : Decidable (Symbol s t) := by unfold Symbol; infer_instance

/-- Opening brackets count 1, closing ones -1. -/
def weight (t : Tok) : Int :=
  if ¬ Word t ∧ t.2 ∈ ["(", "[", "{"] then 1 else if ¬ Word t ∧ t.2 ∈ [")", "]", "}"] then -1 else 0

/-- How many brackets are open after the tokens. -/
def level (ts : List Tok) : Int := (ts.map weight).sum

/-- No bracket is closed that was not opened. -/
def NeverNegative (ts : List Tok) : Prop := ∀ k, 0 ≤ level (ts.take k)

/-- The last bracket that the tokens leave open is `b`. -/
def Inside (b : String) (ts : List Tok) : Prop :=
  ∃ before t inner, ts = before ++ t :: inner ∧ Symbol b t ∧ weight t = 1 ∧ level inner = 0 ∧ NeverNegative inner

/-- The last token is an operand: a word or the end of a call or group. -/
def AfterOperand (before : List Tok) : Prop := ∃ t, before.getLast? = some t ∧ (Word t ∨ t.2 = ")")

/-- The last token begins an argument. -/
def BeginsArgument (before : List Tok) : Prop := ∃ t, before.getLast? = some t ∧ (t.2 = "(" ∨ t.2 = ",")

/-- The symbols `+` and `-` that are signs. -/
def IsSign (before : List Tok) (t : Tok) : Prop := (Symbol "+" t ∨ Symbol "-" t) ∧ ¬ AfterOperand before

/-- The stars of starred arguments. -/
def IsStarred (before : List Tok) (t : Tok) : Prop := (Symbol "*" t ∨ Symbol "**" t) ∧ BeginsArgument before

/-- Operators between operands. -/
def binaryOperators : List String :=
  ["+", "-", "*", "/", "%", "&", "^", "|", "<", ">", "==", "<>", "!=", "<=", ">=", "<<", ">>", "**", "//"]

/-- The tokens that have blanks on both sides: operators between operands, and `=` outside of brackets. -/
def Binary (before : List Tok) (t : Tok) : Prop :=
  ((∃ s ∈ binaryOperators, Symbol s t) ∧ ¬ IsSign before t ∧ ¬ IsStarred before t) ∨ (Symbol "=" t ∧ level before = 0)

/-- The tokens that have a blank before: moreover `!` and `~`. -/
def BlankBefore (before : List Tok) (t : Tok) : Prop := Binary before t ∨ Symbol "!" t ∨ Symbol "~" t

/-- The tokens that have a blank behind: moreover commas, and colons that do not belong to a slice. -/
def BlankBehind (before : List Tok) (t : Tok) : Prop :=
  Binary before t ∨ Symbol "," t ∨ (Symbol ":" t ∧ ¬ Inside "[" before)

/-- There is a blank before the token `t` that follows the tokens `before`. -/
def Blank (before : List Tok) (t : Tok) : Prop :=
  BlankBefore before t ∨ ∃ before' p, before = before' ++ [p] ∧ (BlankBehind before' p ∨ (Word p ∧ Word t))

open Classical in
/-- The text of the tokens `ts` that follow `before`. -/
noncomputable def layout (before : List Tok) : List Tok → String
  | [] => ""
  | t :: ts => (if Blank before t then " " else "") ++ t.2 ++ layout (before ++ [t]) ts

/-- The tokens that are printed. -/
def shown (ts : List Tok) : List Tok := ts.filter fun t => t.1 ≠ .newline ∧ t.1 ≠ .endmarker

end Patsy.Spec.Blanks
