import Mathlib.Algebra.BigOperators.Group.List.Basic
import Mathlib.Data.List.Infix
import Verif.Model.Setup

/-!
# Labels of columns that can be told apart (specification for C52)

A column of a design is named after the columns of its factors: `x`, `x[1]`, `a[T.b]`, joined by colons.
-/

namespace Patsy.Spec

open Patsy.Build Patsy.Desc

/-- What a character contributes to the nesting depth. -/
def bracketStep (c : Char) : Int :=
  if c = '(' ∨ c = '[' ∨ c = '{' then 1 else if c = ')' ∨ c = ']' ∨ c = '}' then -1 else 0

/-- The nesting depth that a text ends with. -/
def nestingDepth (l : List Char) : Int := (l.map bracketStep).sum

/-- Every bracketStep that is opened is closed again, and no other. -/
def Balanced (l : List Char) : Prop := nestingDepth l = 0 ∧ ∀ p, p <+: l → 0 ≤ nestingDepth p

/-- The brackets are balanced, and colons occur inside of brackets only (like in `Q("a:b")`, `f(x[1:2])`). -/
def Closed (s : String) : Prop := Balanced s.toList ∧ ∀ p, p ++ [':'] <+: s.toList → nestingDepth p ≠ 0

/-- A text in brackets, like `[T.b]`. -/
def Bracketed (s : String) : Prop := ∃ m, s.toList = '[' :: (m ++ [']']) ∧ Balanced m

variable {F D K : Type} [DecidableEq F]

/-- `s` is the label of column `j` of the factor `f` (`full` says whether a categorical factor is coded with full rank).
`nums` has the numbers of columns of the numerical factors, `coder` the codings of the categorical ones. -/
inductive Label (name : F → String) (nums : List (F × Nat)) (coder : F → Bool → Except Err (ContrastMatrix K)) :
    F → Bool → Nat → String → Prop
  | single {f full} : dictGet nums f = some 1 → Label name nums coder f full 0 (name f)
  | multi {f full n j} : dictGet nums f = some n → 1 < n → j < n →
      Label name nums coder f full j (name f ++ "[" ++ toString j ++ "]")
  | level {f full cm j s} : dictGet nums f = none → coder f full = .ok cm → cm.suffixes[j]? = some s →
      Label name nums coder f full j (name f ++ s)

/-- The labels of the factors `fs` can be told apart. -/
structure Readable (name : F → String) (nums : List (F × Nat)) (coder : F → Bool → Except Err (ContrastMatrix K))
    (fs : List F) : Prop where
  /-- No name is ambiguous next to the colons that join the names of the factors. -/
  closed : ∀ f ∈ fs, Closed (name f)
  closedLabel : ∀ f ∈ fs, ∀ full j s, Label name nums coder f full j s → Closed s
  /-- Different factors have different names. -/
  names : ∀ f ∈ fs, ∀ g ∈ fs, name f = name g → f = g
  /-- A label belongs to one factor, and among the labels of one coding of it to one column. -/
  apart : ∀ f ∈ fs, ∀ g ∈ fs, ∀ full full' j j' s, Label name nums coder f full j s →
    Label name nums coder g full' j' s → f = g ∧ (full = full' → j = j')
  /-- Only a numerical factor with one column is labelled by the name of a factor. -/
  bare : ∀ f ∈ fs, ∀ g ∈ fs, ∀ full j, Label name nums coder f full j (name g) → dictGet nums f = some 1
  /-- The name of the intercept is not taken. -/
  intercept : ∀ f ∈ fs, name f ≠ "Intercept" ∧ ∀ full j, ¬ Label name nums coder f full j "Intercept"

/-- What is known about the factors of the terms `ts` when the designs are made: the information about a factor is about
this factor and of the right type, and the contrast matrices exist, have a row for every category and a suffix for every
column. -/
structure KnownFactors (nums : List (F × Nat)) (coder : F → Bool → Except Err (ContrastMatrix K))
    (fis : List (F × FactorInfo F D K)) (ts : List (Term F)) : Prop where
  numerical : ∀ t ∈ ts, ∀ f ∈ t.factors, ∀ n, dictGet nums f = some n →
    ∃ fi, dictGet fis f = some fi ∧ fi.factor = f ∧ fi.type = .numerical n
  categorical : ∀ t ∈ ts, ∀ f ∈ t.factors, dictGet nums f = none →
    ∃ fi k, dictGet fis f = some fi ∧ fi.factor = f ∧ fi.type = .categorical k ∧
      ∀ full, ∃ cm, coder f full = .ok cm ∧ cm.matrix.length = k ∧ cm.suffixes.length = cm.ncols

end Patsy.Spec
