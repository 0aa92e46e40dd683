import Verif.Spec.Program

/-!
# Specification: the Python tokens that the text of a model consists of (C12, C68, C69)

The methods `describe` return strings; Python's tokenizer reads them as the tokens told here.
-/

namespace Patsy.Spec

open Patsy.Desc Patsy.Tokens

variable {F : Type} [DecidableEq F]

/-- Type and text of a Python token. -/
abbrev PlainTok := PyType × String

/-- `sep.join(parts)` on tokens. -/
def joinPlain (sep : PlainTok) : List (List PlainTok) → List PlainTok
  | [] => []
  | x :: xs => x ++ xs.flatMap fun y => sep :: y

/-- A term: `1`, or the codes of its factors with `:` between them. -/
def termSpelling (code : F → List PlainTok) (t : Term F) : List PlainTok :=
  if t.factors = [] then [(.number, "1")] else joinPlain (.op, ":") (t.factors.map code)

/-- A sum of terms. -/
def sumSpelling (code : F → List PlainTok) (ts : List (Term F)) : List PlainTok :=
  joinPlain (.op, "+") (ts.map (termSpelling code))

/-- The right-hand side of a model: `1` for the intercept alone; otherwise the intercept is not mentioned, but `0` if it is absent. -/
def rhsSpelling (code : F → List PlainTok) (ts : List (Term F)) : List PlainTok :=
  if ts = [⟨[]⟩] then [(.number, "1")]
  else joinPlain (.op, "+") ((if ⟨[]⟩ ∈ ts then [] else [[(.number, "0")]]) ++
    (ts.filter fun t => t.factors ≠ []).map (termSpelling code))

/-- `ModelDesc.describe()` -/
def modelSpelling (code : F → List PlainTok) (m : ModelDesc F) : List PlainTok :=
  sumSpelling code m.lhs ++ (.op, "~") :: rhsSpelling code m.rhs

/-- The texts `DesignInfo.describe()` of two designs put together with a `~`; that of the second alone if the first has no terms. -/
def designSpelling (code : F → List PlainTok) (l r : List (Term F)) : List PlainTok :=
  if l = [] then sumSpelling code r else sumSpelling code l ++ (.op, "~") :: sumSpelling code r

/-- The Python tokens of the formula `raw`, without the ends of lines, are `ts`. -/
def Spelled (fin : RawEnd) (raw : List PyTok) (ts : List PlainTok) : Prop :=
  ∃ body, Props.RawBody fin raw body ∧ (∀ t ∈ body, Props.Allowed t) ∧
    Program.plainTokens (body.filter fun t => ¬ Props.LineEnd t) = ts

end Patsy.Spec
