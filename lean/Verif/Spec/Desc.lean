import Verif.Model.Desc

/-! # Specification of evaluated formulas

Uses only the data types `Term`, `ModelDesc` and `Node` of the model. -/

namespace Patsy.Spec

open Patsy.Desc

variable {F : Type}

/-- The two terms have the same set of factors. -/
def SameTerm (s t : Term F) : Prop := ∀ f, f ∈ s.factors ↔ f ∈ t.factors

/-- The set of factors `S` is one of the terms. -/
def HasTerm (ts : List (Term F)) (S : F → Prop) : Prop := ∃ t ∈ ts, ∀ f, f ∈ t.factors ↔ S f

/-- A normalised side of a model: no term twice, no factor twice in a term, and an
empty term (the intercept) only at the front. -/
structure Normal (ts : List (Term F)) : Prop where
  distinct : ts.Pairwise fun s t => ¬ SameTerm s t
  nodup : ∀ t ∈ ts, t.factors.Nodup
  emptyFirst : ∀ a t b, ts = a ++ t :: b → t.factors = [] → a = []

/-- Somewhere in the tree there is a Python expression with the given text. -/
def HasExpr : Infix.Node String (Option String) → Option String → Prop
  | .atom t _, c => t.kind = .sym "PYTHON_EXPR" ∧ t.extra = c
  | .unary _ a _, c => HasExpr a c
  | .binary _ a b _, c => HasExpr a c ∨ HasExpr b c

/-- What a summand of a flat sum says about the intercept. -/
inductive Item where
  /-- `+ e`, where `e` says nothing about the intercept -/
  | add (n : Infix.Node String (Option String))
  /-- `- e`, where `e` says nothing about the intercept -/
  | sub (n : Infix.Node String (Option String))
  /-- `+ 1` -/
  | one
  /-- `+ 0` -/
  | zero
  /-- `- 1` -/
  | minusOne
  /-- `- 0` -/
  | minusZero

/-- `some true`: asks for an intercept; `some false`: against; `none`: silent. -/
def Item.says : Item → Option Bool
  | .add _ => none
  | .sub _ => none
  | .one => some true
  | .zero => some false
  | .minusOne => some false
  | .minusZero => some true

/-- The last thing said about the intercept; `d` if nothing is said. -/
def lastSaid (d : Option Bool) : List Item → Option Bool
  | [] => d
  | i :: is => lastSaid (match i.says with | some b => some b | none => d) is

end Patsy.Spec
