import Verif.Spec.Meaning

/-!
# Where a grammatical formula without meaning goes wrong (specification for C57)

Formulas are read from left to right, operands before their operator; the first part that can not stand where it does is to
blame.
-/

namespace Patsy.Spec

open Patsy.Infix

variable {F : Type} (mkFactor : String → Except Err F) (toInt : String → Option Int)

/-- Only operators and literals of the formula language occur. -/
inductive Formulaic : FTree → Prop
  | atom {t o} : t.kind ∈ [.sym "ZERO", .sym "ONE", .sym "NUMBER", .sym "PYTHON_EXPR"] → Formulaic (.atom t o)
  | unary {t a o} : t.kind ∈ [.sym "~", .sym "+", .sym "-"] → Formulaic a → Formulaic (.unary t a o)
  | binary {t a b o} : t.kind ∈ [.sym "~", .sym "+", .sym "-", .sym "*", .sym "/", .sym ":", .sym "**"] → Formulaic a →
      Formulaic b → Formulaic (.binary t a b o)

/-- The expression asks for an intercept, and it does so at `o`: the last `1`, `-0` or `- 0` that counts. -/
inductive AsksAt : FTree → Origin → Prop
  | one {t o} : t.kind = .sym "ONE" → AsksAt (.atom t o) o
  | negZero {t a o} : t.kind = .sym "-" → IsLit "ZERO" a → AsksAt (.unary t a o) o
  | pos {t a o p} : t.kind = .sym "+" → AsksAt a p → AsksAt (.unary t a o) p
  | plusRight {t a b o p} : t.kind = .sym "+" → ¬ IsLit "ZERO" b → AsksAt b p → AsksAt (.binary t a b o) p
  | plusLeft {t a b o r p} : t.kind = .sym "+" → ¬ IsLit "ZERO" b → Means mkFactor toInt b r → r.Interactable → AsksAt a p →
      AsksAt (.binary t a b o) p
  | minusZero {t a b o} : t.kind = .sym "-" → IsLit "ZERO" b → AsksAt (.binary t a b o) b.origin
  | minusLeft {t a b o r p} : t.kind = .sym "-" → ¬ IsLit "ZERO" b → ¬ IsLit "ONE" b → Means mkFactor toInt b r →
      r.Interactable → AsksAt a p → AsksAt (.binary t a b o) p

/-- The tree is used as an expression (everything but a whole formula), and the part of it to blame is at the given place. -/
inductive Wrong : FTree → Origin → Prop
  /-- A number other than 0 and 1. -/
  | number {t o} : t.kind = .sym "NUMBER" → Wrong (.atom t o) o
  /-- A minus sign in front of something else than 0 and 1. -/
  | sign {t a o} : t.kind = .sym "-" → ¬ IsLit "ZERO" a → ¬ IsLit "ONE" a → Wrong (.unary t a o) o
  /-- A `~` that is not at the top. -/
  | tilde {t a o m} : t.kind = .sym "~" → Means mkFactor toInt a m → Wrong (.unary t a o) o
  | tilde₂ {t a b o l r} : t.kind = .sym "~" → Means mkFactor toInt a l → Means mkFactor toInt b r → Wrong (.binary t a b o) o
  /-- An expression that asks for an intercept interacts with something. -/
  | interceptLeft {t a b o l r p} : t.kind ∈ [.sym ":", .sym "*", .sym "/"] → Means mkFactor toInt a l →
      Means mkFactor toInt b r → AsksAt mkFactor toInt a p → Wrong (.binary t a b o) p
  | interceptRight {t a b o l r p} : t.kind ∈ [.sym ":", .sym "*", .sym "/"] → Means mkFactor toInt a l → l.Interactable →
      Means mkFactor toInt b r → AsksAt mkFactor toInt b p → Wrong (.binary t a b o) p
  | interceptPower {t a b o l p} : t.kind = .sym "**" → Means mkFactor toInt a l → AsksAt mkFactor toInt a p →
      Wrong (.binary t a b o) p
  /-- An exponent that is not a positive integer. -/
  | exponent {t a b o l} : t.kind = .sym "**" → Means mkFactor toInt a l → l.Interactable →
      (∀ n, ¬ IsExponent toInt b n) → Wrong (.binary t a b o) b.origin
  /-- The fault is in an operand; those before it are fine. -/
  | operand {t a o p} : t.kind ∈ [.sym "+", .sym "~"] → Wrong a p → Wrong (.unary t a o) p
  | left {t a b o p} : t.kind ∈ [.sym "~", .sym "+", .sym "-", .sym "*", .sym "/", .sym ":", .sym "**"] → Wrong a p →
      Wrong (.binary t a b o) p
  | right {t a b o l p} : t.kind ∈ [.sym "~", .sym "+", .sym "-", .sym "*", .sym "/", .sym ":"] →
      (t.kind ∈ [.sym "+", .sym "-"] → ¬ IsLit "ZERO" b) → (t.kind = .sym "-" → ¬ IsLit "ONE" b) →
      Means mkFactor toInt a l → Wrong b p → Wrong (.binary t a b o) p

/-- The part of a whole formula to blame. -/
inductive FormulaWrong : FTree → Origin → Prop
  | bare {n p} : n.token.kind ≠ .sym "~" → Wrong mkFactor toInt n p → FormulaWrong n p
  | tilde {t a o p} : t.kind = .sym "~" → Wrong mkFactor toInt a p → FormulaWrong (.unary t a o) p
  | left {t a b o p} : t.kind = .sym "~" → Wrong mkFactor toInt a p → FormulaWrong (.binary t a b o) p
  | right {t a b o l p} : t.kind = .sym "~" → Means mkFactor toInt a l → Wrong mkFactor toInt b p →
      FormulaWrong (.binary t a b o) p

end Patsy.Spec
