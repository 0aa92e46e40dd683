import Mathlib.Data.Set.Card
import Verif.Model.Desc

/-! # What a formula means

A set-based semantics of whole formulas, written down from the user's manual
(doc/formulas.rst:95-260, "The formula language") and independent of the
evaluator: it uses only the type of parse trees.  A term is a set of factors; an
expression denotes a set of terms and possibly says something about the intercept. -/

namespace Patsy.Spec

open Patsy.Infix

/-- The meaning of an expression: its terms (without the intercept), and what it says
about the intercept (`some true`: asks for it, `some false`: removes it). -/
@[ext] structure Meaning (F : Type) where
  terms : Set (Set F)
  vote : Option Bool

namespace Meaning

variable {F : Type}

/-- Nothing but a statement about the intercept. -/
def only (b : Bool) : Meaning F := ⟨∅, some b⟩

/-- A single factor. -/
def factor (f : F) : Meaning F := ⟨{{f}}, none⟩

/-- The last word about the intercept is overridden. -/
def saying (b : Bool) (m : Meaning F) : Meaning F := ⟨m.terms, some b⟩

/-- `l + r`: the union.  A request for the intercept in `r` is obeyed; a removal inside
`r` is not.  (The latter is what the code does; the manual is silent about `a + (b - 1)`
and wrong about `a + -1`, see `plus_minus_one_keeps_intercept`.) -/
def plus (l r : Meaning F) : Meaning F :=
  ⟨l.terms ∪ r.terms, if r.vote = some true then some true else l.vote⟩

/-- `l - r`: the difference.  A request for the intercept in `r` is turned into a
removal. -/
def minus (l r : Meaning F) : Meaning F :=
  ⟨l.terms \ r.terms, if r.vote = some true then some false else l.vote⟩

/-- `l:r`: every term of `l` with every term of `r`. -/
def colon (l r : Meaning F) : Meaning F :=
  ⟨{U | ∃ S ∈ l.terms, ∃ T ∈ r.terms, U = S ∪ T}, none⟩

/-- `l*r`: both, and the interactions. -/
def star (l r : Meaning F) : Meaning F :=
  ⟨l.terms ∪ r.terms ∪ (colon l r).terms, none⟩

/-- `l/r`: `l`, and every term of `r` with all factors of `l`. -/
def slash (l r : Meaning F) : Meaning F :=
  ⟨l.terms ∪ {U | ∃ T ∈ r.terms, U = ⋃₀ l.terms ∪ T}, none⟩

/-- `l**n`: the interactions of at least one and at most `n` terms of `l`. -/
def power (l : Meaning F) (n : ℕ) : Meaning F :=
  ⟨{U | ∃ X ⊆ l.terms, X.Nonempty ∧ X.encard ≤ n ∧ U = ⋃₀ X}, none⟩

/-- The expression does not ask for an intercept, so it may interact. -/
def Interactable (m : Meaning F) : Prop := m.vote ≠ some true

/-- The terms of a right hand side: an intercept unless it was removed. -/
def right (m : Meaning F) : Set (Set F) := {S | S ∈ m.terms ∨ (S = ∅ ∧ m.vote ≠ some false)}

/-- The terms of a left hand side: an intercept only if it was asked for. -/
def left (m : Meaning F) : Set (Set F) := {S | S ∈ m.terms ∨ (S = ∅ ∧ m.vote = some true)}

end Meaning

/-- Parse trees of formulas. -/
abbrev FTree := Node String (Option String)

/-- The node is a literal of the given type. -/
def IsLit (s : String) (n : FTree) : Prop := n.token.kind = .sym s

section

variable {F : Type} (mkFactor : String → Except Err F) (toInt : String → Option Int)

/-- The node is the literal positive integer `n`. -/
def IsExponent (b : FTree) (n : ℕ) : Prop :=
  (IsLit "ONE" b ∨ IsLit "NUMBER" b) ∧ ∃ s, b.token.extra = some s ∧ toInt s = some (n : Int) ∧ 1 ≤ n

/-- The meaning of an expression, by recursion over its parse tree. -/
inductive Means : FTree → Meaning F → Prop
  | zero {t o} : t.kind = .sym "ZERO" → Means (.atom t o) (.only false)
  | one {t o} : t.kind = .sym "ONE" → Means (.atom t o) (.only true)
  | code {t o c f} : t.kind = .sym "PYTHON_EXPR" → t.extra = some c → mkFactor c = .ok f →
      Means (.atom t o) (.factor f)
  | pos {t a o m} : t.kind = .sym "+" → Means a m → Means (.unary t a o) m
  | negZero {t a o} : t.kind = .sym "-" → IsLit "ZERO" a → Means (.unary t a o) (.only true)
  | negOne {t a o} : t.kind = .sym "-" → IsLit "ONE" a → Means (.unary t a o) (.only false)
  | plusZero {t a b o l} : t.kind = .sym "+" → Means a l → IsLit "ZERO" b →
      Means (.binary t a b o) (l.saying false)
  | plus {t a b o l r} : t.kind = .sym "+" → Means a l → Means b r → ¬ IsLit "ZERO" b →
      Means (.binary t a b o) (l.plus r)
  | minusZero {t a b o l} : t.kind = .sym "-" → Means a l → IsLit "ZERO" b →
      Means (.binary t a b o) (l.saying true)
  | minusOne {t a b o l} : t.kind = .sym "-" → Means a l → IsLit "ONE" b →
      Means (.binary t a b o) (l.saying false)
  | minus {t a b o l r} : t.kind = .sym "-" → Means a l → Means b r → ¬ IsLit "ZERO" b →
      ¬ IsLit "ONE" b → Means (.binary t a b o) (l.minus r)
  | colon {t a b o l r} : t.kind = .sym ":" → Means a l → Means b r → l.Interactable →
      r.Interactable → Means (.binary t a b o) (l.colon r)
  | star {t a b o l r} : t.kind = .sym "*" → Means a l → Means b r → l.Interactable →
      r.Interactable → Means (.binary t a b o) (l.star r)
  | slash {t a b o l r} : t.kind = .sym "/" → Means a l → Means b r → l.Interactable →
      r.Interactable → Means (.binary t a b o) (l.slash r)
  | power {t a b o l n} : t.kind = .sym "**" → Means a l → l.Interactable →
      IsExponent toInt b n → Means (.binary t a b o) (l.power n)

/-- The model of a whole formula: the sets of terms of its two sides. -/
inductive FormulaMeans : FTree → Set (Set F) → Set (Set F) → Prop
  | both {t a b o l r} : t.kind = .sym "~" → Means mkFactor toInt a l → Means mkFactor toInt b r →
      FormulaMeans (.binary t a b o) l.left r.right
  | tilde {t b o r} : t.kind = .sym "~" → Means mkFactor toInt b r →
      FormulaMeans (.unary t b o) ∅ r.right
  | bare {n r} : n.token.kind ≠ .sym "~" → Means mkFactor toInt n r → FormulaMeans n ∅ r.right

end

/-- The sets of factors of a list of terms. -/
def termSets {F : Type} (ts : List (Desc.Term F)) : Set (Set F) :=
  {S | ∃ t ∈ ts, ∀ f, f ∈ t.factors ↔ f ∈ S}

end Patsy.Spec
