import Verif.Spec.Constraint
import Verif.Spec.ConstraintTokens

/-!
# Specification of the positions of errors in linear constraints

Where the text of a constraint stops making sense: nothing of the scanner, the parser or the evaluator is used.
-/

namespace Patsy.Spec

open Patsy.Constraint (Sym Name isSpace ops atomic)
open Patsy.Infix (Tok Kind Origin Node mkTable)

/-! ### The words -/

/-- At the beginning of `w ++ rest` stands the word `w`, or a stretch `w` of white space. -/
inductive Piece (names : List Name) : List Char → List Char → Prop
  | word {k w rest} (hw : Word names k w rest) : Piece names w rest
  | space {w rest} (hop : NoOp (w ++ rest)) (hv : ∀ v ∈ names, ¬ v <+: w ++ rest) (hne : w ≠ [])
      (hw : ∀ c ∈ w, isSpace c = true) (hmax : ∀ c, rest.head? = some c → isSpace c = false) : Piece names w rest

/-- The text `s`, which begins at position `pos` of the whole text, consists of words and white space up to position `p`,
where neither begins although the text goes on. -/
inductive StuckAt (names : List Name) : Nat → List Char → Nat → Prop
  | here {pos s} (hne : s ≠ []) (h : ∀ w rest, s = w ++ rest → ¬ Piece names w rest) : StuckAt names pos s pos
  | later {pos w rest p} (hw : Piece names w rest) (h : StuckAt names (pos + w.length) rest p) :
      StuckAt names pos (w ++ rest) p

/-! ### The order of the words -/

/-- The tokens are put together as in a constraint. -/
def IsConstraint (ts : List (Tok Sym Name)) : Prop := ∃ d : Cst Sym Name, d.WF (mkTable ops atomic) ∧ d.flatten = ts

/-- The tokens are the beginning of a constraint. -/
def BeginsConstraint (u : List (Tok Sym Name)) : Prop := ∃ v, IsConstraint (u ++ v)

/-- The token to blame when the tokens are not put together as in a constraint. -/
inductive Disordered : List (Tok Sym Name) → Tok Sym Name → Prop
  /-- A constraint can begin with `u` but not with `u` and the next token. -/
  | misplaced (u : List (Tok Sym Name)) (t : Tok Sym Name) (v : List (Tok Sym Name)) : BeginsConstraint u →
      ¬ BeginsConstraint (u ++ [t]) → Disordered (u ++ t :: v) t
  /-- The text ends after an operator or an opening parenthesis. -/
  | unfinished (u : List (Tok Sym Name)) (t : Tok Sym Name) : BeginsConstraint (u ++ [t]) → ¬ IsConstraint (u ++ [t]) →
      (t.kind = .lparen ∨ ∃ o ∉ atomic, t.kind = .sym o) → Disordered (u ++ [t]) t
  /-- The text ends with a constraint in an open parenthesis. -/
  | open (u : List (Tok Sym Name)) (t : Tok Sym Name) (v : List (Tok Sym Name)) : BeginsConstraint (u ++ t :: v) →
      ¬ IsConstraint (u ++ t :: v) → t.kind = .lparen → IsConstraint v → Disordered (u ++ t :: v) t

/-! ### The meaning -/

/-- What an expression has to be in its place. -/
inductive Want where
  | number
  | constraint

/-- The side of an equation next to what follows it, the expression itself if it is none. -/
def rightSide : Node Sym Name → Node Sym Name
  | .binary t l r o => if t.kind = .sym .eq then r else .binary t l r o
  | n => n

/-- The side of an equation next to what precedes it, the expression itself if it is none. -/
def leftSide : Node Sym Name → Node Sym Name
  | .binary t l r o => if t.kind = .sym .eq then l else .binary t l r o
  | n => n

variable {K : Type} [Field K] [DecidableEq K]

/-- `Fault names num w n p`: the expression `n` is not a number (an expression for one) or a constraint, as wanted, and the
text at `p` is to blame.  The first fault counts: in an equation the arguments that are equations themselves come first, then
its two sides, then the equation as a whole; elsewhere everything is read from left to right, the operands before the
operation. -/
inductive Fault (names : List Name) (num : Name → K) : Want → Node Sym Name → Origin → Prop
  /-- A fault in the operand of a sign. -/
  | sign {w t a o p} (h : Fault names num .number a p) : Fault names num w (.unary t a o) p
  /-- A fault in the left operand. -/
  | left {w t l r o p} (h1 : t.kind ≠ .sym .eq) (h2 : t.kind ≠ .sym .comma) (h : Fault names num .number l p) :
      Fault names num w (.binary t l r o) p
  /-- A fault in the right operand. -/
  | right {w t l r o p} (h1 : t.kind ≠ .sym .eq) (h2 : t.kind ≠ .sym .comma) (hl : Linear names num (astOf l))
      (h : Fault names num .number r p) : Fault names num w (.binary t l r o) p
  /-- A product of expressions with variables: all of it. -/
  | product {w t l r o} (ht : t.kind = .sym .times) (hl : Linear names num (astOf l)) (hr : Linear names num (astOf r))
      (cl : ¬ Const num (astOf l)) (cr : ¬ Const num (astOf r)) : Fault names num w (.binary t l r o) o
  /-- A quotient by an expression with variables: the divisor. -/
  | quotient {w t l r o} (ht : t.kind = .sym .div) (hl : Linear names num (astOf l)) (hr : Linear names num (astOf r))
      (cr : ¬ Const num (astOf r)) : Fault names num w (.binary t l r o) r.origin
  /-- A fault before a comma. -/
  | before {w t l r o p} (ht : t.kind = .sym .comma) (h : Fault names num .constraint l p) :
      Fault names num w (.binary t l r o) p
  /-- A fault after a comma. -/
  | after {w t l r o p} (ht : t.kind = .sym .comma) (hl : Proper names num (astOf l)) (h : Fault names num .constraint r p) :
      Fault names num w (.binary t l r o) p
  /-- A fault in the equation that is the left argument of an equation. -/
  | chainLeft {w t l r o p} (ht : t.kind = .sym .eq) (hl : isEq (astOf l) = true) (h : Fault names num .constraint l p) :
      Fault names num w (.binary t l r o) p
  /-- A fault in the equation that is the right argument of an equation. -/
  | chainRight {w t l r o p} (ht : t.kind = .sym .eq) (hl : isEq (astOf l) = true → Proper names num (astOf l))
      (hr : isEq (astOf r) = true) (h : Fault names num .constraint r p) : Fault names num w (.binary t l r o) p
  /-- A fault in the left side of an equation. -/
  | sideLeft {w t l r o p} (ht : t.kind = .sym .eq) (hl : isEq (astOf l) = true → Proper names num (astOf l))
      (hr : isEq (astOf r) = true → Proper names num (astOf r)) (h : Fault names num .number (rightSide l) p) :
      Fault names num w (.binary t l r o) p
  /-- A fault in the right side of an equation. -/
  | sideRight {w t l r o p} (ht : t.kind = .sym .eq) (hl : isEq (astOf l) = true → Proper names num (astOf l))
      (hr : isEq (astOf r) = true → Proper names num (astOf r)) (hs : Linear names num (astOf (rightSide l)))
      (h : Fault names num .number (leftSide r) p) : Fault names num w (.binary t l r o) p
  /-- An equation in which the variables cancel: all of it. -/
  | cancel {w t l r o} (ht : t.kind = .sym .eq) (hl : isEq (astOf l) = true → Proper names num (astOf l))
      (hr : isEq (astOf r) = true → Proper names num (astOf r)) (hs : Linear names num (astOf (rightSide l)))
      (hs' : Linear names num (astOf (leftSide r)))
      (hc : ∃ k, ∀ ρ x y, value ρ num (astOf (rightSide l)) = some x → value ρ num (astOf (leftSide r)) = some y → x - y = k) :
      Fault names num w (.binary t l r o) o
  /-- A proper equation or enumeration in the place of a number: all of it. -/
  | notNumber {n} (hn : isEq (astOf n) = true ∨ isComma (astOf n) = true) (h : Proper names num (astOf n)) :
      Fault names num .number n n.origin
  /-- An expression without variables in the place of a constraint: all of it. -/
  | constant {n} (h : Linear names num (astOf n)) (hc : Const num (astOf n)) : Fault names num .constraint n n.origin

/-! ### The text -/

/-- What is wrong with the text of a constraint, and the stretch of text to blame. -/
inductive WrongText (names : List Name) (num : Name → K) (s : List Char) : Origin → Prop where
  /-- A character with which no word begins. -/
  | character {p : Nat} (h : StuckAt names 0 s p) : WrongText names num s ⟨p, p + 1⟩
  /-- A word in a wrong place. -/
  | order {toks : List (Tok Sym Name)} {t : Tok Sym Name} (h : Lexed names 0 s toks) (hd : Disordered toks t) :
      WrongText names num s t.origin
  /-- An expression that does not make sense in its place. -/
  | meaning {d : Cst Sym Name} {p : Origin} (h : Lexed names 0 s d.flatten) (hd : d.WF (mkTable ops atomic))
      (hf : Fault names num .constraint d.locate p) : WrongText names num s p

end Patsy.Spec
