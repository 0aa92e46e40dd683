import Verif.Model.Infix

/-!
# Specification of infix expressions

An operator-precedence grammar with left-associative binary operators, prefix
operators and parentheses.  It is given by *concrete syntax trees*, the tokens
they spell, and a well-formedness condition.  It uses only the data types of
tokens and origins from the model, none of the parsing functions.
-/

namespace Patsy.Spec

open Patsy.Infix (Tok Kind Origin Table)

variable {σ ε : Type}

/-- Abstract expressions: what a formula means, without parentheses and
positions. -/
inductive Ast (σ ε : Type) where
  | atom (t : Tok σ ε)
  | un (t : Tok σ ε) (a : Ast σ ε)
  | bin (t : Tok σ ε) (l r : Ast σ ε)

/-- Concrete syntax trees: parentheses are kept, operators carry their
precedence. -/
inductive Cst (σ ε : Type) where
  | atom (t : Tok σ ε)
  | paren (l : Tok σ ε) (c : Cst σ ε) (r : Tok σ ε)
  | un (t : Tok σ ε) (p : Int) (c : Cst σ ε)
  | bin (l : Cst σ ε) (t : Tok σ ε) (p : Int) (r : Cst σ ε)

namespace Cst

/-- The tokens a concrete tree spells, left to right. -/
def flatten : Cst σ ε → List (Tok σ ε)
  | atom t => [t]
  | paren l c r => l :: (flatten c ++ [r])
  | un t _ c => t :: flatten c
  | bin l t _ r => flatten l ++ t :: flatten r

/-- Its meaning. -/
def toAst : Cst σ ε → Ast σ ε
  | atom t => .atom t
  | paren _ c _ => toAst c
  | un t _ c => .un t (toAst c)
  | bin l t _ r => .bin t (toAst l) (toAst r)

/-- Precedences of the operators exposed at the left edge (going down left
operands until a parenthesis, an atom or a prefix operator). -/
def leftEdge : Cst σ ε → List Int
  | atom _ => []
  | paren _ _ _ => []
  | un _ _ _ => []
  | bin l _ p _ => p :: leftEdge l

/-- Precedences of the operators exposed at the right edge (going down right
operands and operands of prefix operators). -/
def rightEdge : Cst σ ε → List Int
  | atom _ => []
  | paren _ _ _ => []
  | un _ p c => p :: rightEdge c
  | bin _ _ p r => p :: rightEdge r

/-- Well-formed trees over an operator table.  An operator to the right of an
operand must not bind tighter than what is exposed at the operand's right edge;
what is exposed at the left edge of a right operand must bind strictly tighter
(left associativity). -/
def WF (tb : Table σ) : Cst σ ε → Prop
  | atom t => ∃ s, t.kind = .sym s ∧ tb.unary s = none ∧ tb.atomic s = true
  | paren l c r => l.kind = .lparen ∧ r.kind = .rparen ∧ WF tb c
  | un t p c => (∃ s, t.kind = .sym s ∧ tb.unary s = some p) ∧ WF tb c ∧
      ∀ q ∈ leftEdge c, p < q
  | bin l t p r => (∃ s, t.kind = .sym s ∧ tb.binary s = some p) ∧ WF tb l ∧ WF tb r ∧
      (∀ q ∈ rightEdge l, p ≤ q) ∧ (∀ q ∈ leftEdge r, p < q)

end Cst

/-- Abstract expression of a parse node: forget positions. -/
def astOf : Patsy.Infix.Node σ ε → Ast σ ε
  | .atom t _ => .atom t
  | .unary t a _ => .un t (astOf a)
  | .binary t l r _ => .bin t (astOf l) (astOf r)

/-- Tokens whose positions increase along the list, as produced by a tokenizer. -/
def Increasing : List (Tok σ ε) → Prop
  | [] => True
  | [t] => t.origin.start ≤ t.origin.stop
  | t :: u :: ts => t.origin.start ≤ t.origin.stop ∧ t.origin.stop ≤ u.origin.start ∧
      Increasing (u :: ts)

namespace Cst

/-- First token of a concrete tree. -/
def first : Cst σ ε → Tok σ ε
  | atom t => t
  | paren l _ _ => l
  | un t _ _ => t
  | bin l _ _ _ => first l

/-- Last token of a concrete tree. -/
def last : Cst σ ε → Tok σ ε
  | atom t => t
  | paren _ _ r => r
  | un _ _ c => last c
  | bin _ _ _ r => last r

/-- The stretch of source text a concrete tree occupies. -/
def span (c : Cst σ ε) : Origin := ⟨c.first.origin.start, c.last.origin.stop⟩

/-- The parse node a concrete tree should produce: every node is annotated with the
stretch of text it occupies, including the parentheses around it. -/
def locate : Cst σ ε → Patsy.Infix.Node σ ε
  | atom t => .atom t (span (atom t))
  | paren l c r =>
    match locate c with
    | .atom t _ => .atom t (span (paren l c r))
    | .unary t a _ => .unary t a (span (paren l c r))
    | .binary t a b _ => .binary t a b (span (paren l c r))
  | un t p c => .unary t (locate c) (span (un t p c))
  | bin l t p r => .binary t (locate l) (locate r) (span (bin l t p r))

end Cst

end Patsy.Spec
