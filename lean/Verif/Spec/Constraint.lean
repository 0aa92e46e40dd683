import Verif.Spec.Grammar
import Verif.Model.Constraint

/-!
# Specification of linear constraints

What the written equations mean, by ordinary arithmetic; what a matrix form means.  Only data types of the model
are used.
-/

namespace Patsy.Spec

open Patsy.Constraint (Sym Name LinCon)
open Patsy.Infix (Tok Kind Origin)

variable {K : Type} [Field K] [DecidableEq K]

/-- The scalar product. -/
def dot (a x : List K) : K := (List.zipWith (· * ·) a x).sum

/-- The vector `x` satisfies all equations of the matrix form. -/
def Sat (c : LinCon K) (x : List K) : Prop := ∀ p ∈ c.coefs.zip c.constants, dot p.1 x = p.2

/-- A matrix form over the given variables. -/
structure Good (names : List Name) (c : LinCon K) : Prop where
  names_eq : c.names = names
  rows : c.coefs.length = c.constants.length
  nonempty : 0 < c.coefs.length
  cols : ∀ r ∈ c.coefs, r.length = names.length

/-- The number that a key of a mapping denotes in a vector: by name, or by position, from the end if negative. -/
def keyValue (names : List Name) (x : List K) : Patsy.Constraint.Key → Option K
  | .name n => (names.zip x).findSome? fun p => if p.1 = n then some p.2 else none
  | .int i => if 0 ≤ i then x[i.toNat]? else if -i ≤ x.length then x[x.length - (-i).toNat]? else none
  | .other => none

/-- Is the expression an equation? -/
def isEq : Ast Sym Name → Bool
  | .bin t _ _ => decide (t.kind = .sym .eq)
  | _ => false

/-- Is the expression an enumeration? -/
def isComma : Ast Sym Name → Bool
  | .bin t _ _ => decide (t.kind = .sym .comma)
  | _ => false

/-- The value of an arithmetic expression, where it is defined.  `ρ` gives the values of the variables, `num` the
values of the numerals. -/
def value (ρ num : Name → K) : Ast Sym Name → Option K
  | .atom t =>
    if t.kind = .sym .variable then some (ρ t.extra)
    else if t.kind = .sym .number then some (num t.extra) else none
  | .un t a => (value ρ num a).bind fun x =>
    if t.kind = .sym .plus then some x else if t.kind = .sym .minus then some (-x) else none
  | .bin t l r => (value ρ num l).bind fun x => (value ρ num r).bind fun y =>
    if t.kind = .sym .plus then some (x + y)
    else if t.kind = .sym .minus then some (x - y)
    else if t.kind = .sym .times then some (x * y)
    else if t.kind = .sym .div then (if y = 0 then none else some (x / y))
    else none

/-- The last side of a chain of equations. -/
def lastSide : Ast Sym Name → Ast Sym Name
  | .bin t l r => if t.kind = .sym .eq then lastSide r else .bin t l r
  | e => e

/-- The first side of a chain of equations. -/
def firstSide : Ast Sym Name → Ast Sym Name
  | .bin t l r => if t.kind = .sym .eq then firstSide l else .bin t l r
  | e => e

/-- The written constraint holds: everything separated by commas holds, a chain `a = b = c` means `a = b` and
`b = c`, an expression without an equality sign means that it is zero. -/
def Holds (ρ num : Name → K) : Ast Sym Name → Prop
  | .bin t l r =>
    if t.kind = .sym .comma then Holds ρ num l ∧ Holds ρ num r
    else if t.kind = .sym .eq then
      (isEq l = true → Holds ρ num l) ∧ (isEq r = true → Holds ρ num r) ∧
        ∃ v, value ρ num (lastSide l) = some v ∧ value ρ num (firstSide r) = some v
    else value ρ num (.bin t l r) = some 0
  | e => value ρ num e = some 0

/-- The expression has the same value whatever the variables are. -/
def Const (num : Name → K) (e : Ast Sym Name) : Prop := ∃ k, ∀ ρ, value ρ num e = some k

/-- Linear expressions: known variables and numerals, sums, products of which one side is constant, quotients by a
constant that is not zero. -/
def Linear (names : List Name) (num : Name → K) : Ast Sym Name → Prop
  | .atom t => (t.kind = .sym .variable ∧ t.extra ∈ names) ∨ t.kind = .sym .number
  | .un t a => (t.kind = .sym .plus ∨ t.kind = .sym .minus) ∧ Linear names num a
  | .bin t l r => Linear names num l ∧ Linear names num r ∧
    (t.kind = .sym .plus ∨ t.kind = .sym .minus ∨
      (t.kind = .sym .times ∧ (Const num l ∨ Const num r)) ∨
      (t.kind = .sym .div ∧ ∃ k, k ≠ 0 ∧ ∀ ρ, value ρ num r = some k))

/-- The right side of an equation, the expression itself if it is none. -/
def afterEq : Ast Sym Name → Ast Sym Name
  | .bin t l r => if t.kind = .sym .eq then r else .bin t l r
  | e => e

/-- The left side of an equation, the expression itself if it is none. -/
def beforeEq : Ast Sym Name → Ast Sym Name
  | .bin t l r => if t.kind = .sym .eq then l else .bin t l r
  | e => e

/-- Constraints that can be written: enumerations of chains of equations between linear expressions, in each of
which the variables do not cancel, and of linear expressions that are not constant.  Chains are written without
parentheses that group to both sides, such as `(a = (b = c)) = d`. -/
def Proper (names : List Name) (num : Name → K) : Ast Sym Name → Prop
  | .bin t l r =>
    if t.kind = .sym .comma then Proper names num l ∧ Proper names num r
    else if t.kind = .sym .eq then
      (isEq l = true → Proper names num l) ∧ (isEq r = true → Proper names num r) ∧
        Linear names num (afterEq l) ∧ Linear names num (beforeEq r) ∧
        ¬ ∃ k, ∀ ρ x y, value ρ num (afterEq l) = some x → value ρ num (beforeEq r) = some y → x - y = k
    else Linear names num (.bin t l r) ∧ ¬ Const num (.bin t l r)
  | e => Linear names num e ∧ ¬ Const num e

/-- The usual reading of arithmetic (and Python's): signs bind tighter than all other operators. -/
def usualOps : List (Patsy.Infix.Operator Sym) :=
  [⟨.comma, 2, -100⟩, ⟨.eq, 2, 0⟩, ⟨.plus, 1, 300⟩, ⟨.minus, 1, 300⟩, ⟨.plus, 2, 100⟩, ⟨.minus, 2, 100⟩,
    ⟨.times, 2, 200⟩, ⟨.div, 2, 200⟩]

/-- Numerals and variables. -/
def atoms : List Sym := [.number, .variable]

/-- No division sign is directly followed by a plus or minus sign. -/
def NoSignAfterDiv (toks : List (Tok Sym Name)) : Prop :=
  toks.IsChain fun t u => t.kind = .sym .div → u.kind ≠ .sym .plus ∧ u.kind ≠ .sym .minus

end Patsy.Spec
