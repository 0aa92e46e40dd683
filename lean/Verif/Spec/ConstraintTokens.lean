import Verif.Model.Constraint

/-!
# Specification of the words of the constraint language
-/

namespace Patsy.Spec

open Patsy.Constraint (Sym Name isSpace)
open Patsy.Infix (Tok Kind Origin)

/-- Decimal digits. -/
def Digits (w : List Char) : Prop := w ≠ [] ∧ ∀ c ∈ w, '0' ≤ c ∧ c ≤ '9'

/-- `12`, `12.5` and `.5`, but not `12.`. -/
inductive Mantissa : List Char → Prop
  | int {d : List Char} (h : Digits d) : Mantissa d
  | frac {d f : List Char} (hd : d = [] ∨ Digits d) (hf : Digits f) : Mantissa (d ++ '.' :: f)

/-- `e5`, `E-12`. -/
inductive Exponent : List Char → Prop
  | plain {e : Char} {d : List Char} (he : e = 'e' ∨ e = 'E') (hd : Digits d) : Exponent (e :: d)
  | signed {e s : Char} {d : List Char} (he : e = 'e' ∨ e = 'E') (hs : s = '+' ∨ s = '-') (hd : Digits d) :
    Exponent (e :: s :: d)

/-- Numerals. -/
inductive Numeral : List Char → Prop
  | plain {m : List Char} (h : Mantissa m) : Numeral m
  | exp {m e : List Char} (h : Mantissa m) (he : Exponent e) : Numeral (m ++ e)

/-- The symbols for operators. -/
def opText : Sym → List Char
  | .comma => [',']
  | .eq => ['=']
  | .plus => ['+']
  | .minus => ['-']
  | .times => ['*']
  | .div => ['/']
  | _ => []

/-- The text does not begin with a parenthesis or an operator. -/
def NoOp (s : List Char) : Prop := ∀ c, s.head? = some c → c ∉ ['(', ')', ',', '=', '+', '-', '*', '/']

/-- At the beginning of `w ++ rest` stands the word `w` of the given kind: operators come first, then the longest
possible variable name, then the longest possible numeral. -/
inductive Word (names : List Name) : Kind Sym → List Char → List Char → Prop
  | lparen {rest} : Word names .lparen ['('] rest
  | rparen {rest} : Word names .rparen [')'] rest
  | op {o : Sym} {c : Char} {rest} (h : opText o = [c]) : Word names (.sym o) [c] rest
  | variable {w rest} (hop : NoOp (w ++ rest)) (hne : w ≠ []) (hw : w ∈ names)
      (longest : ∀ v ∈ names, v <+: w ++ rest → v.length ≤ w.length) : Word names (.sym .variable) w rest
  | number {w rest} (hop : NoOp (w ++ rest)) (hv : ∀ v ∈ names, ¬ v <+: w ++ rest) (hw : Numeral w)
      (longest : ∀ v, Numeral v → v <+: w ++ rest → v.length ≤ w.length) : Word names (.sym .number) w rest

/-- The text `s`, which begins at position `pos` of the whole text, consists of the given tokens, separated by
optional white space, and every token knows its place. -/
inductive Lexed (names : List Name) : Nat → List Char → List (Tok Sym Name) → Prop
  | nil {pos} : Lexed names pos [] []
  | space {pos w rest toks} (hop : NoOp (w ++ rest)) (hv : ∀ v ∈ names, ¬ v <+: w ++ rest) (hne : w ≠ [])
      (hw : ∀ c ∈ w, isSpace c = true) (hmax : ∀ c, rest.head? = some c → isSpace c = false)
      (h : Lexed names (pos + w.length) rest toks) : Lexed names pos (w ++ rest) toks
  | word {pos k w rest toks} (hw : Word names k w rest) (h : Lexed names (pos + w.length) rest toks) :
      Lexed names pos (w ++ rest) (⟨k, ⟨pos, pos + w.length⟩, w⟩ :: toks)

end Patsy.Spec
