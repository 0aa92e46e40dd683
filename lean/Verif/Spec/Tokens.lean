import Verif.Model.Tokens

/-!
# Specification of formula tokenisation and of spacing normalisation

Only the data types of the model are used, and (for the text of an embedded Python
expression) the printer `prettyUntokenize`, which is specified separately (C14).
-/

namespace Patsy.Spec

open Patsy.Infix Patsy.Tokens

/-- +1 for an opening bracket, -1 for a closing one. -/
def bracket (s : String) : Int :=
  if s ∈ ["(", "[", "{"] then 1 else if s ∈ [")", "]", "}"] then -1 else 0

/-- Number of opening minus number of closing brackets. -/
def depth (ts : List PyTok) : Int := (ts.map fun t => bracket t.str).sum

/-- A maximal embedded Python expression: non-empty, balanced brackets, and no
operator or closing parenthesis outside its brackets. -/
structure IsExpr (ops : List String) (e : List PyTok) : Prop where
  nonempty : e ≠ []
  notParen : ∀ t ∈ e.head?, t.str ≠ "("
  balanced : depth e = 0
  never_negative : ∀ p s, e = p ++ s → 0 ≤ depth p
  no_operator : ∀ p t s, e = p ++ t :: s → depth p = 0 → t.str ≠ ")" ∧ t.str ∉ ops

/-- A token is an operator of the formula language or a parenthesis. -/
def IsMagic (ops : List String) (t : PyTok) : Prop :=
  t.str = "(" ∨ t.str = ")" ∨ t.str ∈ ops

/-- The formula token made of an operator or parenthesis. -/
inductive OpTok : PyTok → Tok String (Option String) → Prop where
  | l (t : PyTok) : t.str = "(" → OpTok t ⟨.lparen, t.origin, none⟩
  | r (t : PyTok) : t.str = ")" → OpTok t ⟨.rparen, t.origin, none⟩
  | o (t : PyTok) : t.str ≠ "(" → t.str ≠ ")" → OpTok t ⟨.sym t.str, t.origin, none⟩

/-- The formula token made of an embedded expression. -/
inductive ExprTok (isNumber : String → Bool) : List PyTok → Tok String (Option String) → Prop where
  | mk (t : PyTok) (ts : List PyTok) (text : String) :
      prettyUntokenize ((t :: ts).map fun t => (t.type, t.str)) = .ok text →
      ExprTok isNumber (t :: ts)
        ⟨.sym (if text = "0" then "ZERO" else if text = "1" then "ONE"
            else if isNumber text then "NUMBER" else "PYTHON_EXPR"),
          Origin.combine t.origin (ts.map (·.origin)), some text⟩

/-- The formula tokens of a stream of Python tokens: operators and parentheses stand
for themselves; everything between them is cut into maximal expressions. -/
inductive Tokenizes (isNumber : String → Bool) (ops : List String) :
    List PyTok → List (Tok String (Option String)) → Prop where
  | nil : Tokenizes isNumber ops [] []
  | op (t : PyTok) (ts : List PyTok) (tok : Tok String (Option String))
      (out : List (Tok String (Option String))) :
      IsMagic ops t → OpTok t tok → Tokenizes isNumber ops ts out →
      Tokenizes isNumber ops (t :: ts) (tok :: out)
  | expr (e ts : List PyTok) (tok : Tok String (Option String))
      (out : List (Tok String (Option String))) :
      IsExpr ops e → (∀ t ∈ ts.head?, t.str = ")" ∨ t.str ∈ ops) →
      (∀ t ∈ e.head?, ¬ IsMagic ops t) → ExprTok isNumber e tok →
      Tokenizes isNumber ops ts out → Tokenizes isNumber ops (e ++ ts) (tok :: out)

/-- Remove all blanks. -/
def stripBlanks (s : String) : List Char := s.toList.filter (· ≠ ' ')

/-- Token types that are printed as words. -/
def IsWord (t : PyType) : Prop := t = .name ∨ t = .number ∨ t = .string

/-- `Spaced prev ts s`: the characters `s` are the tokens `ts` in order, at most one
blank in front of each, and a blank between neighbouring words; `prev` tells whether
the token before is a word. -/
inductive Spaced : Bool → List (PyType × String) → List Char → Prop where
  | nil (prev : Bool) : Spaced prev [] []
  | tight (prev : Bool) (type : PyType) (tok : String) (ts : List (PyType × String)) (s : List Char)
      (w : Bool) : (w = true ↔ IsWord type) → ¬ (prev = true ∧ w = true) → Spaced w ts s →
      Spaced prev ((type, tok) :: ts) (tok.toList ++ s)
  | blank (prev : Bool) (type : PyType) (tok : String) (ts : List (PyType × String)) (s : List Char)
      (w : Bool) : (w = true ↔ IsWord type) → Spaced w ts s →
      Spaced prev ((type, tok) :: ts) (' ' :: (tok.toList ++ s))

end Patsy.Spec
