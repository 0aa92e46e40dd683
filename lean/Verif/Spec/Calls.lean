import Verif.Model.Tokens

/-!
# Specification: the bracket structure of code, and nesting of calls

Independent of the scanning functions of the model: code as a tree.
-/

namespace Patsy.Calls

open Patsy.Tokens

/-- The kinds of brackets. -/
inductive Bracket where
  | paren | square | curly
  deriving DecidableEq, Repr

def Bracket.opening : Bracket → String
  | .paren => "(" | .square => "[" | .curly => "{"

def Bracket.closing : Bracket → String
  | .paren => ")" | .square => "]" | .curly => "}"

/-- Code with properly nested brackets: a sequence of tokens and bracketed groups. -/
inductive Code where
  | nil
  | tok (t : PyType × String) (rest : Code)
  | group (b : Bracket) (body rest : Code)
  deriving DecidableEq, Repr

/-- The token list of a tree. -/
def Code.render : Code → List (PyType × String)
  | .nil => []
  | .tok t rest => t :: rest.render
  | .group b body rest => (.op, b.opening) :: (body.render ++ (.op, b.closing) :: rest.render)

/-- The strings of brackets. -/
def bracketStrings : List String := ["(", "[", "{", ")", "]", "}"]

/-- Single tokens of a tree are not brackets. -/
def Code.WF : Code → Prop
  | .nil => True
  | .tok t rest => t.2 ∉ bracketStrings ∧ rest.WF
  | .group _ body rest => body.WF ∧ rest.WF

/-- The arguments, if the code begins with a bracket `(`. -/
def Code.args? : Code → Option Code
  | .group .paren body _ => some body
  | _ => none

/-- The stateful calls of some code with their arguments, from left to right: a name that
does not follow a dot, stands for a stateful transform and is followed by `(...)`.  The first
argument tells whether the code follows a dot. -/
def Code.calls (stateful : String → Bool) : Bool → Code → List (String × Code)
  | _, .nil => []
  | dot, .tok t rest =>
    (match rest.args? with
      | some body => if dot = false ∧ t.1 = .name ∧ stateful t.2 = true then [(t.2, body)] else []
      | none => []) ++ rest.calls stateful (decide (t.2 = "."))
  | _, .group _ body rest => body.calls stateful false ++ rest.calls stateful false

/-- How deeply stateful calls are nested in some code. -/
def Code.depth (stateful : String → Bool) : Bool → Code → Nat
  | _, .nil => 0
  | dot, .tok t (.group .paren body rest) =>
    let inner := body.depth stateful false
    let outer := if dot = false ∧ t.1 = .name ∧ stateful t.2 = true then inner + 1 else inner
    max outer (rest.depth stateful false)
  | _, .tok t rest => rest.depth stateful (decide (t.2 = "."))
  | _, .group _ body rest => max (body.depth stateful false) (rest.depth stateful false)

/-- The names that occur in some code other than after a dot. -/
def Code.names : Bool → Code → List String
  | _, .nil => []
  | dot, .tok t rest =>
    (if dot = false ∧ t.1 = .name then [t.2] else []) ++ rest.names (decide (t.2 = "."))
  | _, .group _ body rest => body.names false ++ rest.names false

end Patsy.Calls
