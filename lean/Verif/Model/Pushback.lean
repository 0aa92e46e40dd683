import Verif.Model.EvalFactor

/-!
# Model of `PushbackAdapter` and the loops that use it

The iterator of tokens is an object with a state: the loops below pass it along.  `Model/Tokens.lean` and
`Model/EvalFactor.lean` have the same loops on plain lists.
-/

namespace Patsy.Pushback

open Patsy.Tokens
open Patsy.Infix (Tok)

variable {A : Type}

/-- `PushbackAdapter` (util.py:400-403).  `it` is what the underlying iterator has not yet given, `pushed` the list
`_pushed`, its end first.  The underlying iterator goes on raising `StopIteration` when it is exhausted. -/
structure Adapter (A : Type) where
  pushed : List A
  it : List A
  deriving DecidableEq, Repr

/-- `PushbackAdapter(it)` (util.py:401-403). -/
def Adapter.make (it : List A) : Adapter A := ⟨[], it⟩

/-- `push_back` (util.py:408-409). -/
def Adapter.pushBack (a : Adapter A) (x : A) : Adapter A := ⟨x :: a.pushed, a.it⟩

/-- `next` (util.py:411-416); `none` is `StopIteration`. -/
def Adapter.next (a : Adapter A) : Option (A × Adapter A) :=
  match a.pushed with
  | x :: pushed => some (x, ⟨pushed, a.it⟩)
  | [] => match a.it with
    | x :: it => some (x, ⟨[], it⟩)
    | [] => none

/-- `peek` (util.py:420-426). -/
def Adapter.peek (a : Adapter A) : Except Err (A × Adapter A) :=
  match a.next with
  | none => .error .valueError
  | some (x, a') => .ok (x, a'.pushBack x)

/-- `has_more` (util.py:428-434), which changes the object by peeking. -/
def Adapter.hasMore (a : Adapter A) : Bool × Adapter A :=
  match a.peek with
  | .error _ => (false, a)
  | .ok (_, a') => (true, a')

/-- The loop of `_read_python_expr` (parse_formula.py:36-56) on the object.  `fuel` bounds the number of iterations. -/
def readLoop (endTokens : List String) : Nat → Nat → Adapter PyTok → Except Err (List PyTok × Adapter PyTok × Nat)
  | 0, lvl, it => .ok ([], it, lvl)
  | fuel + 1, lvl, it =>
    match it.next with
    | none => .ok ([], it, lvl)
    | some (t, it) =>
      if lvl = 0 ∧ t.str ∈ endTokens then .ok ([], it.pushBack t, lvl)
      else
        match bracketLevel lvl t.str with
        | none => .error .patsyError
        | some lvl' =>
          match readLoop endTokens fuel lvl' it with
          | .ok (e, it, l) => .ok (t :: e, it, l)
          | .error e => .error e

/-- The loop of `_tokenize_formula` (parse_formula.py:90-96) on the object.  `fuel` bounds the number of iterations. -/
def tokenizeLoop (isNumber : String → Bool) (ops : List String) : Nat → Adapter PyTok →
    Except Err (List (Tok String (Option String)))
  | 0, _ => .ok []
  | fuel + 1, it =>
    match it.next with
    | none => .ok []
    | some (t, it) =>
      if t.str = "(" ∨ t.str = ")" ∨ t.str ∈ ops then
        match tokenizeLoop isNumber ops fuel it with
        | .ok r => .ok (⟨magicKind t.str, t.origin, none⟩ :: r)
        | .error e => .error e
      else
        match readLoop (")" :: ops) (fuel + 1) 0 (it.pushBack t) with
        | .error e => .error e
        | .ok (e, it, lvl) =>
          match finishExpr isNumber e lvl with
          | .error e => .error e
          | .ok tok =>
            match tokenizeLoop isNumber ops fuel it with
            | .ok r => .ok (tok :: r)
            | .error e => .error e

/-- `it.has_more() and it.peek()[1] == "("` (eval.py:737). -/
def nextIsParen (it : Adapter EvalFactor.Tok) : Except Err (Bool × Adapter EvalFactor.Tok) :=
  match it.hasMore with
  | (false, it) => .ok (false, it)
  | (true, it) =>
    match it.peek with
    | .error e => .error e
    | .ok (t, it) => .ok (decide (t.2 = "("), it)

/-- `annotated_tokens` (eval.py:730-740) on the object: the tokens with `bare_ref` and `bare_funcall`.  `dot` is
`prev_was_dot`, `fuel` bounds the number of iterations. -/
def annotated : Nat → Bool → Adapter EvalFactor.Tok → Except Err (List (EvalFactor.Tok × Bool × Bool))
  | 0, _, _ => .ok []
  | fuel + 1, dot, it =>
    match it.next with
    | none => .ok []
    | some (t, it) => do
      let ref := EvalFactor.bareRef dot t
      let (call, it) ← if ref then nextIsParen it else .ok (false, it)
      let r ← annotated fuel (EvalFactor.isDot t) it
      pure ((t, ref, call) :: r)

end Patsy.Pushback
