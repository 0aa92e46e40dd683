import Verif.Model.EvalFactor
import Verif.Spec.Calls

/-!
# How Python executes the code of a factor

This is not a model of patsy but of what patsy hands over to Python (`eval` in `EvalEnvironment.eval`).  Of the
language only this much is fixed: an expression is evaluated by evaluating all calls that occur in it (of stateful
transforms, or of methods of the objects that patsy puts in their places) and then doing something with their
values; that something does not depend on who computed the values.  Expressions that skip some of their parts
(`... if ... else ...`, `and`, `or`) or delay them (`lambda`, comprehensions) are therefore not covered, nor are
expressions that change the values they work on.
-/

namespace Patsy.EvalFactor

open Patsy.Tokens Patsy.Calls

variable {D V A S L : Type}

/-- An expression: tokens, bracketed groups, and calls with a label and their arguments. -/
inductive Expr (L : Type) where
  | nil
  | tok (t : Tok) (rest : Expr L)
  | group (b : Bracket) (body rest : Expr L)
  | call (l : L) (body rest : Expr L)
  deriving DecidableEq, Repr

/-- What remains of an expression when its outermost calls are blotted out. -/
inductive Skel where
  | nil
  | tok (t : Tok) (rest : Skel)
  | group (b : Bracket) (body rest : Skel)
  | hole (rest : Skel)
  deriving DecidableEq, Repr

def Expr.skel : Expr L → Skel
  | .nil => .nil
  | .tok t rest => .tok t rest.skel
  | .group b body rest => .group b body.skel rest.skel
  | .call _ _ rest => .hole rest.skel

/-- What Python makes of an expression and of an argument list, given the data and the values of the calls that
were blotted out.  `A` is the type of argument lists (positional and keyword arguments). -/
structure Python (D V A : Type) where
  expr : Skel → D → List V → Except Err V
  args : Skel → D → List V → Except Err A

/-- The values of the outermost calls of an expression, from left to right; `call` carries out a call. -/
def Python.holes (P : Python D V A) (call : L → A → Except Err V) (d : D) : Expr L → Except Err (List V)
  | .nil => .ok []
  | .tok _ rest => P.holes call d rest
  | .group _ body rest => do
    let vs ← P.holes call d body
    let ws ← P.holes call d rest
    pure (vs ++ ws)
  | .call l body rest => do
    let vs ← P.holes call d body
    let a ← P.args body.skel d vs
    let v ← call l a
    let ws ← P.holes call d rest
    pure (v :: ws)

/-- The value of an expression. -/
def Python.value (P : Python D V A) (call : L → A → Except Err V) (d : D) (e : Expr L) : Except Err V := do
  let vs ← P.holes call d e
  P.expr e.skel d vs

/-- The value of an argument list. -/
def Python.arguments (P : Python D V A) (call : L → A → Except Err V) (d : D) (e : Expr L) : Except Err A := do
  let vs ← P.holes call d e
  P.args e.skel d vs

/-! ### Reading code -/

/-- The tree of a token list, read from the right: what is right of the current position on this level, and on the
levels outside. -/
def readFrom : List Tok → Option (Code × List (Bracket × Code))
  | [] => some (.nil, [])
  | t :: ts => do
    let (cur, outer) ← readFrom ts
    match [Bracket.paren, .square, .curly].find? (fun b => decide (t.2 = b.closing)) with
    | some b => some (.nil, (b, cur) :: outer)
    | none =>
      match [Bracket.paren, .square, .curly].find? (fun b => decide (t.2 = b.opening)) with
      | some b =>
        match outer with
        | (b', rest) :: outer => if b = b' then some (.group b cur rest, outer) else none
        | [] => none
      | none => some (.tok t cur, outer)

/-- The tree of a token list. -/
def readTokens (ts : List Tok) : Option Code :=
  match readFrom ts with
  | some (c, []) => some c
  | _ => none

/-- The expression that the user wrote, with its calls of stateful transforms. -/
def readSource (stateful : String → Bool) : Bool → Code → Expr String
  | _, .nil => .nil
  | dot, .tok t rest =>
    match readSource stateful (isDot t) rest with
    | .group .paren body r =>
      if bareRef dot t && stateful t.2 then .call t.2 body r else .tok t (.group .paren body r)
    | e => .tok t e
  | _, .group b body rest => .group b (readSource stateful false body) (readSource stateful false rest)

/-- The expression in patsy's code, with its calls `object.transform(...)`. -/
def readObjects (isObj : String → Bool) : Bool → Code → Expr String
  | _, .nil => .nil
  | dot, .tok t rest =>
    match readObjects isObj (isDot t) rest with
    | .tok (.op, ".") (.tok (.name, "transform") (.group .paren body r)) =>
      if bareRef dot t && isObj t.2 then .call t.2 body r
      else .tok t (.tok (.op, ".") (.tok (.name, "transform") (.group .paren body r)))
    | e => .tok t e
  | _, .group b body rest => .group b (readObjects isObj false body) (readObjects isObj false rest)

end Patsy.EvalFactor
