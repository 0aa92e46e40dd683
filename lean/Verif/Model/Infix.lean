import Verif.Model.Err

/-!
# Model of `patsy/infix_parser.py` (and `Origin.combine` from `patsy/origin.py`)

Token types are values of an arbitrary type `σ`; the two special values
`Token.LPAREN` / `Token.RPAREN` (infix_parser.py:62-63) are separate
constructors.  The payload `extra` has an arbitrary type `ε`.
-/

namespace Patsy.Infix

/-- `Origin` (origin.py:14-39).  The attribute `code` is not modelled: all origins
in one parse refer to the same string, so the assertion at origin.py:69 is
trivially true in the model. -/
structure Origin where
  start : Nat
  stop : Nat
  deriving DecidableEq, Repr

/-- `Origin.combine` (origin.py:41-72) on a non-empty list of origins, given as
head and tail. (`None` entries do not occur in the parser.) -/
def Origin.combine (o : Origin) (os : List Origin) : Origin :=
  ⟨os.foldl (fun a b => min a b.start) o.start, os.foldl (fun a b => max a b.stop) o.stop⟩

/-- The `type` of a token: LPAREN, RPAREN (infix_parser.py:62-63) or anything else. -/
inductive Kind (σ : Type) where
  | lparen
  | rparen
  | sym (s : σ)
  deriving DecidableEq, Repr

/-- `Token` (infix_parser.py:53-79). -/
structure Tok (σ ε : Type) where
  kind : Kind σ
  origin : Origin
  extra : ε
  deriving DecidableEq, Repr

/-- `Operator` (infix_parser.py:97-111). -/
structure Operator (σ : Type) where
  tokenType : σ
  arity : Int
  precedence : Int
  deriving DecidableEq, Repr

/-- `ParseNode` (infix_parser.py:82-94).  The Python class has a list `args`;
the parser only builds nodes with zero (151), one or two (168-173) arguments, and
the type of a node is the type of its token, so there is one constructor per
arity and the type is read off the token. -/
inductive Node (σ ε : Type) where
  | atom (token : Tok σ ε) (origin : Origin)
  | unary (token : Tok σ ε) (arg : Node σ ε) (origin : Origin)
  | binary (token : Tok σ ε) (left right : Node σ ε) (origin : Origin)
  deriving DecidableEq, Repr

namespace Node
variable {σ ε : Type}

/-- attribute `token` -/
def token : Node σ ε → Tok σ ε
  | atom t _ => t
  | unary t _ _ => t
  | binary t _ _ _ => t

/-- attribute `origin` -/
def origin : Node σ ε → Origin
  | atom _ o => o
  | unary _ _ o => o
  | binary _ _ _ o => o

/-- assignment to the attribute `origin` (infix_parser.py:189) -/
def setOrigin (o : Origin) : Node σ ε → Node σ ε
  | atom t _ => atom t o
  | unary t a _ => unary t a o
  | binary t l r _ => binary t l r o

end Node

/-- What sits on the operator stack: `_StackOperator` (114-117) with either
`_open_paren` (122) or an operator of the table. -/
inductive StackOp (σ ε : Type) where
  | paren (token : Tok σ ε)
  | op (arity : Nat) (precedence : Int) (token : Tok σ ε)
  deriving Repr

namespace StackOp
variable {σ ε : Type}

/-- `op.precedence`; `_open_paren` has precedence -9999999 (infix_parser.py:122). -/
def prec : StackOp σ ε → Int
  | paren _ => -9999999
  | op _ p _ => p

def token : StackOp σ ε → Tok σ ε
  | paren t => t
  | op _ _ t => t

def isParen : StackOp σ ε → Bool
  | paren _ => true
  | op _ _ _ => false

end StackOp

/-- The parts of `_ParseContext` (125-134) fixed during a parse: the dictionaries
`unary_ops`, `binary_ops` (only the precedence of the stored operator matters)
and the membership test for `atomic_types`. -/
structure Table (σ : Type) where
  unary : σ → Option Int
  binary : σ → Option Int
  atomic : σ → Bool

/-- The mutable part of `_ParseContext`, plus the local `want_noun` of
`infix_parse`.  The head of each list is the top of the stack. -/
structure State (σ ε : Type) where
  ops : List (StackOp σ ε)
  nouns : List (Node σ ε)
  wantNoun : Bool

variable {σ ε : Type}

/-- `_read_noun_context` (infix_parser.py:137-156). -/
def readNoun (tb : Table σ) (t : Tok σ ε) (ops : List (StackOp σ ε)) (nouns : List (Node σ ε)) :
    Except Err (State σ ε) :=
  match t.kind with
  | .lparen => .ok ⟨.paren t :: ops, nouns, true⟩
  | .rparen => .error .patsyError
  | .sym s =>
    match tb.unary s with
    | some p => .ok ⟨.op 1 p t :: ops, nouns, true⟩
    | none =>
      if tb.atomic s then .ok ⟨ops, .atom t t.origin :: nouns, false⟩
      else .error .patsyError

/-- `_run_op` (infix_parser.py:159-174).  Popping an empty list is `IndexError`.
Running `_open_paren` cannot happen in Python because of the assertion at line
215; the model reports it as an assertion failure (and C06 shows that it is never
reached). -/
def runOp (ops : List (StackOp σ ε)) (nouns : List (Node σ ε)) :
    Except Err (List (StackOp σ ε) × List (Node σ ε)) :=
  match ops with
  | [] => .error .assertionError
  | .paren _ :: _ => .error .assertionError
  | .op 1 _ t :: ops' =>
    match nouns with
    | a :: ns => .ok (ops', .unary t a (Origin.combine t.origin [a.origin]) :: ns)
    | [] => .error .indexError
  | .op 2 _ t :: ops' =>
    match nouns with
    | b :: a :: ns => .ok (ops', .binary t a b (Origin.combine t.origin [a.origin, b.origin]) :: ns)
    | _ => .error .indexError
  | .op _ _ _ :: _ => .error .valueError

/-- The loop at infix_parser.py:181-182 (run operators until an open paren or the
bottom of the stack). -/
def runToParen : List (StackOp σ ε) → List (Node σ ε) →
    Except Err (List (StackOp σ ε) × List (Node σ ε))
  | [], nouns => .ok ([], nouns)
  | .paren t :: ops, nouns => .ok (.paren t :: ops, nouns)
  | .op n p t :: ops, nouns =>
    match runOp (.op n p t :: ops) nouns with
    | .ok (_, nouns') => runToParen ops nouns'
    | .error e => .error e

/-- The loop at infix_parser.py:197-198 (run operators that bind at least as
tightly as the incoming one). -/
def runWhile (p : Int) : List (StackOp σ ε) → List (Node σ ε) →
    Except Err (List (StackOp σ ε) × List (Node σ ε))
  | [], nouns => .ok ([], nouns)
  | o :: ops, nouns =>
    if p ≤ o.prec then
      match runOp (o :: ops) nouns with
      | .ok (_, nouns') => runWhile p ops nouns'
      | .error e => .error e
    else .ok (o :: ops, nouns)

/-- `_read_op_context` (infix_parser.py:177-206). -/
def readOp (tb : Table σ) (t : Tok σ ε) (ops : List (StackOp σ ε)) (nouns : List (Node σ ε)) :
    Except Err (State σ ε) :=
  match t.kind with
  | .rparen =>
    match runToParen ops nouns with
    | .error e => .error e
    | .ok ([], _) => .error .patsyError
    | .ok (o :: ops', nouns') =>
      match nouns' with
      | [] => .error .indexError
      | n :: ns =>
        .ok ⟨ops', n.setOrigin (Origin.combine o.token.origin [n.token.origin, t.origin]) :: ns, false⟩
  | .lparen => .error .patsyError
  | .sym s =>
    match tb.binary s with
    | some p =>
      match runWhile p ops nouns with
      | .error e => .error e
      | .ok (ops', nouns') => .ok ⟨.op 2 p t :: ops', nouns', true⟩
    | none => .error .patsyError

/-- One iteration of the `for` loop, infix_parser.py:230-236. -/
def step (tb : Table σ) (s : State σ ε) (t : Tok σ ε) : Except Err (State σ ε) :=
  if s.wantNoun then readNoun tb t s.ops s.nouns else readOp tb t s.ops s.nouns

/-- The `for` loop, infix_parser.py:229-236. -/
def run (tb : Table σ) : State σ ε → List (Tok σ ε) → Except Err (State σ ε)
  | s, [] => .ok s
  | s, t :: ts =>
    match step tb s t with
    | .ok s' => run tb s' ts
    | .error e => .error e

/-- The loop at infix_parser.py:246-249. -/
def runAll : List (StackOp σ ε) → List (Node σ ε) → Except Err (List (Node σ ε))
  | [], nouns => .ok nouns
  | .paren _ :: _, _ => .error .patsyError
  | .op n p t :: ops, nouns =>
    match runOp (.op n p t :: ops) nouns with
    | .ok (_, nouns') => runAll ops nouns'
    | .error e => .error e

/-- The end of `infix_parse`, infix_parser.py:240-252.  If the expression ended too
early, computing the position for the error message evaluates `c.op_stack[-1]`,
which is an `IndexError` when the stack is empty. -/
def finish (s : State σ ε) : Except Err (Node σ ε) :=
  if s.wantNoun then
    match s.ops with
    | [] => .error .indexError
    | _ :: _ => .error .patsyError
  else
    match runAll s.ops s.nouns with
    | .error e => .error e
    | .ok [n] => .ok n
    | .ok _ => .error .assertionError

/-- `infix_parse` with the dictionaries already built (infix_parser.py:223-252). -/
def parseWith (tb : Table σ) (ts : List (Tok σ ε)) : Except Err (Node σ ε) :=
  match run tb ⟨[], [], true⟩ ts with
  | .ok s => finish s
  | .error e => .error e

/-- Dictionary semantics of `unary_ops[op.token_type] = op` in the loop at
infix_parser.py:214-221: the last operator with that arity and type wins. -/
def lookupOp [DecidableEq σ] (arity : Int) : List (Operator σ) → σ → Option Int
  | [], _ => none
  | o :: os, s =>
    match lookupOp arity os s with
    | some p => some p
    | none => if o.arity = arity ∧ o.tokenType = s then some o.precedence else none

/-- `infix_parse` (infix_parser.py:209-252).  The assertion (215) and the arity
check (220-221) are evaluated operator by operator before anything is read. -/
def checkOps : List (Operator σ) → Except Err Unit
  | [] => .ok ()
  | o :: os =>
    if o.precedence > -9999999 then
      if o.arity = 1 ∨ o.arity = 2 then checkOps os else .error .valueError
    else .error .assertionError

/-- The table built from the operator list. -/
def mkTable [DecidableEq σ] (operators : List (Operator σ)) (atomicTypes : List σ) : Table σ :=
  ⟨lookupOp 1 operators, lookupOp 2 operators, fun s => decide (s ∈ atomicTypes)⟩

/-- `infix_parse` (infix_parser.py:209-252). -/
def infixParse [DecidableEq σ] (ts : List (Tok σ ε)) (operators : List (Operator σ))
    (atomicTypes : List σ) : Except Err (Node σ ε) :=
  match checkOps operators with
  | .error e => .error e
  | .ok () => parseWith (mkTable operators atomicTypes) ts

end Patsy.Infix
