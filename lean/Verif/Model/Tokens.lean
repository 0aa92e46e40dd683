import Verif.Model.Infix

/-!
# Model of `patsy/tokens.py` and of the tokenizer in `patsy/parse_formula.py`

Python's own `tokenize` module is not modelled: its output is a parameter.
-/

namespace Patsy.Tokens

open Patsy.Infix

/-- The token types of Python's `tokenize` that the code distinguishes. `op` stands
for OP and for every type not listed. -/
inductive PyType where
  | name | number | string | op
  | newline | nl | endmarker | indent | dedent | comment | errortoken
  deriving DecidableEq, Repr

/-- One token `(type, string, origin)`, as yielded by `python_tokenize`
(tokens.py:44); also used for the raw tokens of `tokenize.generate_tokens`. -/
structure PyTok where
  type : PyType
  str : String
  origin : Origin
  deriving DecidableEq, Repr

/-- How the raw stream of `tokenize.generate_tokens` ends if no ENDMARKER comes:
exhausted (tokens.py:45-46), a `TokenError` about an unterminated string (56-60), a
`TokenError` about a multi-line construct (63-64), or another `TokenError`. -/
inductive RawEnd where
  | exhausted
  | unterminatedString
  | multiLine
  | otherTokenError
  deriving DecidableEq, Repr

/-- `python_tokenize` (tokens.py:25-64), applied to the raw tokens that
`tokenize.generate_tokens` yields for the stripped code.  Python yields the tokens
lazily; here an error anywhere makes the whole result an error (both are raised while
the caller iterates). -/
def pythonTokenize (fin : RawEnd) : List PyTok → Except Err (List PyTok)
  | [] =>
    match fin with
    | .exhausted => .error .valueError
    | .unterminatedString => .error .patsyError
    | .multiLine => .ok []
    | .otherTokenError => .error .assertionError
  | t :: ts =>
    if t.type = .endmarker then .ok []
    else if t.type = .nl ∨ t.type = .newline then
      if t.str = "" then pythonTokenize fin ts else .error .assertionError
    else if t.type = .errortoken then .error .patsyError
    else if t.type = .comment then .error .patsyError
    else
      match pythonTokenize fin ts with
      | .ok r => .ok (t :: r)
      | .error e => .error e

/-! ### `pretty_untokenize` -/

/-- `_python_space_both` (tokens.py:101-111). -/
def spaceBoth : List String :=
  ["+", "-", "*", "/", "%", "&", "^", "|", "<", ">"] ++
  ["==", "<>", "!=", "<=", ">=", "<<", ">>", "**", "//"]

/-- `_python_space_before` (tokens.py:112). -/
def spaceBefore : List String := spaceBoth ++ ["!", "~"]

/-- `_python_space_after` (tokens.py:113). -/
def spaceAfter : List String := spaceBoth ++ [",", ":"]

/-- The local variables of `pretty_untokenize` (tokens.py:117-122) except `text`.
The head of `brackets` is the top of the stack. -/
structure UState where
  prevWasSpaceDelim : Bool
  prevWantsSpace : Bool
  prevWasOpenParenOrComma : Bool
  prevWasObjectLike : Bool
  brackets : List String

/-- tokens.py:117-122. -/
def UState.init : UState := ⟨false, false, false, false, []⟩

/-- Types that are printed as words (tokens.py:129). -/
def isWord (t : PyType) : Bool :=
  match t with
  | .name | .number | .string => true
  | _ => false

/-- tokens.py:136-139. -/
def pushBracket (brackets : List String) (tok : String) : List String :=
  if tok = "(" ∨ tok = "[" ∨ tok = "{" then tok :: brackets
  else if tok = ")" ∨ tok = "]" ∨ tok = "}" then brackets.tail
  else brackets

/-- tokens.py:140-160: whether a non-word token wants a blank before and after.
`brackets` is already updated. -/
def wants (prevOpenOrComma prevObj : Bool) (brackets : List String) (tok : String) : Bool × Bool :=
  let b := decide (tok ∈ spaceBefore)
  let a := decide (tok ∈ spaceAfter)
  let a := if tok = ":" ∧ brackets.head? = some "[" then false else a
  let (b, a) := if (tok = "*" ∨ tok = "**") ∧ prevOpenOrComma then (false, false) else (b, a)
  let (b, a) := if tok = "=" ∧ brackets = [] then (true, true) else (b, a)
  if (tok = "+" ∨ tok = "-") ∧ ¬ prevObj then (false, false) else (b, a)

/-- One iteration of the loop of `pretty_untokenize` (tokens.py:123-173) for a token
that is printed: whether a blank is printed before it, and the new state. -/
def untokStep (s : UState) (type : PyType) (tok : String) : Bool × UState :=
  let obj := isWord type || decide (tok = ")")
  let oc := decide (tok = "(" ∨ tok = ",")
  if isWord type then
    (s.prevWantsSpace || s.prevWasSpaceDelim,
      { prevWasSpaceDelim := true, prevWantsSpace := false, prevWasOpenParenOrComma := oc,
        prevWasObjectLike := obj, brackets := s.brackets })
  else
    let br := pushBracket s.brackets tok
    let w := wants s.prevWasOpenParenOrComma s.prevWasObjectLike br tok
    (s.prevWantsSpace || w.1,
      { prevWasSpaceDelim := false, prevWantsSpace := w.2, prevWasOpenParenOrComma := oc,
        prevWasObjectLike := obj, brackets := br })

/-- The loop of `pretty_untokenize` (tokens.py:123-173); the result is the list `text`.
INDENT, DEDENT and NL trip the assertion of line 124; NEWLINE and ENDMARKER are
skipped (125-128). -/
def untokLoop : UState → List (PyType × String) → Except Err (List String)
  | _, [] => .ok []
  | s, (type, tok) :: ts =>
    if type = .indent ∨ type = .dedent ∨ type = .nl then .error .assertionError
    else if type = .newline ∨ type = .endmarker then untokLoop s ts
    else
      let r := untokStep s type tok
      match untokLoop r.2 ts with
      | .ok text => .ok ((if r.1 then [" "] else []) ++ [tok] ++ text)
      | .error e => .error e

/-- `pretty_untokenize` (tokens.py:116-174). -/
def prettyUntokenize (ts : List (PyType × String)) : Except Err String :=
  match untokLoop UState.init ts with
  | .ok text => .ok (String.join text)
  | .error e => .error e

/-- `normalize_token_spacing` (tokens.py:177-179): unlike `python_tokenize` it hands
the raw tokens to `pretty_untokenize` (a `TokenError` of the tokenizer propagates and
is not modelled: `raw` is the complete list of tokens). -/
def normalizeTokenSpacing (raw : List PyTok) : Except Err String :=
  prettyUntokenize (raw.map fun t => (t.type, t.str))

/-! ### The tokenizer of formulas -/

/-- The bracket level after a token (parse_formula.py:48-53); `none` if it would be
negative.  The two `if`s of the Python code are independent, but no string is both an
opening and a closing bracket. -/
def bracketLevel (lvl : Nat) (str : String) : Option Nat :=
  if str = "(" ∨ str = "[" ∨ str = "{" then some (lvl + 1)
  else if str = ")" ∨ str = "]" ∨ str = "}" then
    match lvl with
    | 0 => none
    | l + 1 => some l
  else some lvl

/-- The loop of `_read_python_expr` (parse_formula.py:43-56): the tokens of the
expression, the remaining tokens (with the end token pushed back), and the bracket
level at the end.  The assertion at line 44 holds because the level is a `Nat` here
and a negative level is reported before the next iteration. -/
def readLoop (endTokens : List String) : Nat → List PyTok →
    Except Err (List PyTok × List PyTok × Nat)
  | lvl, [] => .ok ([], [], lvl)
  | lvl, t :: ts =>
    if lvl = 0 ∧ t.str ∈ endTokens then .ok ([], t :: ts, lvl)
    else
      match bracketLevel lvl t.str with
      | none => .error .patsyError
      | some lvl' =>
        match readLoop endTokens lvl' ts with
        | .ok (e, rest, l) => .ok (t :: e, rest, l)
        | .error e => .error e

/-- Classification of an expression text (parse_formula.py:60-67). `isNumber` is
`_is_a(int, ·) or _is_a(float, ·)`, i.e. Python's number parsers. -/
def exprType (isNumber : String → Bool) (text : String) : String :=
  if text = "0" then "ZERO"
  else if text = "1" then "ONE"
  else if isNumber text then "NUMBER"
  else "PYTHON_EXPR"

/-- Lines 57-73 of `_read_python_expr`: build the token from the collected tokens.
`Origin.combine` of an empty list is an error in Python (origin.py:62, `None`); the
list is never empty here. -/
def finishExpr (isNumber : String → Bool) (e : List PyTok) (lvl : Nat) :
    Except Err (Tok String (Option String)) :=
  if lvl = 0 then
    match e with
    | [] => .error .assertionError
    | t :: ts =>
      match prettyUntokenize (e.map fun t => (t.type, t.str)) with
      | .error e => .error e
      | .ok text =>
        .ok ⟨.sym (exprType isNumber text), Origin.combine t.origin (ts.map (·.origin)), some text⟩
  else .error .patsyError

theorem readLoop_append {ends : List String} {lvl : Nat} {ts e rest : List PyTok} {l : Nat}
    (h : readLoop ends lvl ts = .ok (e, rest, l)) : e ++ rest = ts := by
  induction ts generalizing lvl e with
  | nil => simp [readLoop] at h; obtain ⟨rfl, rfl, _⟩ := h; rfl
  | cons t ts ih =>
    rw [readLoop] at h
    split at h
    · simp at h; obtain ⟨rfl, rfl, _⟩ := h; simp
    · split at h
      · simp at h
      · split at h
        · rename_i e' rest' l' heq
          simp at h
          obtain ⟨rfl, rfl, rfl⟩ := h
          simp [ih heq]
        · simp at h

theorem readLoop_consumes {ends : List String} {t : PyTok} {ts e rest : List PyTok} {l : Nat}
    (ht : t.str ∉ ends)
    (h : readLoop ends 0 (t :: ts) = .ok (e, rest, l)) : rest.length < (t :: ts).length := by
  have h0 := readLoop_append h
  cases e with
  | nil =>
    simp only [readLoop, ht, and_false, if_false] at h
    split at h
    · simp at h
    · split at h <;> simp at h
  | cons x xs => rw [← h0]; simp; omega

/-- The dictionary `magic_token_types` (parse_formula.py:79-84). -/
def magicKind (str : String) : Kind String :=
  if str = "(" then .lparen else if str = ")" then .rparen else .sym str

/-- The generator `_tokenize_formula` (parse_formula.py:76-96) on the tokens of
`python_tokenize`.  The dictionary `magic_token_types` maps `(`, `)` and the operator
strings; `end_tokens` is its key set without `(` (line 88).  The token that starts an
expression is pushed back and read again by `_read_python_expr` (94-95).
Python's generator is lazy, so a parser error at an early token is raised instead of a
tokenizer error at a later one; both are `PatsyError`s. -/
def tokenizeLoop (isNumber : String → Bool) (ops : List String) :
    List PyTok → Except Err (List (Tok String (Option String)))
  | [] => .ok []
  | t :: ts =>
    if _hm : t.str = "(" ∨ t.str = ")" ∨ t.str ∈ ops then
      match tokenizeLoop isNumber ops ts with
      | .ok r => .ok (⟨magicKind t.str, t.origin, none⟩ :: r)
      | .error e => .error e
    else
      match _h : readLoop (")" :: ops) 0 (t :: ts) with
      | .error e => .error e
      | .ok (e, rest, lvl) =>
        match finishExpr isNumber e lvl with
        | .error e => .error e
        | .ok tok =>
          match tokenizeLoop isNumber ops rest with
          | .ok r => .ok (tok :: r)
          | .error e => .error e
termination_by ts => ts.length
decreasing_by
  · simp
  · refine readLoop_consumes ?_ _h
    rw [List.mem_cons]
    exact fun hc => _hm (Or.inr hc)

/-- `_tokenize_formula` (parse_formula.py:76-96) with its assertions (77-78). -/
def tokenizeFormula (isNumber : String → Bool) (ops : List String) (ts : List PyTok) :
    Except Err (List (Tok String (Option String))) :=
  if "(" ∈ ops ∨ ")" ∈ ops then .error .assertionError
  else tokenizeLoop isNumber ops ts

end Patsy.Tokens
