import Verif.Model.Desc

/-!
# Model of the positions in syntax errors (`patsy/tokens.py`, `patsy/parse_formula.py`, `patsy/infix_parser.py`)

The same functions as in `Model/Tokens.lean` and `Model/Infix.lean`, with two refinements: an exception carries the second
argument of `PatsyError` (the origin), and generators are lazy, which decides what exception comes first.
-/

namespace Patsy.Located

open Patsy.Infix Patsy.Tokens Patsy.Formula Patsy.Desc

/-- An exception and its attribute `origin` (`PatsyError.__init__`, __init__.py:47-51, 59-69; other exceptions have none). -/
abbrev LErr := Err × Option Origin

/-- A generator: what it yields, and the exception it raises then, if any. -/
structure Stream (α : Type) where
  items : List α
  fail : Option LErr

/-- A generator that yields one more item first. -/
def Stream.cons {α : Type} (a : α) (s : Stream α) : Stream α := ⟨a :: s.items, s.fail⟩

/-- `python_tokenize` (tokens.py:25-64).  `whole` is `Origin(code, 0, len(code))` of line 59. -/
def pythonStream (fin : RawEnd) (whole : Origin) : List PyTok → Stream PyTok
  | [] =>
    match fin with
    | .exhausted => ⟨[], some (.valueError, none)⟩
    | .unterminatedString => ⟨[], some (.patsyError, some whole)⟩
    | .multiLine => ⟨[], none⟩
    | .otherTokenError => ⟨[], some (.assertionError, none)⟩
  | t :: ts =>
    if t.type = .endmarker then ⟨[], none⟩
    else if t.type = .nl ∨ t.type = .newline then
      if t.str = "" then pythonStream fin whole ts else ⟨[], some (.assertionError, none)⟩
    else if t.type = .errortoken then ⟨[], some (.patsyError, some t.origin)⟩
    else if t.type = .comment then ⟨[], some (.patsyError, some t.origin)⟩
    else (pythonStream fin whole ts).cons t

/-- The loop of `_read_python_expr` (parse_formula.py:43-56) on a generator that fails with `fail` after the items. -/
def readAt (fail : Option LErr) (endTokens : List String) : Nat → List PyTok →
    Except LErr (List PyTok × List PyTok × Nat)
  | lvl, [] =>
    match fail with
    | some e => .error e
    | none => .ok ([], [], lvl)
  | lvl, t :: ts =>
    if lvl = 0 ∧ t.str ∈ endTokens then .ok ([], t :: ts, lvl)
    else
      match bracketLevel lvl t.str with
      | none => .error (.patsyError, some t.origin)
      | some lvl' =>
        match readAt fail endTokens lvl' ts with
        | .ok (e, rest, l) => .ok (t :: e, rest, l)
        | .error e => .error e

/-- `Origin.combine(origins)` (origin.py:41-72) of the tokens of an expression. -/
def originOf : List PyTok → Option Origin
  | [] => none
  | t :: ts => some (Origin.combine t.origin (ts.map (·.origin)))

/-- Lines 57-73 of `_read_python_expr`. -/
def finishExprAt (isNumber : String → Bool) (e : List PyTok) (lvl : Nat) : Except LErr (Tok String (Option String)) :=
  if lvl = 0 then
    match finishExpr isNumber e 0 with
    | .ok tok => .ok tok
    | .error err => .error (err, none)
  else .error (.patsyError, originOf e)

theorem readAt_append {fail : Option LErr} {ends : List String} {lvl : Nat} {ts e rest : List PyTok} {l : Nat}
    (h : readAt fail ends lvl ts = .ok (e, rest, l)) : e ++ rest = ts := by
  induction ts generalizing lvl e with
  | nil =>
    cases fail <;> simp [readAt] at h
    obtain ⟨rfl, rfl, _⟩ := h; rfl
  | cons t ts ih =>
    rw [readAt] at h
    split at h
    · simp at h; obtain ⟨rfl, rfl, _⟩ := h; simp
    · split at h
      · simp at h
      · split at h
        · rename_i e' rest' l' heq
          simp at h
          obtain ⟨rfl, rfl, rfl⟩ := h
          simp [ih heq]
        · simp at h

theorem readAt_consumes {fail : Option LErr} {ends : List String} {t : PyTok} {ts e rest : List PyTok} {l : Nat}
    (ht : t.str ∉ ends)
    (h : readAt fail ends 0 (t :: ts) = .ok (e, rest, l)) : rest.length < (t :: ts).length := by
  have h0 := readAt_append h
  cases e with
  | nil =>
    simp only [readAt, ht, and_false, if_false] at h
    split at h
    · simp at h
    · split at h <;> simp at h
  | cons x xs => rw [← h0]; simp; omega

/-- `_tokenize_formula` (parse_formula.py:76-96) on a generator that fails with `fail` after the items. -/
def tokenizeAt (isNumber : String → Bool) (ops : List String) (fail : Option LErr) :
    List PyTok → Stream (Tok String (Option String))
  | [] => ⟨[], fail⟩
  | t :: ts =>
    if _hm : t.str = "(" ∨ t.str = ")" ∨ t.str ∈ ops then
      (tokenizeAt isNumber ops fail ts).cons ⟨magicKind t.str, t.origin, none⟩
    else
      match _h : readAt fail (")" :: ops) 0 (t :: ts) with
      | .error e => ⟨[], some e⟩
      | .ok (e, rest, lvl) =>
        match finishExprAt isNumber e lvl with
        | .error e => ⟨[], some e⟩
        | .ok tok => (tokenizeAt isNumber ops fail rest).cons tok
termination_by ts => ts.length
decreasing_by
  · simp
  · refine readAt_consumes ?_ _h
    rw [List.mem_cons]
    exact fun hc => _hm (Or.inr hc)

variable {σ ε : Type}

/-- The `for` loop of `infix_parse` (infix_parser.py:230-236).  Every `PatsyError` in `_read_noun_context` (154-156) and
`_read_op_context` (184, 204-206) is about the token that is read. -/
def runAt (tb : Table σ) : State σ ε → List (Tok σ ε) → Except LErr (State σ ε)
  | s, [] => .ok s
  | s, t :: ts =>
    match step tb s t with
    | .ok s' => runAt tb s' ts
    | .error .patsyError => .error (.patsyError, some t.origin)
    | .error e => .error (e, none)

/-- The loop at infix_parser.py:246-249. -/
def runAllAt : List (StackOp σ ε) → List (Node σ ε) → Except LErr (List (Node σ ε))
  | [], nouns => .ok nouns
  | .paren t :: _, _ => .error (.patsyError, some t.origin)
  | .op n p t :: ops, nouns =>
    match runOp (.op n p t :: ops) nouns with
    | .ok (_, nouns') => runAllAt ops nouns'
    | .error e => .error (e, none)

/-- The end of `infix_parse`, infix_parser.py:240-252. -/
def finishAt (s : State σ ε) : Except LErr (Node σ ε) :=
  if s.wantNoun then
    match s.ops with
    | [] => .error (.indexError, none)
    | o :: _ => .error (.patsyError, some o.token.origin)
  else
    match runAllAt s.ops s.nouns with
    | .error e => .error e
    | .ok [n] => .ok n
    | .ok _ => .error (.assertionError, none)

/-- `infix_parse` with the dictionaries already built (infix_parser.py:223-252), on a generator. -/
def parseAt (tb : Table σ) (ts : Stream (Tok σ ε)) : Except LErr (Node σ ε) :=
  match runAt tb ⟨[], [], true⟩ ts.items with
  | .error e => .error e
  | .ok s =>
    match ts.fail with
    | some e => .error e
    | none => finishAt s

/-- `parse_formula` (parse_formula.py:140-155) without extra operators; the assertions at lines 77-78 and the checks of
the operators (infix_parser.py:214-221) hold for the default operators. -/
def parseFormulaAt (isNumber : String → Bool) (fin : RawEnd) (whole : Origin) (raw : List PyTok) :
    Except LErr (Node String (Option String)) :=
  let py := pythonStream fin whole raw
  match parseAt (mkTable defaultOps atomicTokenTypes)
      (tokenizeAt isNumber (defaultOps.map (·.tokenType)) py.fail py.items) with
  | .ok tree => .ok (wrapRoot tree)
  | .error e => .error e

end Patsy.Located
