import Mathlib.Algebra.Field.Defs
import Mathlib.Data.List.Sort
import Verif.Model.Infix

/-!
# Model of `patsy/constraint.py`

Numbers are elements of a field `K` with decidable equality; `float` of a number token is a parameter.
Strings are lists of characters.
-/

namespace Patsy.Constraint

open Patsy.Infix

/-- Strings. -/
abbrev Name := List Char

/-! ### Matrices and `LinearConstraint` -/

/-- Array-like input: numbers, one-dimensional, two-dimensional (with its number of columns) and
higher-dimensional arrays. -/
inductive Arr (K : Type) where
  | scalar (x : K)
  | vec (l : List K)
  | mat (ncols : Nat) (rows : List (List K))
  | higher

variable {K : Type}

/-- `np.atleast_2d` (shape and rows). -/
def Arr.atleast2d : Arr K → Option (Nat × List (List K))
  | .scalar x => some (1, [[x]])
  | .vec l => some (l.length, [l])
  | .mat n rows => some (n, rows)
  | .higher => none

/-- `atleast_2d_column_default` (util.py:190-203) on basic arrays. -/
def Arr.columnDefault : Arr K → Option (Nat × List (List K))
  | .scalar x => some (1, [[x]])
  | .vec l => some (1, l.map fun x => [x])
  | .mat n rows => some (n, rows)
  | .higher => none

/-- `LinearConstraint` (constraint.py:30-96).  `constants` is the single column. -/
structure LinCon (K : Type) where
  names : List Name
  coefs : List (List K)
  constants : List K
  deriving DecidableEq, Repr

/-- `LinearConstraint.__init__` (constraint.py:53-67). -/
def LinCon.make [Zero K] (names : List Name) (coefs : Arr K) (constants : Option (Arr K)) :
    Except Err (LinCon K) :=
  let cs : Arr K := match constants with
    | none => match coefs.atleast2d with
      | some (_, rows) => Arr.vec (List.replicate rows.length 0)
      | none => Arr.vec []
    | some c => c
  match cs.columnDefault with
  | none => .error .valueError
  | some (k, crows) =>
    if k ≠ 1 then .error .valueError
    else
      match coefs.atleast2d with
      | none => .error .valueError
      | some (n, rows) =>
        if n ≠ names.length then .error .valueError
        else if rows.length = 0 then .error .valueError
        else if rows.length ≠ crows.length then .error .valueError
        else .ok ⟨names, rows, crows.map fun r => r.headD 0⟩

/-- `LinearConstraint.combine` (constraint.py:80-96). -/
def combine [Zero K] (cs : List (LinCon K)) : Except Err (LinCon K) :=
  match cs with
  | [] => .error .valueError
  | c :: _ =>
    if cs.any fun d => decide (d.names ≠ c.names) then .error .valueError
    else LinCon.make c.names (.mat c.names.length (cs.flatMap (·.coefs)))
      (some (.mat 1 ((cs.flatMap (·.constants)).map fun x => [x])))

/-! ### The tokenizer -/

/-- Token types of the constraint language: the operators and `_atomic`. -/
inductive Sym where
  | comma | eq | plus | minus | times | div | number | variable
  deriving DecidableEq, Repr

/-- `_ops` (constraint.py:161-170). -/
def ops : List (Operator Sym) :=
  [⟨.comma, 2, -100⟩, ⟨.eq, 2, 0⟩, ⟨.plus, 1, 100⟩, ⟨.minus, 1, 100⟩, ⟨.plus, 2, 100⟩, ⟨.minus, 2, 100⟩,
    ⟨.times, 2, 200⟩, ⟨.div, 2, 200⟩]

/-- `_atomic` (constraint.py:172). -/
def atomic : List Sym := [.number, .variable]

/-- `op_re` (constraint.py:189). -/
def opSym : Char → Option Sym
  | ',' => some .comma
  | '=' => some .eq
  | '+' => some .plus
  | '-' => some .minus
  | '*' => some .times
  | '/' => some .div
  | _ => none

/-- `[0-9]`. -/
def isDigit (c : Char) : Bool := decide ('0' ≤ c) && decide (c ≤ '9')

/-- `\s` for strings: the characters with `str.isspace()`. -/
def isSpace (c : Char) : Bool :=
  let n := c.toNat
  decide (0x09 ≤ n ∧ n ≤ 0x0d) || decide (0x1c ≤ n ∧ n ≤ 0x20) || decide (0x2000 ≤ n ∧ n ≤ 0x200a) ||
    decide (n ∈ [0x85, 0xa0, 0x1680, 0x2028, 0x2029, 0x202f, 0x205f, 0x3000])

/-- The length of the match of `(?:[eE][-+]?[0-9]+)?`. -/
def exponentMatch : List Char → Nat
  | e :: s =>
    if e = 'e' ∨ e = 'E' then
      match s with
      | c :: s' =>
        if c = '-' ∨ c = '+' then
          let d := (s'.takeWhile isDigit).length
          if d = 0 then 0 else d + 2
        else
          let d := ((c :: s').takeWhile isDigit).length
          if d = 0 then 0 else d + 1
      | [] => 0
    else 0
  | [] => 0

/-- The number of digits after a point. -/
def fractionMatch : List Char → Nat
  | c :: s => if c = '.' then (s.takeWhile isDigit).length else 0
  | [] => 0

/-- The length of the match of `[0-9]*\.?[0-9]+`; backtracking gives back the point when no digit follows. -/
def mantissaMatch (s : List Char) : Option Nat :=
  let d := (s.takeWhile isDigit).length
  let f := fractionMatch (s.drop d)
  if f ≠ 0 then some (d + 1 + f) else if d ≠ 0 then some d else none

/-- The length of the match of `num_re` (constraint.py:190).  The optional sign never matches, because
`op_re` is tried before. -/
def numberMatch (s : List Char) : Option Nat :=
  (mantissaMatch s).map fun m => m + exponentMatch (s.drop m)

/-- The names in the order of `variable_re` (constraint.py:194-195).  `sorted` is stable with
`reverse=True`; no names give the empty pattern, which matches the empty string. -/
def variableOrder (names : List Name) : List Name :=
  if names = [] then [[]] else names.insertionSort fun a b => b.length ≤ a.length

/-- The length of the match of `variable_re`. -/
def variableMatch (names : List Name) (s : List Char) : Option Nat :=
  ((variableOrder names).find? fun n => n.isPrefixOf s).map (·.length)

/-- The first pattern of the lexicon (constraint.py:197-204) that matches at the beginning of the string:
the type of token (nothing for white space) and the length of the match. -/
def lexeme (names : List Name) (s : List Char) : Option (Option (Kind Sym) × Nat) :=
  if s.head? = some '(' then some (some .lparen, 1)
  else if s.head? = some ')' then some (some .rparen, 1)
  else match s.head?.bind opSym with
    | some o => some (some (.sym o), 1)
    | none => match variableMatch names s with
      | some n => some (some (.sym .variable), n)
      | none => match numberMatch s with
        | some n => some (some (.sym .number), n)
        | none =>
          let w := (s.takeWhile isSpace).length
          if w = 0 then none else some (none, w)

/-- `re.Scanner.scan`: match again and again; stop when nothing or the empty string matches.  Every match
is not empty, so as many rounds as there are characters are enough.  The result is the list of tokens
and what is left over. -/
def scan (names : List Name) : Nat → Nat → List Char → List (Tok Sym Name) × List Char
  | 0, _, s => ([], s)
  | fuel + 1, pos, s =>
    match lexeme names s with
    | none => ([], s)
    | some (k, n) =>
      if n = 0 then ([], s)
      else
        let r := scan names fuel (pos + n) (s.drop n)
        match k with
        | none => r
        | some k => (⟨k, ⟨pos, pos + n⟩, s.take n⟩ :: r.1, r.2)

/-- `_tokenize_constraint` (constraint.py:186-214). -/
def tokenize (s : List Char) (names : List Name) : Except Err (List (Tok Sym Name)) :=
  let r := scan names s.length 0 s
  if r.2 = [] then .ok r.1 else .error .patsyError

/-- `parse_constraint` (constraint.py:257-258). -/
def parse (s : List Char) (names : List Name) : Except Err (Node Sym Name) := do
  let toks ← tokenize s names
  infixParse toks ops atomic

/-! ### The evaluator -/

section eval
variable [Field K] [DecidableEq K]

/-- An array of `N + 1` numbers: the first `N` (`coefs[:N]`) and the last (`coefs[-1]`). -/
structure Lin (K : Type) where
  coefs : List K
  const : K
  deriving DecidableEq, Repr

/-- What an expression evaluates to (constraint.py:279-284). -/
inductive Val (K : Type) where
  | lin (l : Lin K)
  | con (c : LinCon K)

/-- `is_constant` (constraint.py:286-287). -/
def Lin.isConstant (l : Lin K) : Bool := l.coefs.all fun c => decide (c = 0)

/-- The conversion at the end of `eval` (constraint.py:362-370): the value as a constraint. -/
def toCon (names : List Name) : Val K → Except Err (LinCon K)
  | .con c => .ok c
  | .lin l =>
    if l.isConstant then .error .patsyError
    else LinCon.make names (.vec l.coefs) (some (.scalar (-l.const)))

/-- The conversion at the end of `eval` (constraint.py:371-375): the value as a linear combination. -/
def toLin : Val K → Except Err (Lin K)
  | .con _ => .error .patsyError
  | .lin l => .ok l

/-- `_eval_variable`, `_eval_number` (constraint.py:289-298).  `index` raises a `ValueError` for an unknown
name; other token types fail the assertion at line 360. -/
def evalAtom (names : List Name) (float : Name → K) (t : Tok Sym Name) : Except Err (Val K) :=
  match t.kind with
  | .sym .variable =>
    if t.extra ∈ names then
      .ok (.lin ⟨(List.replicate names.length 0).set (names.idxOf t.extra) 1, 0⟩)
    else .error .valueError
  | .sym .number => .ok (.lin ⟨List.replicate names.length 0, float t.extra⟩)
  | _ => .error .assertionError

/-- `_eval_unary_plus`, `_eval_unary_minus` (constraint.py:300-304). -/
def evalUnary (t : Tok Sym Name) (a : Lin K) : Except Err (Val K) :=
  match t.kind with
  | .sym .plus => .ok (.lin a)
  | .sym .minus => .ok (.lin ⟨a.coefs.map fun x => -1 * x, -1 * a.const⟩)
  | _ => .error .assertionError

/-- `_eval_binary_plus`, `_minus`, `_div`, `_multiply` (constraint.py:306-331).  Simplification: a division
by zero, which in NumPy gives infinite or undefined numbers and a warning, is an error in the model. -/
def evalArith (t : Tok Sym Name) (a b : Lin K) : Except Err (Val K) :=
  match t.kind with
  | .sym .plus => .ok (.lin ⟨List.zipWith (· + ·) a.coefs b.coefs, a.const + b.const⟩)
  | .sym .minus => .ok (.lin ⟨List.zipWith (· - ·) a.coefs b.coefs, a.const - b.const⟩)
  | .sym .div =>
    if b.isConstant then
      if b.const = 0 then .error .zeroDivisionError
      else .ok (.lin ⟨a.coefs.map (· / b.const), a.const / b.const⟩)
    else .error .patsyError
  | .sym .times =>
    if a.isConstant then .ok (.lin ⟨b.coefs.map (a.const * ·), a.const * b.const⟩)
    else if b.isConstant then .ok (.lin ⟨a.coefs.map (· * b.const), a.const * b.const⟩)
    else .error .patsyError
  | _ => .error .assertionError

/-- The constraint that an argument of an equation contributes when it is itself an equation, i.e. has an
inner argument next to the equality sign (constraint.py:337-339). -/
def nested (names : List Name) (inner : Option (Except Err (Val K))) (v : Except Err (Val K)) :
    Except Err (List (LinCon K)) :=
  match inner with
  | none => .ok []
  | some _ => do
    let v ← v
    let c ← toCon names v
    pure [c]

/-- `_eval_binary_eq` (constraint.py:333-351), given the values of the arguments and of the inner arguments
that replace them at line 342. -/
def evalEq (names : List Name) (innerL innerR : Option (Except Err (Val K))) (l r : Except Err (Val K)) :
    Except Err (Val K) := do
  let cl ← nested names innerL l
  let cr ← nested names innerR r
  let lv ← innerL.getD l
  let a ← toLin lv
  let rv ← innerR.getD r
  let b ← toLin rv
  let coefs := List.zipWith (· - ·) a.coefs b.coefs
  if coefs.all fun c => decide (c = 0) then .error .patsyError
  else do
    let c ← LinCon.make names (.vec coefs) (some (.scalar (-a.const + b.const)))
    let res ← combine (cl ++ cr ++ [c])
    pure (.con res)

/-- `_eval_binary_comma` (constraint.py:353-356). -/
def evalComma (names : List Name) (l r : Except Err (Val K)) : Except Err (Val K) := do
  let lv ← l
  let a ← toCon names lv
  let rv ← r
  let b ← toCon names rv
  let c ← combine [a, b]
  pure (.con c)

/-- `_EvalConstraint.eval` (constraint.py:358-375) before the final conversion. -/
def eval (names : List Name) (float : Name → K) : Node Sym Name → Except Err (Val K)
  | .atom t _ => evalAtom names float t
  | .unary t a _ => do
    let v ← eval names float a
    let a ← toLin v
    evalUnary t a
  | .binary t l r _ =>
    if t.kind = .sym .eq then
      evalEq names
        (match l with
          | .binary tl _ lr _ => if tl.kind = .sym .eq then some (eval names float lr) else none
          | _ => none)
        (match r with
          | .binary tr rl _ _ => if tr.kind = .sym .eq then some (eval names float rl) else none
          | _ => none)
        (eval names float l) (eval names float r)
    else if t.kind = .sym .comma then
      evalComma names (eval names float l) (eval names float r)
    else do
      let lv ← eval names float l
      let a ← toLin lv
      let rv ← eval names float r
      let b ← toLin rv
      evalArith t a b

/-- `evaluator.eval(tree, constraint=True)`. -/
def evalConstraint (names : List Name) (float : Name → K) (n : Node Sym Name) : Except Err (LinCon K) := do
  let v ← eval names float n
  toCon names v

/-! ### `linear_constraint` -/

/-- Keys of a mapping: strings, integers (`bool` is a subclass) and other objects.  Simplification: objects
of other types that compare equal to a column name do not occur. -/
inductive Key where
  | name (n : Name)
  | int (i : Int)
  | other
  deriving DecidableEq, Repr

/-- The column that a key denotes as an index into the row, and what is put into the set `used`
(constraint.py:398-407). -/
def keyIndex (names : List Name) : Key → Except Err Int
  | .name n => if n ∈ names then .ok (names.idxOf n : Nat) else .error .valueError
  | .int i => .ok i
  | .other => .error .valueError

/-- `coefs[i, idx] = 1` on a row of zeros, with negative indices counted from the end. -/
def unitRow (n : Nat) (idx : Int) : Except Err (List K) :=
  let j := if idx < 0 then idx + n else idx
  if 0 ≤ j ∧ j < n then .ok ((List.replicate n 0).set j.toNat 1) else .error .indexError

/-- The loop at constraint.py:397-409 from some item on.  The error message for a duplicate evaluates
`variable_names[idx]`, which exists because the same index was used before. -/
def mappingRows (names : List Name) : List (Key × K) → List Int → Except Err (List (List K) × List K)
  | [], _ => .ok ([], [])
  | (k, v) :: items, used => do
    let idx ← keyIndex names k
    if idx ∈ used then .error .valueError
    else do
      let row ← unitRow names.length idx
      let rest ← mappingRows names items (idx :: used)
      pure (row :: rest.1, v :: rest.2)

/-- What may be given as a constraint.  Simplification: lists that mix strings and other objects are not
modelled. -/
inductive ConLike (K : Type) where
  | con (c : LinCon K)
  | mapping (items : List (Key × K))
  | string (s : List Char)
  | strings (l : List (List Char))
  | tuple (coefs : Arr K) (constants : Option (Arr K))
  | array (coefs : Arr K)

/-- One round of the loop at constraint.py:421-426. -/
def constraintOfString (names : List Name) (float : Name → K) (s : List Char) : Except Err (LinCon K) := do
  let n ← parse s names
  evalConstraint names float n

/-- `linear_constraint` (constraint.py:378-437).  An empty list is converted to an array by `np.asarray`. -/
def linearConstraint (names : List Name) (float : Name → K) : ConLike K → Except Err (LinCon K)
  | .con c => if c.names ≠ names then .error .valueError else .ok c
  | .mapping items => do
    let r ← mappingRows names items []
    LinCon.make names (.mat names.length r.1) (some (.vec r.2))
  | .string s => do
    let c ← constraintOfString names float s
    combine [c]
  | .strings l =>
    if l = [] then LinCon.make names (.vec []) none
    else do
      let cs ← l.mapM (constraintOfString names float)
      combine cs
  | .tuple a b => LinCon.make names a b
  | .array a => LinCon.make names a none

end eval
end Patsy.Constraint
