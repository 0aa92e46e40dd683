import Verif.Model.Constraint
import Verif.Model.EvalPosition

/-!
# Model of the positions in errors of linear constraints (`patsy/constraint.py`)

The same functions as in `Model/Constraint.lean`; an exception carries the second argument of `PatsyError`, or its attribute
`origin` if it is a parse node (`PatsyError.__init__`, __init__.py:47-51, 59-69).
-/

namespace Patsy.Constraint

open Patsy.Infix
open Patsy.Located (LErr nowhere parseAt)

variable {K : Type} [Field K] [DecidableEq K]

/-- A `PatsyError` with the position `o`; other exceptions have no position. -/
def locate {α : Type} (o : Origin) : Except Err α → Except LErr α
  | .ok a => .ok a
  | .error e => .error (e, if e = .patsyError then some o else none)

/-- `_tokenize_constraint` (constraint.py:186-214); the position is that of the first character that is left over
(lines 208-212). -/
def tokenizeAt (s : List Char) (names : List Name) : Except LErr (List (Tok Sym Name)) :=
  let r := scan names s.length 0 s
  if r.2 = [] then .ok r.1
  else
    let offset := s.length - r.2.length
    .error (.patsyError, some ⟨offset, offset + 1⟩)

/-- `parse_constraint` (constraint.py:257-258); the operators pass the checks at infix_parser.py:214-221. -/
def parseTextAt (s : List Char) (names : List Name) : Except LErr (Node Sym Name) := do
  let toks ← tokenizeAt s names
  parseAt (mkTable ops atomic) ⟨toks, none⟩

/-- The constraint that an argument of an equation contributes when it is itself an equation (constraint.py:337-339), with
the position of the argument. -/
def nestedAt (names : List Name) (inner : Option (Origin × Except LErr (Val K))) (v : Origin × Except LErr (Val K)) :
    Except LErr (List (LinCon K)) :=
  match inner with
  | none => .ok []
  | some _ => do
    let x ← v.2
    let c ← locate v.1 (toCon names x)
    pure [c]

/-- `_eval_binary_eq` (constraint.py:333-351) of an equation at `o`, given the values and the positions of the arguments and
of the inner arguments that replace them at line 342. -/
def evalEqAt (names : List Name) (o : Origin) (innerL innerR : Option (Origin × Except LErr (Val K)))
    (l r : Origin × Except LErr (Val K)) : Except LErr (Val K) := do
  let cl ← nestedAt names innerL l
  let cr ← nestedAt names innerR r
  let lv ← (innerL.getD l).2
  let a ← locate (innerL.getD l).1 (toLin lv)
  let rv ← (innerR.getD r).2
  let b ← locate (innerR.getD r).1 (toLin rv)
  let coefs := List.zipWith (· - ·) a.coefs b.coefs
  if coefs.all fun c => decide (c = 0) then .error (.patsyError, some o)
  else do
    let c ← nowhere (LinCon.make names (.vec coefs) (some (.scalar (-a.const + b.const))))
    let res ← nowhere (combine (cl ++ cr ++ [c]))
    pure (.con res)

/-- `_eval_binary_comma` (constraint.py:353-356). -/
def evalCommaAt (names : List Name) (l r : Origin × Except LErr (Val K)) : Except LErr (Val K) := do
  let lv ← l.2
  let a ← locate l.1 (toCon names lv)
  let rv ← r.2
  let b ← locate r.1 (toCon names rv)
  let c ← nowhere (combine [a, b])
  pure (.con c)

/-- The parse node in the error of an arithmetic operation: the divisor (constraint.py:319-321) or the whole product
(constraint.py:329-331).  Sums and differences raise no error. -/
def arithOrigin (t : Tok Sym Name) (o right : Origin) : Origin := if t.kind = .sym .div then right else o

/-- `_EvalConstraint.eval` (constraint.py:358-375) before the final conversion; the conversion of an argument is reported at the
argument (lines 368, 374). -/
def evalAt (names : List Name) (float : Name → K) : Node Sym Name → Except LErr (Val K)
  | .atom t _ => nowhere (evalAtom names float t)
  | .unary t a _ => do
    let v ← evalAt names float a
    let x ← locate a.origin (toLin v)
    nowhere (evalUnary t x)
  | .binary t l r o =>
    if t.kind = .sym .eq then
      evalEqAt names o
        (match l with
          | .binary tl _ lr _ => if tl.kind = .sym .eq then some (lr.origin, evalAt names float lr) else none
          | _ => none)
        (match r with
          | .binary tr rl _ _ => if tr.kind = .sym .eq then some (rl.origin, evalAt names float rl) else none
          | _ => none)
        (l.origin, evalAt names float l) (r.origin, evalAt names float r)
    else if t.kind = .sym .comma then
      evalCommaAt names (l.origin, evalAt names float l) (r.origin, evalAt names float r)
    else do
      let lv ← evalAt names float l
      let a ← locate l.origin (toLin lv)
      let rv ← evalAt names float r
      let b ← locate r.origin (toLin rv)
      locate (arithOrigin t o r.origin) (evalArith t a b)

/-- `evaluator.eval(tree, constraint=True)` (constraint.py:358-370). -/
def evalConstraintAt (names : List Name) (float : Name → K) (n : Node Sym Name) : Except LErr (LinCon K) := do
  let v ← evalAt names float n
  locate n.origin (toCon names v)

/-- One round of the loop at constraint.py:421-426. -/
def constraintOfStringAt (names : List Name) (float : Name → K) (s : List Char) : Except LErr (LinCon K) := do
  let n ← parseTextAt s names
  evalConstraintAt names float n

end Patsy.Constraint
