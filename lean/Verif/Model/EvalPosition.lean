import Verif.Model.ErrorPosition

/-!
# Model of the positions in errors of formula evaluation (`patsy/desc.py`)

The same functions as in `Model/Desc.lean`; an exception carries the second argument of `PatsyError`, or its attribute
`origin` if it is a parse node (`PatsyError.__init__`, __init__.py:47-51, 59-69).  Simplified: an exception of `mkFactor`
(`EvalFactor(code)`) has no position here.
-/

namespace Patsy.Located

open Patsy.Infix Patsy.Tokens Patsy.Formula Patsy.Desc

variable {F : Type} [DecidableEq F]

/-- An exception without a position. -/
def nowhere {α : Type} : Except Err α → Except LErr α
  | .ok a => .ok a
  | .error e => .error (e, none)

/-- `_check_interactable` (desc.py:297-303). -/
def checkAt (e : IExpr F) : Except LErr Unit :=
  if e.intercept then .error (.patsyError, e.interceptOrigin) else .ok ()

/-- `_interaction` (desc.py:306-313). -/
def interactionAt (l r : IExpr F) : Except LErr (IExpr F) := do
  checkAt l
  checkAt r
  nowhere (IExpr.of false none false (products l.terms r.terms))

/-- The loop of `_eval_binary_power` (desc.py:367-369). -/
def powerLoopAt (left : IExpr F) : Nat → IExpr F → List (Term F) → Except LErr (List (Term F))
  | 0, _, all => .ok all
  | n + 1, big, all => do
    let big' ← interactionAt left big
    powerLoopAt left n big' (all ++ big'.terms)

/-- `_eval_binary_power` (desc.py:351-370); `o` is the origin of `tree.args[1]` (line 362). -/
def evalPowerAt (left : IExpr F) (p : Int) (o : Origin) : Except LErr (IExpr F) := do
  checkAt left
  if p < 1 then .error (.patsyError, some o)
  else
    let power := min left.terms.length p.toNat
    let all ← powerLoopAt left (power - 1) left left.terms
    nowhere (IExpr.of false none false all)

/-- `_eval_binary_prod` (desc.py:316-320). -/
def evalProdAt (l r : IExpr F) : Except LErr (IExpr F) := do
  let i ← interactionAt l r
  nowhere (IExpr.of false none false (l.terms ++ r.terms ++ i.terms))

/-- `_eval_binary_div` (desc.py:331-343). -/
def evalDivAt (l r : IExpr F) : Except LErr (IExpr F) := do
  checkAt l
  let combined ← nowhere (IExpr.of false none false [Term.of (l.terms.flatMap (·.factors))])
  let i ← interactionAt combined r
  nowhere (IExpr.of false none false (l.terms ++ i.terms))

/-- `require_evalexpr` (desc.py:444-455); `o` is the origin of the tree. -/
def requireAt (o : Origin) : Except LErr (Val F) → Except LErr (IExpr F)
  | .ok (.expr e) => .ok e
  | .ok (.desc _) => .error (.patsyError, some o)
  | .error e => .error e

/-- `Evaluator.eval` (desc.py:433-456) and the evaluator functions `_eval_*` (242-400).  An operator without evaluator is
reported at its token (439-442). -/
def evalAt (mkFactor : String → Except Err F) (toInt : String → Option Int) :
    Node String (Option String) → Except LErr (Val F)
  | .atom t o =>
    match t.kind with
    | .sym "ZERO" => do return .expr (← nowhere (IExpr.of false none true []))
    | .sym "ONE" => do return .expr (← nowhere (IExpr.of true (some o) false []))
    | .sym "NUMBER" => .error (.patsyError, some o)
    | .sym "PYTHON_EXPR" =>
      match t.extra with
      | some code => do
        let f ← nowhere (mkFactor code)
        return .expr (← nowhere (IExpr.of false none false [Term.of [f]]))
      | none => .error (.typeError, none)
    | _ => .error (.patsyError, some t.origin)
  | .unary t a o =>
    match t.kind with
    | .sym "~" => do
      let r ← requireAt a.origin (evalAt mkFactor toInt a)
      let l ← nowhere (IExpr.of false none true [])
      return .desc (tildeDesc l r)
    | .sym "+" => do return .expr (← requireAt a.origin (evalAt mkFactor toInt a))
    | .sym "-" =>
      if nodeType a = some "ZERO" then do return .expr (← nowhere (IExpr.of true (some o) false []))
      else if nodeType a = some "ONE" then do return .expr (← nowhere (IExpr.of false none true []))
      else .error (.patsyError, some o)
    | _ => .error (.patsyError, some t.origin)
  | .binary t a b _ =>
    match t.kind with
    | .sym "~" => do
      let l ← requireAt a.origin (evalAt mkFactor toInt a)
      let r ← requireAt b.origin (evalAt mkFactor toInt b)
      return .desc (tildeDesc l r)
    | .sym "+" => do
      let l ← requireAt a.origin (evalAt mkFactor toInt a)
      if nodeType b = some "ZERO" then return .expr (← nowhere (IExpr.of false none true l.terms))
      else
        let r ← requireAt b.origin (evalAt mkFactor toInt b)
        return .expr (← nowhere (evalPlus l r))
    | .sym "-" => do
      let l ← requireAt a.origin (evalAt mkFactor toInt a)
      if nodeType b = some "ZERO" then return .expr (← nowhere (IExpr.of true (some b.origin) false l.terms))
      else if nodeType b = some "ONE" then return .expr (← nowhere (IExpr.of false none true l.terms))
      else
        let r ← requireAt b.origin (evalAt mkFactor toInt b)
        return .expr (← nowhere (evalMinus l r))
    | .sym "*" => do
      let l ← requireAt a.origin (evalAt mkFactor toInt a)
      let r ← requireAt b.origin (evalAt mkFactor toInt b)
      return .expr (← evalProdAt l r)
    | .sym "/" => do
      let l ← requireAt a.origin (evalAt mkFactor toInt a)
      let r ← requireAt b.origin (evalAt mkFactor toInt b)
      return .expr (← evalDivAt l r)
    | .sym ":" => do
      let l ← requireAt a.origin (evalAt mkFactor toInt a)
      let r ← requireAt b.origin (evalAt mkFactor toInt b)
      return .expr (← interactionAt l r)
    | .sym "**" => do
      let l ← requireAt a.origin (evalAt mkFactor toInt a)
      return .expr (← evalPowerAt l (exponent toInt b) b.origin)
    | _ => .error (.patsyError, some t.origin)

/-- `ModelDesc.from_formula` (desc.py:164-179) on a parse tree, with the assertion at line 178. -/
def fromTreeAt (mkFactor : String → Except Err F) (toInt : String → Option Int)
    (n : Node String (Option String)) : Except LErr (ModelDesc F) :=
  match evalAt mkFactor toInt n with
  | .ok (.desc d) => .ok d
  | .ok (.expr _) => .error (.assertionError, none)
  | .error e => .error e

/-- `ModelDesc.from_formula` (desc.py:164-179) on the raw tokens of a text. -/
def fromFormulaAt (isNumber : String → Bool) (mkFactor : String → Except Err F) (toInt : String → Option Int)
    (fin : RawEnd) (whole : Origin) (raw : List PyTok) : Except LErr (ModelDesc F) := do
  let tree ← parseFormulaAt isNumber fin whole raw
  fromTreeAt mkFactor toInt tree

end Patsy.Located
