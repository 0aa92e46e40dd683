import Verif.Model.Util
import Verif.Model.Tokens
import Verif.Model.FormulaOps

/-!
# Model of `patsy/desc.py`

Factors have an arbitrary type `F`; `mkFactor` is the constructor
`EvalFactor(code)` (which may raise), `toInt` is Python's `int(text)`.
-/

namespace Patsy.Desc

open Patsy.Infix Patsy.Util Patsy.Tokens Patsy.Formula

variable {F : Type} [DecidableEq F]

/-- `Term` (desc.py:26-69).  The attribute `factors`; construct with `Term.of`. -/
structure Term (F : Type) where
  factors : List F
  deriving DecidableEq, Repr

/-- `Term.__init__` (desc.py:43-44). -/
def Term.of (factors : List F) : Term F := ⟨uniqueify (fun a b => decide (a = b)) factors⟩

/-- `Term.__eq__` (desc.py:46-49): equality of the sets of factors. -/
def Term.eqv (s t : Term F) : Bool :=
  s.factors.all (fun f => decide (f ∈ t.factors)) && t.factors.all (fun f => decide (f ∈ s.factors))

/-- `INTERCEPT` (desc.py:75). -/
def INTERCEPT : Term F := Term.of []

/-- `ModelDesc` (desc.py:96-181); construct with `ModelDesc.of`. -/
structure ModelDesc (F : Type) where
  lhs : List (Term F)
  rhs : List (Term F)
  deriving DecidableEq, Repr

/-- `ModelDesc.__init__` (desc.py:115-117). -/
def ModelDesc.of (lhs rhs : List (Term F)) : ModelDesc F :=
  ⟨uniqueify Term.eqv lhs, uniqueify Term.eqv rhs⟩

/-- `IntermediateExpr` (desc.py:210-232); construct with `IExpr.of`. -/
structure IExpr (F : Type) where
  intercept : Bool
  interceptOrigin : Option Origin
  interceptRemoved : Bool
  terms : List (Term F)
  deriving DecidableEq, Repr

/-- `IntermediateExpr.__init__` (desc.py:213-220) with its two assertions.
`assert self.intercept_origin` is modelled as "is not None": origins and parse nodes
are always true in Python. -/
def IExpr.of (intercept : Bool) (origin : Option Origin) (removed : Bool)
    (terms : List (Term F)) : Except Err (IExpr F) :=
  if intercept = true ∧ origin = none then .error .assertionError
  else if intercept = true ∧ removed = true then .error .assertionError
  else .ok ⟨intercept, origin, removed, uniqueify Term.eqv terms⟩

/-- `_maybe_add_intercept` (desc.py:235-239). -/
def maybeAddIntercept (doit : Bool) (terms : List (Term F)) : List (Term F) :=
  if doit then INTERCEPT :: terms else terms

/-- `_check_interactable` (desc.py:297-303). -/
def checkInteractable (e : IExpr F) : Except Err Unit :=
  if e.intercept then .error .patsyError else .ok ()

/-- The double loop of `_interaction` (desc.py:309-312). -/
def products (ls rs : List (Term F)) : List (Term F) :=
  ls.flatMap fun l => rs.map fun r => Term.of (l.factors ++ r.factors)

/-- `_interaction` (desc.py:306-313). -/
def interaction (l r : IExpr F) : Except Err (IExpr F) := do
  checkInteractable l
  checkInteractable r
  IExpr.of false none false (products l.terms r.terms)

/-- The loop of `_eval_binary_power` (desc.py:367-369): `n` iterations. -/
def powerLoop (left : IExpr F) : Nat → IExpr F → List (Term F) → Except Err (List (Term F))
  | 0, _, all => .ok all
  | n + 1, big, all => do
    let big' ← interaction left big
    powerLoop left n big' (all ++ big'.terms)

/-- `_eval_binary_power` (desc.py:351-370) after the left operand is evaluated; `p`
is the value of `power` after the parsing of the exponent (-1 if not an integer). -/
def evalPower (left : IExpr F) (p : Int) : Except Err (IExpr F) := do
  checkInteractable left
  if p < 1 then .error .patsyError
  else
    let power := min left.terms.length p.toNat
    let all ← powerLoop left (power - 1) left left.terms
    IExpr.of false none false all

/-- `_eval_binary_plus` (desc.py:256-275) when the right operand is not the literal
`0`. -/
def evalPlus (l r : IExpr F) : Except Err (IExpr F) :=
  if r.intercept then IExpr.of true r.interceptOrigin false (l.terms ++ r.terms)
  else IExpr.of l.intercept l.interceptOrigin l.interceptRemoved (l.terms ++ r.terms)

/-- `_eval_binary_minus` (desc.py:284-294) when the right operand is neither the
literal `0` nor `1`. -/
def evalMinus (l r : IExpr F) : Except Err (IExpr F) :=
  let terms := l.terms.filter fun t => !(r.terms.any fun u => Term.eqv u t)
  if r.intercept then IExpr.of false none true terms
  else IExpr.of l.intercept l.interceptOrigin l.interceptRemoved terms

/-- `_eval_binary_prod` (desc.py:316-320). -/
def evalProd (l r : IExpr F) : Except Err (IExpr F) := do
  let i ← interaction l r
  IExpr.of false none false (l.terms ++ r.terms ++ i.terms)

/-- `_eval_binary_div` (desc.py:331-343). -/
def evalDiv (l r : IExpr F) : Except Err (IExpr F) := do
  checkInteractable l
  let combined ← IExpr.of false none false [Term.of (l.terms.flatMap (·.factors))]
  let i ← interaction combined r
  IExpr.of false none false (l.terms ++ i.terms)

/-- Result of an evaluator function: an intermediate expression or a model. -/
inductive Val (F : Type) where
  | expr (e : IExpr F)
  | desc (d : ModelDesc F)
  deriving Repr

/-- `require_evalexpr` (desc.py:444-455): only intermediate expressions may be
operands. -/
def requireExpr : Except Err (Val F) → Except Err (IExpr F)
  | .ok (.expr e) => .ok e
  | .ok (.desc _) => .error .patsyError
  | .error e => .error e

/-- The attribute `type` of a parse node. -/
def nodeType (n : Node String (Option String)) : Option String :=
  match n.token.kind with
  | .sym s => some s
  | _ => none

/-- The exponent of `**` (desc.py:354-360): -1 unless the node is a literal integer. -/
def exponent (toInt : String → Option Int) (n : Node String (Option String)) : Int :=
  if nodeType n = some "ONE" ∨ nodeType n = some "NUMBER" then
    match n.token.extra with
    | some s => (toInt s).getD (-1)
    | none => -1
  else -1

/-- The model of a tilde (desc.py:242-253) from its two evaluated sides. -/
def tildeDesc (l r : IExpr F) : ModelDesc F :=
  ModelDesc.of (maybeAddIntercept l.intercept l.terms)
    (maybeAddIntercept (!r.interceptRemoved) r.terms)

/-- `Evaluator.eval` with the table of `Evaluator.__init__` (desc.py:403-456) and the
evaluator functions `_eval_*` (242-400), by recursion over the parse tree.
`require_evalexpr=False` is used only at the root. -/
def eval (mkFactor : String → Except Err F) (toInt : String → Option Int) :
    Node String (Option String) → Except Err (Val F)
  | .atom t o =>
    match t.kind with
    | .sym "ZERO" => do return .expr (← IExpr.of false none true [])
    | .sym "ONE" => do return .expr (← IExpr.of true (some o) false [])
    | .sym "NUMBER" => .error .patsyError
    | .sym "PYTHON_EXPR" =>
      match t.extra with
      | some code => do
        let f ← mkFactor code
        return .expr (← IExpr.of false none false [Term.of [f]])
      | none => .error .typeError
    | _ => .error .patsyError
  | .unary t a o =>
    match t.kind with
    | .sym "~" => do
      let r ← requireExpr (eval mkFactor toInt a)
      let l ← IExpr.of false none true []
      return .desc (tildeDesc l r)
    | .sym "+" => do return .expr (← requireExpr (eval mkFactor toInt a))
    | .sym "-" =>
      if nodeType a = some "ZERO" then do return .expr (← IExpr.of true (some o) false [])
      else if nodeType a = some "ONE" then do return .expr (← IExpr.of false none true [])
      else .error .patsyError
    | _ => .error .patsyError
  | .binary t a b _ =>
    match t.kind with
    | .sym "~" => do
      let l ← requireExpr (eval mkFactor toInt a)
      let r ← requireExpr (eval mkFactor toInt b)
      return .desc (tildeDesc l r)
    | .sym "+" => do
      let l ← requireExpr (eval mkFactor toInt a)
      if nodeType b = some "ZERO" then return .expr (← IExpr.of false none true l.terms)
      else
        let r ← requireExpr (eval mkFactor toInt b)
        return .expr (← evalPlus l r)
    | .sym "-" => do
      let l ← requireExpr (eval mkFactor toInt a)
      if nodeType b = some "ZERO" then return .expr (← IExpr.of true (some b.origin) false l.terms)
      else if nodeType b = some "ONE" then return .expr (← IExpr.of false none true l.terms)
      else
        let r ← requireExpr (eval mkFactor toInt b)
        return .expr (← evalMinus l r)
    | .sym "*" => do
      let l ← requireExpr (eval mkFactor toInt a)
      let r ← requireExpr (eval mkFactor toInt b)
      return .expr (← evalProd l r)
    | .sym "/" => do
      let l ← requireExpr (eval mkFactor toInt a)
      let r ← requireExpr (eval mkFactor toInt b)
      return .expr (← evalDiv l r)
    | .sym ":" => do
      let l ← requireExpr (eval mkFactor toInt a)
      let r ← requireExpr (eval mkFactor toInt b)
      return .expr (← interaction l r)
    | .sym "**" => do
      let l ← requireExpr (eval mkFactor toInt a)
      return .expr (← evalPower l (exponent toInt b))
    | _ => .error .patsyError

/-- The wrapping at the end of `parse_formula` (parse_formula.py:153-154).  In Python
the new node has token `None`; nothing reads the token of a `~` node, so the model
gives it a token of type `~`. -/
def wrapRoot (n : Node String (Option String)) : Node String (Option String) :=
  if nodeType n = some "~" then n else .unary ⟨.sym "~", n.origin, none⟩ n n.origin

/-- `parse_formula` (parse_formula.py:140-155) without extra operators, from the raw
tokens Python's tokenizer yields for the code (`"~ 1"` for blank code, 141-142). -/
def parseFormula (isNumber : String → Bool) (fin : RawEnd) (raw : List PyTok) :
    Except Err (Node String (Option String)) := do
  let ts ← pythonTokenize fin raw
  let toks ← tokenizeFormula isNumber (defaultOps.map (·.tokenType)) ts
  let tree ← infixParse toks defaultOps atomicTokenTypes
  return wrapRoot tree

/-- `ModelDesc.from_formula` (desc.py:164-179) on a parse tree, with the assertion at
line 178. -/
def fromTree (mkFactor : String → Except Err F) (toInt : String → Option Int)
    (n : Node String (Option String)) : Except Err (ModelDesc F) :=
  match eval mkFactor toInt n with
  | .ok (.desc d) => .ok d
  | .ok (.expr _) => .error .assertionError
  | .error e => .error e

end Patsy.Desc
