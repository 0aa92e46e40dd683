import Verif.Model.Environment
import Verif.Model.EvalFactor

/-!
# Model of `ast_names` (`patsy/eval.py`) and of the expressions it reads

The expressions are Python's own syntax trees.  What Python does with them is not patsy's code; of the language only
this much is fixed: the parts of an expression are evaluated from left to right (an operator may skip some of them or
finish early, like `and`, `or`, `if`/`else` and chained comparisons), names are loaded, `:=` stores, and a call of
patsy's `Q` looks up the name that it is given.
-/

namespace Patsy.AstNames

open Patsy.Environment

variable {V R : Type}

/-- The nodes of Python's syntax trees (module `ast`) that occur in expressions, with their children in the order of
evaluation.  `name` is `ast.Name`, `named` is `ast.NamedExpr` with its target, `binder` are the kinds at
eval.py:108-109 (`Lambda`, `ListComp`, `GeneratorExp`, `DictComp`, `SetComp`), `call` is `ast.Call` with its function
and arguments, `op` is everything else (attributes, subscripts, operators, displays, f-strings, ...). -/
inductive Node (V : Type) where
  | name (id : String)
  | const (v : V)
  | op (o : String) (kids : List (Node V))
  | call (fn : Node V) (args : List (Node V))
  | named (target : String) (value : Node V)
  | binder (kind : String) (kids : List (Node V))

/-- `ast.iter_child_nodes`. -/
def Node.kids : Node V → List (Node V)
  | .name _ => []
  | .const _ => []
  | .op _ ks => ks
  | .call f as => f :: as
  | .named t e => [.name t, e]
  | .binder _ ks => ks

mutual

/-- The number of nodes. -/
def Node.size : Node V → Nat
  | .name _ => 1
  | .const _ => 1
  | .op _ ks => 1 + sizes ks
  | .call f as => 1 + f.size + sizes as
  | .named _ e => 2 + e.size
  | .binder _ ks => 1 + sizes ks

/-- The number of nodes of several trees. -/
def sizes : List (Node V) → Nat
  | [] => 0
  | n :: ns => n.size + sizes ns

end

/-- `ast.walk`: a queue of nodes; the first is taken out and its children are appended.  The number bounds the steps. -/
def walk : Nat → List (Node V) → List (Node V)
  | 0, _ => []
  | _ + 1, [] => []
  | n + 1, t :: todo => t :: walk n (todo ++ t.kids)

/-- The loop of `ast_names` (eval.py:111-118) over the nodes, as far as the caller runs it: to the end, or to the
first node that is refused. -/
def collect : List (Node V) → Except Err (List String)
  | [] => .ok []
  | .binder _ _ :: _ => .error .patsyError
  | .name n :: ns => do
    let r ← collect ns
    pure (n :: r)
  | _ :: ns => collect ns

/-- `ast_names` (eval.py:101-118), of code that Python has parsed. -/
def astNames (e : Node V) : Except Err (List String) := collect (walk e.size [e])

/-- `memorize_passes_needed` (eval.py:502-506): the stored environment, from the code. -/
def factorEnvOf (h : Heap V) (env : Env) (patsyBuiltins : Nat) (e : Node V) : Except Err (Env × Heap V) := do
  let names ← astNames e
  factorEnv h env patsyBuiltins names

mutual

/-- `replace_bare_funcalls(self.code, new_name_maker)` (eval.py:513-526) on trees: calls of stateful transforms by
name become calls of the method `transform` of a new object; the list has the names of the objects so far.  Patsy
works on tokens (see `Model/EvalFactor.lean`), this is what Python reads in the result. -/
def swap (stateful : String → Bool) : List String → Node V → Node V × List String
  | objs, .name n => (.name n, objs)
  | objs, .const v => (.const v, objs)
  | objs, .op o ks => let r := swaps stateful objs ks; (.op o r.1, r.2)
  | objs, .call f as =>
    match f with
    | .name n =>
      if stateful n then
        let obj := EvalFactor.objName objs.length n
        let r := swaps stateful (objs ++ [obj]) as
        (.call (.op ".transform" [.name obj]) r.1, r.2)
      else
        let r := swaps stateful objs as
        (.call (.name n) r.1, r.2)
    | f =>
      let g := swap stateful objs f
      let r := swaps stateful g.2 as
      (.call g.1 r.1, r.2)
  | objs, .named t e => let r := swap stateful objs e; (.named t r.1, r.2)
  | objs, .binder k ks => let r := swaps stateful objs ks; (.binder k r.1, r.2)

/-- `swap` for several trees. -/
def swaps (stateful : String → Bool) : List String → List (Node V) → List (Node V) × List String
  | objs, [] => ([], objs)
  | objs, e :: es =>
    let a := swap stateful objs e
    let b := swaps stateful a.2 es
    (a.1 :: b.1, b.2)

end

/-! ### Python -/

/-- What an operator does next, after some of its operands. -/
inductive Next (V : Type) where
  | evaluate
  | skip
  | finish (r : Except Err V)

/-- What Python does with values: `plan` decides about the next operand of an operator (`none` are skipped ones),
`apply` computes the result, `call` calls a function other than `Q`, `asQ` recognises patsy's `Q` and the name that it
is called with. -/
structure Python (V : Type) where
  plan : String → List (Option V) → Next V
  apply : String → List (Option V) → Except Err V
  call : V → List (Option V) → Except Err V
  asQ : V → List (Option V) → Option String

/-- Go on with a result. -/
def andThen (r : Except Err V) (k : V → Prog V R) : Prog V R :=
  match r with
  | .ok v => k v
  | .error e => .fail e

mutual

/-- The loads and stores of an expression in the order in which Python carries them out; `k` is what comes after.
Lambdas and comprehensions, which patsy refuses, are not modelled: they fail. -/
def Node.prog (P : Python V) : Node V → (V → Prog V R) → Prog V R
  | .name n, k => .load n k
  | .const v, k => k v
  | .op o ks, k => progs P o ks [] fun r => andThen r k
  | .call f as, k => f.prog P fun fv => progArgs P as [] fun vs =>
      match P.asQ fv vs with
      | some n => .quote n k
      | none => andThen (P.call fv vs) k
  | .named t e, k => e.prog P fun v => .store t v (k v)
  | .binder _ _, _ => .fail .patsyError

/-- The operands of an operator, after those with the values `done`. -/
def progs (P : Python V) (o : String) : List (Node V) → List (Option V) → (Except Err V → Prog V R) → Prog V R
  | [], done, k => k (P.apply o done)
  | e :: es, done, k =>
    match P.plan o done with
    | .evaluate => e.prog P fun v => progs P o es (done ++ [some v]) k
    | .skip => progs P o es (done ++ [none]) k
    | .finish r => k r

/-- The arguments of a call. -/
def progArgs (P : Python V) : List (Node V) → List (Option V) → (List (Option V) → Prog V R) → Prog V R
  | [], done, k => k done
  | e :: es, done, k => e.prog P fun v => progArgs P es (done ++ [some v]) k

end

end Patsy.AstNames
