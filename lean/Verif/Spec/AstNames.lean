import Verif.Model.AstNames
import Verif.Spec.Environment

/-!
# What an expression means

Directly on the tree, in scopes that are functions; and which names an expression has.
-/

namespace Patsy.Spec

open Patsy.AstNames

variable {V : Type}

/-- The first tree is a part of the second. -/
inductive Inside : Node V → Node V → Prop
  | self (e : Node V) : Inside e e
  | kid {a b e : Node V} (hb : b ∈ e.kids) (h : Inside a b) : Inside a e

/-- The name occurs in the expression. -/
def Mentions (n : String) (e : Node V) : Prop := Inside (.name n) e

/-- No part of the expression binds names (lambda, comprehension). -/
def BindsNothing (e : Node V) : Prop := ∀ k ks, ¬ Inside (.binder k ks) e

mutual

/-- The value of an expression and what it has assigned so far: names are looked up in `look`, behind what the
expression has assigned itself; `Q` looks names up in `quoted` instead. -/
def meaning (P : Python V) (look quoted : Scope V) : Node V → Scope V → Except Err (V × Scope V)
  | .name n, own => match resolve [own, look] n with
    | some v => .ok (v, own)
    | none => .error .nameError
  | .const v, own => .ok (v, own)
  | .op o ks, own => meanings P look quoted o ks [] own
  | .call f as, own => do
    let r ← meaning P look quoted f own
    let vs ← arguments P look quoted as [] r.2
    match P.asQ r.1 vs.1 with
    | some n => match resolve [vs.2, quoted] n with
      | some v => .ok (v, vs.2)
      | none => .error .nameError
    | none => do
      let v ← P.call r.1 vs.1
      pure (v, vs.2)
  | .named t e, own => do
    let r ← meaning P look quoted e own
    pure (r.1, assign r.2 t r.1)
  | .binder _ _, _ => .error .patsyError

/-- The result of an operator. -/
def meanings (P : Python V) (look quoted : Scope V) (o : String) :
    List (Node V) → List (Option V) → Scope V → Except Err (V × Scope V)
  | [], done, own => do
    let v ← P.apply o done
    pure (v, own)
  | e :: es, done, own =>
    match P.plan o done with
    | .evaluate => do
      let r ← meaning P look quoted e own
      meanings P look quoted o es (done ++ [some r.1]) r.2
    | .skip => meanings P look quoted o es (done ++ [none]) own
    | .finish r => do
      let v ← r
      pure (v, own)

/-- The values of arguments. -/
def arguments (P : Python V) (look quoted : Scope V) :
    List (Node V) → List (Option V) → Scope V → Except Err (List (Option V) × Scope V)
  | [], done, own => .ok (done, own)
  | e :: es, done, own => do
    let r ← meaning P look quoted e own
    arguments P look quoted es (done ++ [some r.1]) r.2

end

end Patsy.Spec
