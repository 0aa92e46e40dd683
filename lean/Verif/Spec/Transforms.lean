import Verif.Model.FactorMemorize

/-!
# Specification: what stateful transforms in a formula have to remember

Every call of a stateful transform in an expression is a place of its own.  The calls are numbered from left to right;
the state of call number `k` is what its class makes of the arguments of this call on the whole data, where the
arguments are computed with the final states of the calls inside.
-/

namespace Patsy.Spec

open Patsy.EvalFactor Patsy.Calls

variable {D V A S L L' : Type}

/-- The number of calls of an expression. -/
def size : Expr L → Nat
  | .nil => 0
  | .tok _ rest => size rest
  | .group _ body rest => size body + size rest
  | .call _ body rest => size body + size rest + 1

/-- The calls numbered from left to right. -/
def number : Nat → Expr L → Expr (Nat × L)
  | _, .nil => .nil
  | i, .tok t rest => .tok t (number i rest)
  | i, .group b body rest => .group b (number i body) (number (i + size body) rest)
  | i, .call l body rest => .call (i, l) (number (i + 1) body) (number (i + 1 + size body) rest)

/-- The calls of an expression with their arguments, from left to right. -/
def sites : Expr L → List (L × Expr L)
  | .nil => []
  | .tok _ rest => sites rest
  | .group _ body rest => sites body ++ sites rest
  | .call l body rest => (l, body) :: (sites body ++ sites rest)

/-- What a class remembers of a sequence of argument lists. -/
def remember (c : Class S A V) (as : List A) : Except Err S := do
  let s ← as.foldlM c.chunk c.init
  c.finish s

/-- A call with the states `σ`. -/
def stateCall (classOf : String → Class S A V) (σ : Nat → S) (p : Nat × String) (a : A) : Except Err V :=
  (classOf p.2).transform (σ p.1) a

/-- `σ` are the right states for the calls in `e` on the data `chunks`. -/
def Remembers (P : Python D V A) (classOf : String → Class S A V) (chunks : List D) (e : Expr String) (σ : Nat → S) : Prop :=
  ∀ k f body, ((k, f), body) ∈ sites (number 0 e) → ∃ as : List A,
    chunks.mapM (fun d => P.arguments (stateCall classOf σ) d body) = .ok as ∧ remember (classOf f) as = .ok (σ k)

/-- The value of an expression with given states. -/
def valueWith (P : Python D V A) (classOf : String → Class S A V) (σ : Nat → S) (e : Expr String) (d : D) : Except Err V :=
  P.value (stateCall classOf σ) d (number 0 e)

/-- The value of an expression outside of patsy: the stateful transforms are called as ordinary functions. -/
def plainValue (P : Python D V A) (classOf : String → Class S A V) (e : Expr String) (d : D) : Except Err V :=
  P.value (fun f a => (classOf f).call a) d e

/-! ### Data in chunks -/

/-- When `n` chunks put together are a given whole: for data, for values, for argument lists. -/
structure Joins (n : Nat) (D V A : Type) where
  data : (Fin n → D) → D → Prop
  value : (Fin n → V) → V → Prop
  args : (Fin n → A) → A → Prop

/-- The lists `vs i` (one for each chunk) put together entry by entry. -/
inductive Glued {n : Nat} (join : (Fin n → V) → V → Prop) : (Fin n → List V) → List V → Prop
  | nil : Glued join (fun _ => []) []
  | cons {vs : Fin n → List V} {l : List V} {w : Fin n → V} {v : V} (hv : join w v) (h : Glued join vs l) :
    Glued join (fun i => w i :: vs i) (v :: l)

/-- Outside of the calls, the expression works row by row: on data put together it gives the values put together. -/
def RowwiseCode {n : Nat} (P : Python D V A) (J : Joins n D V A) (e : Expr String) : Prop :=
  (∀ d whole vs l v, J.data d whole → Glued J.value vs l → (∀ i, P.expr e.skel (d i) (vs i) = .ok (v i)) →
    ∃ w, J.value v w ∧ P.expr e.skel whole l = .ok w) ∧
  ∀ p ∈ sites e, ∀ d whole vs l a, J.data d whole → Glued J.value vs l → (∀ i, P.args p.2.skel (d i) (vs i) = .ok (a i)) →
    ∃ b, J.args a b ∧ P.args p.2.skel whole l = .ok b

/-- A class that works row by row once its state is known, and that remembers the same whether it gets the data in
chunks or all at once. -/
def ChunkFree {n : Nat} (J : Joins n D V A) (c : Class S A V) : Prop :=
  ∀ a b, J.args a b →
    (∀ s v, (∀ i, c.transform s (a i) = .ok (v i)) → ∃ w, J.value v w ∧ c.transform s b = .ok w) ∧
    ∀ s, remember c (List.ofFn a) = .ok s → remember c [b] = .ok s

end Patsy.Spec
