import Mathlib.Data.Multiset.MapFold

/-!
# Model of equality and hashing of patsy's objects

`Term` (`patsy/desc.py:45-54`), `EvalFactor` (`patsy/eval.py:488-495`), `LookupFactor` (`patsy/user_util.py:220-241`), `Origin`
(`patsy/origin.py:79-91`), `EvalEnvironment` (`patsy/eval.py:260-274`), `_ExpandedFactor` and `_Subterm`
(`patsy/redundancy.py:58-69, 102-109`), and the sets and dictionaries of Python that hold them.
-/

namespace Patsy.Equality

/-- What Python asks an object for: `__eq__` and `__hash__`. -/
structure Key (A H : Type) where
  eq : A → A → Bool
  hash : A → H

variable {A B U H V : Type} [DecidableEq H]

/-- Sets and dictionaries take `x` for `y` if their hashes agree and `==` says so.  Simplification: Python skips `==` for
identical objects, which makes no difference where `==` is reflexive. -/
def Key.hit (k : Key A H) (x y : A) : Bool := decide (k.hash x = k.hash y) && k.eq x y

/-- `x in s`. -/
def Key.mem (k : Key A H) (s : List A) (x : A) : Bool := s.any fun y => k.hit y x

/-- `s.add(x)`. -/
def Key.add (k : Key A H) (s : List A) (x : A) : List A := if k.mem s x then s else s ++ [x]

/-- `frozenset(l)`, in the order of insertion; this is also `uniqueify_list` (util.py:343-350). -/
def Key.set (k : Key A H) (l : List A) : List A := l.foldl k.add []

/-- `s == t` for frozensets. -/
def Key.setEq (k : Key A H) (s t : List A) : Bool := s.length == t.length && s.all fun x => k.mem t x

/-- `d[x]`, for a dictionary as a list of its items. -/
def Key.get (k : Key A H) (d : List (A × V)) (x : A) : Option V := (d.find? fun p => k.hit p.1 x).map Prod.snd

/-- `d[x] = v`. -/
def Key.put (k : Key A H) (d : List (A × V)) (x : A) (v : V) : List (A × V) :=
  if d.any fun p => k.hit p.1 x then d.map fun p => if k.hit p.1 x then (p.1, v) else p else d ++ [(x, v)]

/-- Python's `hash` for the values that patsy's objects consist of; any functions, but the hash of a frozenset does not
depend on the order of its elements. -/
structure Hashes (H : Type) where
  ofClass : String → H
  ofString : String → H
  ofBool : Bool → H
  ofInt : Int → H
  none : H
  tuple : List H → H
  set : Multiset H → H

/-- `==` of tuples. -/
def listEq (eq : A → A → Bool) : List A → List A → Bool
  | [], [] => true
  | x :: xs, y :: ys => eq x y && listEq eq xs ys
  | _, _ => false

/-- `==` of values that may be `None`. -/
def optionEq (eq : A → A → Bool) : Option A → Option A → Bool
  | none, none => true
  | some x, some y => eq x y
  | _, _ => false

/-- The factors: those of patsy with the attributes that are set by the constructors, and those of a user.  `O` are
origins, `U` objects of a user: factors, contrasts, levels. -/
inductive Factor (O U : Type)
  | eval (code : String) (origin : O)
  | lookup (varname : String) (forceCategorical : Bool) (contrast : Option U) (levels : Option (List U)) (origin : O)
  | user (u : U)

/-- `EvalFactor.__eq__` (eval.py:488-489), `LookupFactor.__eq__` (user_util.py:220-227); a user's factors are not equal to
patsy's. -/
def Factor.eq {O : Type} (u : Key U H) : Factor O U → Factor O U → Bool
  | .eval c _, .eval c' _ => c == c'
  | .lookup n f c l _, .lookup n' f' c' l' _ => n == n' && f == f' && optionEq u.eq c c' && optionEq (listEq u.eq) l l'
  | .user x, .user y => u.eq x y
  | _, _ => false

/-- `EvalFactor.__hash__` (eval.py:494-495), `LookupFactor.__hash__` (user_util.py:232-241). -/
def Factor.hash {O : Type} (hs : Hashes H) (u : Key U H) : Factor O U → H
  | .eval c _ => hs.tuple [hs.ofClass "EvalFactor", hs.ofString c]
  | .lookup n f c l _ => hs.tuple [hs.ofClass "LookupFactor", hs.ofString n, hs.ofBool f,
      (c.map u.hash).getD hs.none, (l.map fun l => hs.tuple (l.map u.hash)).getD hs.none]
  | .user x => u.hash x

/-- A factor as a key. -/
def factorKey {O : Type} (hs : Hashes H) (u : Key U H) : Key (Factor O U) H := ⟨Factor.eq u, Factor.hash hs u⟩

/-- `Term.__init__` (desc.py:42-43). -/
def makeTerm (k : Key A H) (factors : List A) : List A := k.set factors

/-- A term as a key (desc.py:45-48, 53-54). -/
def termKey (hs : Hashes H) (k : Key A H) : Key (List A) H where
  eq s t := k.setEq (k.set t) (k.set s)
  hash s := hs.tuple [hs.ofClass "Term", hs.set ((k.set s).map k.hash : List H)]

/-- An origin as a key (origin.py:79-85, 90-91). -/
def originKey (hs : Hashes H) : Key (String × Int × Int) H where
  eq a b := a.1 == b.1 && a.2.1 == b.2.1 && a.2.2 == b.2.2
  hash a := hs.tuple [hs.ofClass "Origin", hs.ofString a.1, hs.ofInt a.2.1, hs.ofInt a.2.2]

/-- An environment as a key: the flags, and the addresses of the namespaces (eval.py:260-268, 273-274). -/
def envKey (hs : Hashes H) : Key (Int × List Int) H where
  eq a b := a.1 == b.1 && a.2 == b.2
  hash a := hs.tuple [hs.ofClass "EvalEnvironment", hs.ofInt a.1, hs.tuple (a.2.map hs.ofInt)]

/-- An `_ExpandedFactor` as a key (redundancy.py:58-66). -/
def expandedKey (hs : Hashes H) (k : Key A H) : Key (Bool × A) H where
  eq a b := b.1 == a.1 && k.eq b.2 a.2
  hash a := hs.tuple [hs.ofClass "_ExpandedFactor", hs.ofBool a.1, k.hash a.2]

/-- A `_Subterm` as a key (redundancy.py:102-106): `__eq__` compares the factors of the first one with themselves. -/
def subtermKey (hs : Hashes H) (k : Key A H) : Key (List A) H where
  eq s _ := k.setEq (k.set s) (k.set s)
  hash s := hs.tuple [hs.ofClass "_Subterm", hs.set ((k.set s).map k.hash : List H)]

/-- Objects of two classes in one set: they are not equal. -/
def sumKey (k : Key A H) (l : Key B H) : Key (A ⊕ B) H where
  eq
    | .inl x, .inl y => k.eq x y
    | .inr x, .inr y => l.eq x y
    | _, _ => false
  hash
    | .inl x => k.hash x
    | .inr x => l.hash x

end Patsy.Equality
