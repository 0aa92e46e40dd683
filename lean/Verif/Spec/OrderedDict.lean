import Verif.Model.OrderedDict

/-!
# Ordered dictionaries (specification for C75)

A dictionary that remembers the order in which its keys were set for the first time is a list of pairs.
-/

namespace Patsy.Spec.Ordered

open Patsy.ODict

variable {K V : Type} [DecidableEq K]

/-- The value of a key. -/
def lookup (l : List (K × V)) (k : K) : Option V := (l.find? fun p => p.1 = k).map Prod.snd

/-- A new key goes to the end, a key that is there keeps its place. -/
def set (l : List (K × V)) (k : K) (v : V) : List (K × V) :=
  if k ∈ l.map Prod.fst then l.map fun p => if p.1 = k then (k, v) else p else l ++ [(k, v)]

/-- All pairs but those with the key. -/
def erase (l : List (K × V)) (k : K) : List (K × V) := l.filter fun p => p.1 ≠ k

/-- What an operation returns for a dictionary with the given pairs, and the pairs afterwards. -/
def step (l : List (K × V)) : Op K V → Out K V × List (K × V)
  | .set k v => (.unit, set l k v)
  | .del k => if k ∈ l.map Prod.fst then (.unit, erase l k) else (.error .keyError, l)
  | .get k => match lookup l k with
    | some v => (.value v, l)
    | none => (.error .keyError, l)
  | .contains k => (.bool (decide (k ∈ l.map Prod.fst)), l)
  | .len => (.number l.length, l)
  | .keys => (.keys (l.map fun p => some p.1), l)
  | .reversed => (.keys (l.reverse.map fun p => some p.1), l)
  | .items => (.items (l.map fun p => (some p.1, p.2)), l)
  | .pop k d => match lookup l k, d with
    | some v, _ => (.value v, erase l k)
    | none, some d => (.value d, l)
    | none, none => (.error .keyError, l)
  | .popItem true => match l.getLast? with
    | some (k, v) => (.pair (some k) v, l.dropLast)
    | none => (.error .keyError, l)
  | .popItem false => match l with
    | (k, v) :: rest => (.pair (some k) v, rest)
    | [] => (.error .keyError, l)
  | .setDefault k d => match lookup l k with
    | some v => (.value v, l)
    | none => (.value d, l ++ [(k, d)])
  | .update kvs => (.unit, kvs.foldl (fun l p => set l p.1 p.2) l)
  | .copy => (.unit, l)

/-- A sequence of operations. -/
def run (l : List (K × V)) : List (Op K V) → List (Out K V) × List (K × V)
  | [] => ([], l)
  | op :: ops =>
    let (x, l') := step l op
    let (xs, l'') := run l' ops
    (x :: xs, l'')

end Patsy.Spec.Ordered
