import Verif.Model.Err

/-!
# The ordered dictionary of patsy

Model of `patsy/compat_ordereddict.py`, the `OrderedDict` that patsy uses for its term codings and names if the environment
variable `PATSY_AVOID_OPTIONAL_DEPENDENCIES` is set (`patsy/compat.py:13-31`).  The doubly linked list is modelled as it is,
with nodes at addresses that are read and written.

Simplified: keys are compared with a decidable equality (for the objects of patsy this is C73, `NaN` is not a key);
addresses are natural numbers that are not used again, so garbage collection is not seen; a loop over the dictionary runs
to its end before the dictionary is changed; threads, `__repr__` and the views of Python 2.7 are left out.
-/

namespace Patsy.ODict

variable {K V : Type} [DecidableEq K]

/-! ### The inherited `dict` -/

/-- `key in d` of a plain `dict` (compat_ordereddict.py:28). -/
def dictHas (d : List (K × V)) (k : K) : Bool := d.any fun p => p.1 = k

/-- `d[key]` of a plain `dict` (compat_ordereddict.py:28). -/
def dictGetItem (d : List (K × V)) (k : K) : Except Err V :=
  match d.find? fun p => p.1 = k with
  | some p => .ok p.2
  | none => .error .keyError

/-- `dict.__setitem__` (compat_ordereddict.py:53, 61). -/
def dictSetItem (d : List (K × V)) (k : K) (v : V) : List (K × V) :=
  if dictHas d k then d.map fun p => if p.1 = k then (p.1, v) else p else d ++ [(k, v)]

/-- `dict.__delitem__` and `dict.pop` without the value (compat_ordereddict.py:63, 67, 68, 119, 120). -/
def dictDelItem (d : List (K × V)) (k : K) : Except Err (List (K × V)) :=
  if dictHas d k then .ok (d.filter fun p => p.1 ≠ k) else .error .keyError

/-! ### The linked list -/

/-- An `OrderedDict` (compat_ordereddict.py:24-51): the inherited dictionary, `self.__map`, and the nodes.  A node
`[PREV, NEXT, KEY]` at address `a` is `prev a`, `next a`, `key a`; the root `self.__root` is at address 0.  `fresh` is the
next address that is not in use. -/
structure Od (K V : Type) where
  dict : List (K × V)
  map : List (K × Nat)
  prev : Nat → Nat
  next : Nat → Nat
  key : Nat → Option K
  fresh : Nat

/-- A write to a component of a node. -/
def write {A : Type} (f : Nat → A) (a : Nat) (x : A) : Nat → A := fun b => if b = a then x else f b

/-- `OrderedDict()` (compat_ordereddict.py:37-51): the root points to itself. -/
def empty : Od K V := ⟨[], [], fun _ => 0, fun _ => 0, fun _ => none, 1⟩

/-- `__setitem__` (compat_ordereddict.py:53-61).  In `last[1] = root[0] = self.__map[key] = [last, root, key]` the node is
made first, then the targets are assigned from left to right. -/
def setItem (o : Od K V) (k : K) (v : V) : Od K V :=
  let o :=
    if dictHas o.dict k then o
    else
      let root := 0
      let last := o.prev root
      let new := o.fresh
      { o with
        fresh := new + 1
        key := write o.key new (some k)
        next := write (write o.next new root) last new
        prev := write (write o.prev new last) root new
        map := dictSetItem o.map k new }
  { o with dict := dictSetItem o.dict k v }

/-- `__delitem__` (compat_ordereddict.py:63-70). -/
def delItem (o : Od K V) (k : K) : Except Err (Od K V) := do
  let dict ← dictDelItem o.dict k
  let link ← dictGetItem o.map k
  let map ← dictDelItem o.map k
  let linkPrev := o.prev link
  let linkNext := o.next link
  pure { o with
    dict := dict
    map := map
    next := write o.next linkPrev linkNext
    prev := write o.prev linkNext linkPrev }

/-- The loops of `__iter__` and `__reversed__` (compat_ordereddict.py:75-78, 83-86), which follow `step` from `curr` until
they reach the root.  The fuel stands for the unbounded loop; without fuel the loop has not ended. -/
def walk (key : Nat → Option K) (step : Nat → Nat) (curr : Nat) : Nat → Option (List (Option K))
  | 0 => none
  | fuel + 1 => if curr = 0 then some [] else (walk key step (step curr) fuel).map (key curr :: ·)

/-- `__iter__`, `keys` and `iterkeys` (compat_ordereddict.py:72-78, 125-127, 137-139).  There are `fresh` nodes; a loop that has
not ended after so many never ends. -/
def iter (o : Od K V) : Option (List (Option K)) := walk o.key o.next (o.next 0) (o.fresh + 1)

/-- `__reversed__` (compat_ordereddict.py:80-86). -/
def reversed (o : Od K V) : Option (List (Option K)) := walk o.key o.prev (o.prev 0) (o.fresh + 1)

/-- `clear` (compat_ordereddict.py:88-98) on the versions of Python that patsy supports (setup.py:35): a `dict` of Python 3 has
no `itervalues`, so that the first statement raises the `AttributeError` that is caught; only the inherited dictionary is
cleared. -/
def clear (o : Od K V) : Od K V := { o with dict := [] }

/-- `popitem` (compat_ordereddict.py:100-121). -/
def popItem (o : Od K V) (last : Bool) : Except Err ((Option K × V) × Od K V) :=
  if o.dict.isEmpty then .error .keyError
  else
    let root := 0
    let (link, o') :=
      if last then
        let link := o.prev root
        let linkPrev := o.prev link
        (link, { o with next := write o.next linkPrev root, prev := write o.prev root linkPrev })
      else
        let link := o.next root
        let linkNext := o.next link
        (link, { o with next := write o.next root linkNext, prev := write o.prev linkNext root })
    match o.key link with
    | none => .error .keyError
    | some k => do
      let map ← dictDelItem o'.map k
      let v ← dictGetItem o'.dict k
      let dict ← dictDelItem o'.dict k
      pure ((some k, v), { o' with map := map, dict := dict })

/-! ### The methods that do not depend on the structure -/

/-- `self[key] for key in ...`; the key of the root, `None`, is no key. -/
def lookups (o : Od K V) : List (Option K) → Except Err (List (Option K × V))
  | [] => .ok []
  | none :: _ => .error .keyError
  | some k :: ks => do
    let v ← dictGetItem o.dict k
    let rest ← lookups o ks
    pure ((some k, v) :: rest)

/-- `items` and `iteritems` (compat_ordereddict.py:133-135, 146-149); `values` and `itervalues` (129-131, 141-144) are the
second components. -/
def items (o : Od K V) : Option (Except Err (List (Option K × V))) := (iter o).map (lookups o)

/-- `update`, `fromkeys`, and the rest of `__init__` (compat_ordereddict.py:51, 151-182, 235-244): the pairs are set one after the
other. -/
def update (o : Od K V) (kvs : List (K × V)) : Od K V := kvs.foldl (fun o p => setItem o p.1 p.2) o

/-- `pop` (compat_ordereddict.py:188-199). -/
def pop (o : Od K V) (k : K) (default : Option V) : Except Err (V × Od K V) :=
  if dictHas o.dict k then do
    let result ← dictGetItem o.dict k
    let o ← delItem o k
    pure (result, o)
  else match default with
    | none => .error .keyError
    | some d => .ok (d, o)

/-- `setdefault` (compat_ordereddict.py:201-206). -/
def setDefault (o : Od K V) (k : K) (default : V) : Except Err (V × Od K V) :=
  if dictHas o.dict k then do
    let v ← dictGetItem o.dict k
    pure (v, o)
  else .ok (default, setItem o k default)

/-- The pairs of `items` as arguments of `update`. -/
def pairs : List (Option K × V) → List (K × V)
  | [] => []
  | (some k, v) :: l => (k, v) :: pairs l
  | (none, _) :: l => pairs l

/-- `copy` (compat_ordereddict.py:231-233), and `__reduce__` followed by unpickling (221-229): a new dictionary from the
items.  The attributes that a subclass adds are left out. -/
def copy (o : Od K V) : Option (Except Err (Od K V)) := (items o).map fun r => r.map fun l => update empty (pairs l)

/-- `__eq__` of two ordered dictionaries (compat_ordereddict.py:246-253, 255-256). -/
def eq [DecidableEq V] (o o' : Od K V) : Option (Except Err Bool) :=
  if o.dict.length ≠ o'.dict.length then some (.ok false)
  else do
    let l ← items o
    let l' ← items o'
    pure (do
      let l ← l
      let l' ← l'
      pure (l == l'))

/-! ### Programs that use a dictionary -/

/-- The operations. -/
inductive Op (K V : Type) where
  | set (k : K) (v : V)
  | del (k : K)
  | get (k : K)
  | contains (k : K)
  | len
  | keys
  | reversed
  | items
  | pop (k : K) (default : Option V)
  | popItem (last : Bool)
  | setDefault (k : K) (default : V)
  | update (kvs : List (K × V))
  | copy

/-- What an operation returns; `hangs` stands for a loop that does not end. -/
inductive Out (K V : Type) where
  | unit
  | error (e : Err)
  | value (v : V)
  | bool (b : Bool)
  | number (n : Nat)
  | keys (ks : List (Option K))
  | items (l : List (Option K × V))
  | pair (k : Option K) (v : V)
  | hangs
  deriving DecidableEq

/-- One operation on a dictionary (the methods above).  `copy` goes on with the copy.  An operation that raises an exception
leaves the dictionary as it was: the inherited dictionary raises before anything is changed. -/
def step (o : Od K V) : Op K V → Out K V × Od K V
  | .set k v => (.unit, setItem o k v)
  | .del k => match delItem o k with
    | .ok o' => (.unit, o')
    | .error e => (.error e, o)
  | .get k => match dictGetItem o.dict k with
    | .ok v => (.value v, o)
    | .error e => (.error e, o)
  | .contains k => (.bool (dictHas o.dict k), o)
  | .len => (.number o.dict.length, o)
  | .keys => match iter o with
    | some ks => (.keys ks, o)
    | none => (.hangs, o)
  | .reversed => match reversed o with
    | some ks => (.keys ks, o)
    | none => (.hangs, o)
  | .items => match items o with
    | some (.ok l) => (.items l, o)
    | some (.error e) => (.error e, o)
    | none => (.hangs, o)
  | .pop k d => match pop o k d with
    | .ok (v, o') => (.value v, o')
    | .error e => (.error e, o)
  | .popItem last => match popItem o last with
    | .ok ((k, v), o') => (.pair k v, o')
    | .error e => (.error e, o)
  | .setDefault k d => match setDefault o k d with
    | .ok (v, o') => (.value v, o')
    | .error e => (.error e, o)
  | .update kvs => (.unit, update o kvs)
  | .copy => match copy o with
    | some (.ok o') => (.unit, o')
    | some (.error e) => (.error e, o)
    | none => (.hangs, o)

/-- A sequence of operations, with everything that they return. -/
def run (o : Od K V) : List (Op K V) → List (Out K V) × Od K V
  | [] => ([], o)
  | op :: ops =>
    let (x, o') := step o op
    let (xs, o'') := run o' ops
    (x :: xs, o'')

end Patsy.ODict
