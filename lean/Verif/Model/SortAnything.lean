import Mathlib.Data.List.Sort
import Mathlib.Data.Rat.Defs
import Mathlib.Algebra.Order.Ring.Unbundled.Rat

/-!
# Model of `SortAnythingKey` (`patsy/util.py`) for more kinds of objects

`Model/Categorical.lean` has it for scalars.  Here are tuples, nested to any depth, and instances of classes that
define neither an order nor an equality; and the memory positions of objects, which are the last resort.
-/

namespace Patsy.SortAny

mutual

/-- Hashable Python objects: `None`, finite real numbers (of all types, by value), strings, tuples, and instances of
classes without `__lt__` and `__eq__` (by the name of the class and a number that tells them apart).  NaN is not
modelled, it is a missing value. -/
inductive Obj where
  | none
  | num (q : ℚ)
  | str (s : String)
  | tuple (items : Items)
  | inst (cls : String) (which : Nat)

/-- The items of a tuple. -/
inductive Items where
  | nil
  | cons (x : Obj) (xs : Items)

end

mutual

/-- `a == b`. -/
def pyEq : Obj → Obj → Bool
  | .none, .none => true
  | .num p, .num q => decide (p = q)
  | .str s, .str t => decide (s = t)
  | .tuple l, .tuple m => itemsEq l m
  | .inst c i, .inst d j => decide (c = d) && decide (i = j)
  | _, _ => false

/-- Equality of tuples: item by item. -/
def itemsEq : Items → Items → Bool
  | .nil, .nil => true
  | .cons x xs, .cons y ys => pyEq x y && itemsEq xs ys
  | _, _ => false

end

mutual

/-- `a < b`; `none` is a `TypeError` (`_python_lt`, util.py:586-596). -/
def pyLt : Obj → Obj → Option Bool
  | .num p, .num q => some (decide (p < q))
  | .str s, .str t => some (decide (s < t))
  | .tuple l, .tuple m => itemsLt l m
  | _, _ => Option.none

/-- `<` for tuples: the first items that are not equal decide, and may not be comparable; if there are none the
shorter tuple is smaller. -/
def itemsLt : Items → Items → Option Bool
  | .nil, .nil => some false
  | .nil, .cons _ _ => some true
  | .cons _ _, .nil => some false
  | .cons x xs, .cons y ys => if pyEq x y then itemsLt xs ys else pyLt x y

end

/-- `obj.__class__.__name__`.  Numbers have names of many classes, none of which is ever asked for: a number is found
out at util.py:605-608. -/
def className : Obj → String
  | .none => "NoneType"
  | .num _ => "number"
  | .str _ => "str"
  | .tuple _ => "tuple"
  | .inst c _ => c

/-- `SortAnythingKey.__lt__` (util.py:598-617); `mem` is `id`. -/
def sortLt (mem : Obj → Nat) (a b : Obj) : Bool :=
  match pyLt a b with
  | some r => r
  | Option.none =>
    if (pyLt a (.num 0)).isSome then true
    else if (pyLt b (.num 0)).isSome then false
    else if pyEq a b then false
    else decide (className a < className b) || decide (className a = className b) && decide (mem a < mem b)

/-- `sorted(l, key=SortAnythingKey)`, a stable sort.  (When the comparison is not an order the result depends on the
algorithm; this is then only one of many.) -/
def sorted (mem : Obj → Nat) (l : List Obj) : List Obj := l.insertionSort fun a b => sortLt mem b a = false

end Patsy.SortAny
