import Verif.Model.SortAnything

/-!
# The order of levels

Independent of how patsy compares: numbers by value, then everything else by the name of its class and, within a
class, by Python's `<`.
-/

namespace Patsy.Spec

open Patsy.SortAny

/-- Items in front of items. -/
def prefixed : List Obj → Items → Items
  | [], m => m
  | x :: l, m => .cons x (prefixed l m)

/-- Python's `<` where it is defined and true: numbers by value, strings alphabetically, tuples lexicographically. -/
inductive Less : Obj → Obj → Prop
  | num {p q : ℚ} (h : p < q) : Less (.num p) (.num q)
  | str {s t : String} (h : s < t) : Less (.str s) (.str t)
  | shorter (pre : List Obj) (x : Obj) (l : Items) : Less (.tuple (prefixed pre .nil)) (.tuple (prefixed pre (.cons x l)))
  | item (pre : List Obj) {x y : Obj} (l m : Items) (h : Less x y) :
      Less (.tuple (prefixed pre (.cons x l))) (.tuple (prefixed pre (.cons y m)))

/-- The object is a number. -/
def IsNum (a : Obj) : Prop := ∃ q, a = .num q

/-- The order of levels. -/
def Before (a b : Obj) : Prop :=
  Less a b ∧ IsNum a ∧ IsNum b ∨ IsNum a ∧ ¬ IsNum b ∨
    ¬ IsNum a ∧ ¬ IsNum b ∧ (className a < className b ∨ className a = className b ∧ Less a b)

/-- Different objects of the same class can be compared. -/
def Harmless (l : List Obj) : Prop :=
  ∀ a ∈ l, ∀ b ∈ l, a ≠ b → className a = className b → ¬ IsNum a → ¬ IsNum b → Less a b ∨ Less b a

end Patsy.Spec
