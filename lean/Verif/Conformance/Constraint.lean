import Mathlib.Algebra.Field.Rat
import Verif.Model.ConstraintPosition

/-!
# Patsy's own tests about linear constraints

Transcribed from `/repo/patsy/constraint.py`; the tests about pickling, dtypes and objects of unknown types are left out.  These are
tests of the model, not proofs of properties.
-/

namespace Patsy.Conformance.Constraints

open Patsy.Constraint

/-- The constraints that the tests expect. -/
def lc (names : List String) (coefs : List (List ℚ)) (constants : List ℚ) : LinCon ℚ := ⟨names.map (·.toList), coefs, constants⟩

def names (l : List String) : List Name := l.map (·.toList)

/-- Decimal digits as a number. -/
def floatOf (s : Name) : ℚ := (s.foldl (fun n c => 10 * n + (c.toNat - 48)) 0 : Nat)

/-! ### `test_LinearConstraint` (constraint.py:99-133), `test_LinearConstraint_combine` (136-160) -/

def make (ns : List String) (coefs : Arr ℚ) (constants : Option (Arr ℚ) := none) : Except Err (LinCon ℚ) :=
  LinCon.make (names ns) coefs constants

example : okIs (make ["foo", "bar"] (.vec [1, 1])) (lc ["foo", "bar"] [[1, 1]] [0]) = true := by decide +kernel
example : okIs (make ["foo", "bar"] (.mat 2 [[1, 1], [2, 3]]) (some (.vec [10, 20]))) (lc ["foo", "bar"] [[1, 1], [2, 3]] [10, 20]) = true := by
  decide +kernel
example : okIs (make ["a"] (.mat 1 [[0]])) (lc ["a"] [[0]] [0]) = true := by decide +kernel
example : failsWith (make ["a"] (.mat 2 [[1, 2]])) .valueError = true := by decide +kernel
example : failsWith (make ["a"] .higher) .valueError = true := by decide +kernel
example : failsWith (make ["a"] (.mat 2 [[1, 2]]) (some (.vec [3, 4]))) .valueError = true := by decide +kernel
example : failsWith (make ["a", "b"] (.mat 2 [[1, 2]]) (some (.vec [3, 4]))) .valueError = true := by decide +kernel
example : failsWith (make ["a"] (.mat 1 [[1]]) (some (.mat 0 [[]]))) .valueError = true := by decide +kernel
example : failsWith (make ["a", "b"] (.vec [])) .valueError = true := by decide +kernel
example : failsWith (make ["a", "b"] (.mat 2 [])) .valueError = true := by decide +kernel

example : okIs (combine [lc ["a", "b"] [[1, 0]] [0], lc ["a", "b"] [[0, 1]] [1]]) (lc ["a", "b"] [[1, 0], [0, 1]] [0, 1]) = true := by
  decide +kernel
example : failsWith (combine ([] : List (LinCon ℚ))) .valueError = true := by decide +kernel
example : failsWith (combine [lc ["a"] [[1]] [0], lc ["b"] [[1]] [0]]) .valueError = true := by decide +kernel

/-! ### `test__tokenize_constraint` (constraint.py:217-254) -/

def tokens (s : String) (ns : List String) : Except Err (List (Patsy.Infix.Kind Sym × Nat × Nat × String)) :=
  (tokenize s.toList (names ns)).map (List.map fun t => (t.kind, t.origin.start, t.origin.stop, String.ofList t.extra))

example : okIs (tokens "2 * (a + b) = q" ["a", "b", "q"])
    [(.sym .number, 0, 1, "2"), (.sym .times, 2, 3, "*"), (.lparen, 4, 5, "("), (.sym .variable, 5, 6, "a"), (.sym .plus, 7, 8, "+"),
      (.sym .variable, 9, 10, "b"), (.rparen, 10, 11, ")"), (.sym .eq, 12, 13, "="), (.sym .variable, 14, 15, "q")] = true := by
  decide +kernel
example : failsWith (tokens "1 + @b" ["b"]) .patsyError = true := by decide +kernel

/-! ### `test_linear_constraint` (constraint.py:456-536) -/

def lin (c : ConLike ℚ) (ns : List String) : Except Err (LinCon ℚ) := linearConstraint (names ns) floatOf c

def t (c : ConLike ℚ) (ns : List String) (coefs : List (List ℚ)) (constants : List ℚ) : Bool := okIs (lin c ns) (lc ns coefs constants)

def ab : List String := ["a", "b"]
def key (s : String) : Key := .name s.toList

example : t (.con (lc ab [[2, 3]] [0])) ab [[2, 3]] [0] = true := by decide +kernel
example : failsWith (lin (.con (lc ["b", "a"] [[2, 3]] [0])) ab) .valueError = true := by decide +kernel
example : t (.mapping [(key "a", 2)]) ab [[1, 0]] [2] = true := by decide +kernel
example : t (.mapping [(key "a", 2), (key "b", 3)]) ab [[1, 0], [0, 1]] [2, 3] = true := by decide +kernel
example : t (.mapping [(key "a", 2), (key "b", 3)]) ["b", "a"] [[0, 1], [1, 0]] [2, 3] = true := by decide +kernel
example : t (.mapping [(.int 0, 2)]) ab [[1, 0]] [2] = true := by decide +kernel
example : t (.mapping [(.int 0, 2), (.int 1, 3)]) ab [[1, 0], [0, 1]] [2, 3] = true := by decide +kernel
example : t (.mapping [(key "a", 2), (.int 1, 3)]) ab [[1, 0], [0, 1]] [2, 3] = true := by decide +kernel
example : failsWith (lin (.mapping [(key "q", 1)]) ab) .valueError = true := by decide +kernel
example : failsWith (lin (.mapping [(key "a", 1), (.int 0, 2)]) ab) .valueError = true := by decide +kernel
example : t (.array (.vec [2, 3])) ab [[2, 3]] [0] = true := by decide +kernel
example : t (.array (.mat 2 [[2, 3], [4, 5]])) ab [[2, 3], [4, 5]] [0, 0] = true := by decide +kernel
example : t (.strings ["a = 2".toList, "b = 3".toList]) ab [[1, 0], [0, 1]] [2, 3] = true := by decide +kernel
example : t (.tuple (.vec [10, 20]) (some (.vec [30]))) ab [[10, 20]] [30] = true := by decide +kernel
example : t (.tuple (.mat 2 [[10, 20], [20, 40]]) (some (.mat 1 [[30], [35]]))) ab [[10, 20], [20, 40]] [30, 35] = true := by
  decide +kernel

/-- A text. -/
def s (text : String) (ns : List String) (coefs : List (List ℚ)) (constants : List ℚ) : Bool :=
  t (.string text.toList) ns coefs constants

example : s "a = 2" ab [[1, 0]] [2] = true := by decide +kernel
example : s "a - 2" ab [[1, 0]] [2] = true := by decide +kernel
example : s "a + 1 = 3" ab [[1, 0]] [2] = true := by decide +kernel
example : s "a + b = 3" ab [[1, 1]] [3] = true := by decide +kernel
example : s "a = 2, b = 3" ab [[1, 0], [0, 1]] [2, 3] = true := by decide +kernel
example : s "b = 3, a = 2" ab [[0, 1], [1, 0]] [3, 2] = true := by decide +kernel
example : s "2 * (a + b/3) + b + 2*3/4 = 1 + 2*3" ab [[2, 2 / 3 + 1]] [7 - 6 / 4] = true := by decide +kernel
example : s "+2 * -a" ab [[-2, 0]] [0] = true := by decide +kernel
example : s "a - b, a + b = 2" ab [[1, -1], [1, 1]] [0, 2] = true := by decide +kernel
example : s "a = 1, a = 2, a = 3" ab [[1, 0], [1, 0], [1, 0]] [1, 2, 3] = true := by decide +kernel
example : s "a * 2" ab [[2, 0]] [0] = true := by decide +kernel
example : s "-a = 1" ab [[-1, 0]] [1] = true := by decide +kernel
example : s "(2 + a - a) * b" ab [[0, 2]] [0] = true := by decide +kernel
example : s "a = 1 = b" ab [[1, 0], [0, -1]] [1, -1] = true := by decide +kernel
example : s "a = (1 = b)" ab [[0, -1], [1, 0]] [-1, 1] = true := by decide +kernel
example : s "a = 1, a = b = c" ["a", "b", "c"] [[1, 0, 0], [1, -1, 0], [0, 1, -1]] [1, 0, 0] = true := by decide +kernel
example : s "a + 1 = 2" ["a", "a + 1"] [[0, 1]] [2] = true := by decide +kernel

/-! ### `_parse_eval_error_tests` (constraint.py:539-554) -/

/-- The text is rejected with exactly this origin (`_parsing_error_test`, parse_formula.py:251-275). -/
def wrongAt (text : String) (start stop : Nat) : Bool :=
  match constraintOfStringAt (names ["a", "b", "c"]) floatOf text.toList with
  | .error e => decide (e = (.patsyError, some ⟨start, stop⟩))
  | .ok _ => false

example : wrongAt "a + foo" 4 5 = true := by decide +kernel
example : wrongAt "a = 1, 1 = 1, b = 1" 7 12 = true := by decide +kernel
example : wrongAt "a = 1, b * 2 - b + (-2/2 * b)" 7 29 = true := by decide +kernel
example : wrongAt "a = 1, 1, b = 2" 7 8 = true := by decide +kernel
example : wrongAt "a = 1, 2 * b = b + b, c" 7 20 = true := by decide +kernel
example : wrongAt "a + a * b + c" 4 9 = true := by decide +kernel
example : wrongAt "a + 2 / b + c" 8 9 = true := by decide +kernel
example : wrongAt "a = 1, 2 * (a = b), c" 11 18 = true := by decide +kernel
example : wrongAt "a = 1, a + (a = b), c" 11 18 = true := by decide +kernel
example : wrongAt "a = 1, (a, b) + 2, c" 7 13 = true := by decide +kernel

end Patsy.Conformance.Constraints
