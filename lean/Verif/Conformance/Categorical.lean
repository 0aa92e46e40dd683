import Verif.Model.Categorical

/-!
# Patsy's own tests about categorical data

Transcribed from `/repo/patsy/categorical.py`; the tests with tuples as levels, with pickling and with pandas series are left out.
These are tests of the model, not proofs of properties.
-/

namespace Patsy.Conformance

open Patsy.Cat Patsy.Build

deriving instance DecidableEq for Raw, CatValue, FactorType

abbrev CV := CatValue String

/-- A list of numbers, of strings, and of anything. -/
def nums (l : List Int) : CV := .raw (.array .number 1 1 (l.map .int))
def strs (l : List String) : CV := .raw (.array .other 1 1 (l.map .str))
def objs (l : List PyVal) : CV := .raw (.array .other 1 1 l)
def bools (l : List Bool) : CV := .raw (.array .boolDtype 1 1 (l.map .npBool))
/-- `C(...)`. -/
def box (d : CV) (contrast : Option String := none) (levels : Option (List PyVal) := none) : CV := mkC d contrast levels

/-! ### `test_C` (categorical.py:110-129) -/

def c2 : CV := box (strs ["DATA"]) (some "CONTRAST") (some [.str "LEVELS"])

example : box (strs ["asdf"]) = .box (.array .other 1 1 [.str "asdf"]) none none := by decide
example : c2 = .box (.array .other 1 1 [.str "DATA"]) (some "CONTRAST") (some [.str "LEVELS"]) := by decide
example : box c2 none (some [.str "NEW LEVELS"]) =
    .box (.array .other 1 1 [.str "DATA"]) (some "CONTRAST") (some [.str "NEW LEVELS"]) := by decide
example : box c2 (some "NEW CONTRAST") =
    .box (.array .other 1 1 [.str "DATA"]) (some "NEW CONTRAST") (some [.str "LEVELS"]) := by decide

/-! ### `test_guess_categorical` (categorical.py:143-157) -/

example : guessCategorical (Cn := String) (.raw (.pandas [.int 1, .int 2, .int 3] [0, 1, 2])) = true := by decide
example : guessCategorical (box (nums [1, 2, 3])) = true := by decide
example : guessCategorical (bools [true, false]) = true := by decide
example : guessCategorical (strs ["a", "b"]) = true := by decide
example : guessCategorical (objs [.str "a", .str "b", .nan 0]) = true := by decide
example : guessCategorical (objs [.str "a", .str "b", .none]) = true := by decide
example : guessCategorical (nums [1, 2, 3]) = false := by decide

/-! ### `test_CategoricalSniffer` (categorical.py:234-323) -/

/-- The helper `t` of the test: sniff until done. -/
def sniffs (na : NAAction) : List CV → Sniffer String → Except Err (Sniffer String × Bool)
  | [], s => .ok (s, false)
  | d :: ds, s => do
    let (s, done) ← s.sniff na d
    if done then pure (s, true) else sniffs na ds s

def t (nan none : Bool) (datas : List CV) (fast : Bool) (levels : List PyVal) (contrast : Option String := Option.none) : Bool :=
  match sniffs ⟨.drop, nan, none⟩ datas {} with
  | .ok (s, done) => done == fast && s.levelsContrast id = (levels, contrast)
  | .error _ => false

def ints (l : List Int) : List PyVal := l.map .int

example : t false false [.raw (.pandas [.int 1, .int 2] [0, 1, -1])] true (ints [1, 2]) = true := by decide +kernel
example : t false false [box (.raw (.pandas [.int 1, .int 2] [0, 1, -1]))] true (ints [1, 2]) = true := by decide +kernel
example : t false false [.raw (.pandas [.str "a", .str "b"] [1, 0])] true [.str "a", .str "b"] = true := by decide +kernel
example : t false false [box (.raw (.pandas [.str "b", .str "a"] [1, 0]))] true [.str "b", .str "a"] = true := by decide +kernel
example : t false false [box (.raw (.pandas [.str "a", .str "b"] [0, 1])) (some "CONTRAST")] true [.str "a", .str "b"]
    (some "CONTRAST") = true := by decide +kernel
example : t false false [box (nums [1, 2]), box (nums [3, 2])] false (ints [1, 2, 3]) = true := by decide +kernel
example : t false false [box (nums [1, 2]) none (some (ints [1, 2, 3])), box (nums [4, 2])] true (ints [1, 2, 3]) = true := by
  decide +kernel
example : t false false [box (nums [1, 2]) none (some (ints [3, 2, 1])), box (nums [4, 2])] true (ints [3, 2, 1]) = true := by
  decide +kernel
example : t true true [box (objs [.int 1, .nan 0]), box (objs [.int 10, .none])] false (ints [1, 10]) = true := by decide +kernel
/-- `set(levels) == set([None, 1])`. -/
example : (match sniffs ⟨.drop, true, false⟩ [box (objs [.int 1, .nan 0, .none])] {} with
    | .ok (s, _) => decide ((s.levelsContrast id).1.Perm [.none, .int 1])
    | .error _ => false) = true := by decide +kernel
example : t true true [box (objs [.bool true, .nan 0, .none])] true [.bool false, .bool true] = true := by decide +kernel
example : t false false [box (nums [10, 20]), box (objs [.bool false]), box (nums [30, 40])] false
    ([.bool false, .bool true] ++ ints [10, 20, 30, 40]) = true := by decide +kernel
example : t false false [bools [true, false], strs ["foo"]] true [.bool false, .bool true] = true := by decide +kernel
example : t false false [box (nums [10, 20]) (some "FOO")] false (ints [10, 20]) (some "FOO") = true := by decide +kernel
example : t false false [nums [10, 30], nums [20]] false (ints [10, 20, 30]) = true := by decide +kernel
example : t false false [strs ["b", "a"], strs ["a"]] false [.str "a", .str "b"] = true := by decide +kernel
example : t false false [.raw (.array .other 0 1 [.str "b"])] false [.str "b"] = true := by decide +kernel
example : failsWith (sniffs {} [objs [.unhashable 0]] {}) .patsyError = true := by decide +kernel
example : failsWith (sniffs {} [.raw (.array .other 2 1 [])] {}) .patsyError = true := by decide +kernel

/-! ### `test_categorical_to_int` (categorical.py:399-513) -/

def toInts (d : CV) (levels : List PyVal) (na : NAAction := {}) : Except Err (List Int) := categoricalToInt na levels d

def ab : List PyVal := [.str "a", .str "b"]
def ba : List PyVal := [.str "b", .str "a"]

example : okIs (toInts (strs ["a", "b", "c"]) [.str "a", .str "b", .str "c"]) [0, 1, 2] = true := by decide +kernel
example : okIs (toInts (.raw (.pandas ab [1, 0, -1])) ab) [1, 0, -1] = true := by decide +kernel
example : okIs (toInts (.raw (.pandas ab [1, 0, -1])) ab ⟨.drop, false, true⟩) [1, 0, -1] = true := by decide +kernel
example : failsWith (toInts (.raw (.pandas ab [1, 0])) [.str "a", .str "c"]) .patsyError = true := by decide +kernel
example : failsWith (toInts (.raw (.pandas ab [1, 0])) ba) .patsyError = true := by decide +kernel
example : okIs (toInts (strs ["a", "b", "a"]) ab) [0, 1, 0] = true := by decide +kernel
example : okIs (toInts (nums [0, 1, 2]) (ints [1, 2, 0])) [2, 0, 1] = true := by decide +kernel
example : okIs (toInts (.raw (.array .number 1 1 [.float 0, .float 1, .float 2])) (ints [1, 2, 0])) [2, 0, 1] = true := by
  decide +kernel
example : okIs (toInts (strs ["a", "b", "a"]) [.str "a", .str "d", .str "z", .str "b"]) [0, 3, 0] = true := by decide +kernel
example : failsWith (toInts (strs ["a", "b", "a"]) [.str "a", .str "c"]) .patsyError = true := by decide +kernel
example : okIs (toInts (box (strs ["a", "b", "a"])) ab) [0, 1, 0] = true := by decide +kernel
example : okIs (toInts (box (strs ["a", "b", "a"])) ba) [1, 0, 1] = true := by decide +kernel
example : okIs (toInts (box (strs ["a", "b", "a"]) none (some ba)) ba) [1, 0, 1] = true := by decide +kernel
example : failsWith (toInts (box (strs ["a", "b", "a"]) none (some ab)) ba) .patsyError = true := by decide +kernel
example : okIs (toInts (.raw (.array .other 0 1 [.str "a"])) ab) [0] = true := by decide +kernel
example : okIs (toInts (.raw (.array .other 0 1 [.str "b"])) ab) [1] = true := by decide +kernel
example : okIs (toInts (.raw (.array .other 0 1 [.bool true])) [.bool false, .bool true]) [1] = true := by decide +kernel
example : failsWith (toInts (.raw (.array .other 2 2 [])) ab) .patsyError = true := by decide +kernel
example : failsWith (toInts (strs ["a", "b"]) (ab ++ [.unhashable 0])) .patsyError = true := by decide +kernel
example : failsWith (toInts (objs (ab ++ [.unhashable 0])) ab) .patsyError = true := by decide +kernel
example : okIs (toInts (objs [.str "b", .none, .nan 0, .str "a"]) ab) [1, -1, -1, 0] = true := by decide +kernel
example : okIs (toInts (objs [.str "b", .none, .nan 0, .str "a"]) (ab ++ [.none])) [1, -1, -1, 0] = true := by decide +kernel
example : okIs (toInts (objs [.str "b", .none, .nan 0, .str "a"]) (ab ++ [.none]) ⟨.drop, true, false⟩) [1, 2, -1, 0] = true := by
  decide +kernel

end Patsy.Conformance
