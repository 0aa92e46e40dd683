import Mathlib.Algebra.Field.Rat
import Verif.Model.Contrasts
import Verif.Model.Util
import Verif.Model.UserUtil
import Verif.Model.Missing

/-!
# Patsy's own tests about contrasts, balanced designs and missing values

Transcribed from `/repo/patsy/contrasts.py`, `user_util.py`, `util.py`, `missing.py`.  `Poly`, whose model uses real numbers, and the
tests about pickling are left out.  These are tests of the model, not proofs of properties.
-/

namespace Patsy.Conformance.Contrasts

open Patsy.Cat (PyVal)
open Patsy.Build (ContrastMatrix)
open Patsy.Contrast

/-- `_obj_to_readable_str` on the levels that occur in the tests. -/
def readable : PyVal → String
  | .int i => toString i
  | .str s => s
  | _ => ""

def strs (l : List String) : List PyVal := l.map .str
def ints (l : List Int) : List PyVal := l.map .int

def abc : List PyVal := strs ["a", "b", "c"]
def abcd : List PyVal := strs ["a", "b", "c", "d"]

/-- The coding has these suffixes and this matrix. -/
def has (x : Except Err (ContrastMatrix ℚ)) (suffixes : List String) (m : List (List ℚ)) : Bool :=
  match x with
  | .ok c => c.suffixes == suffixes && c.matrix == m && c.ncols == suffixes.length
  | .error _ => false

/-! ### `test__name_levels` (contrasts.py:110-111), `test__get_level` (130-142) -/

example : nameLevels readable "a" (strs ["b", "c"]) = ["[ab]", "[ac]"] := by decide +kernel

example : okIs (getLevel abc (.int 0)) 0 = true := by decide +kernel
example : okIs (getLevel abc (.int (-1))) 2 = true := by decide +kernel
example : okIs (getLevel abc (.str "b")) 1 = true := by decide +kernel
example : okIs (getLevel (ints [2, 1, 0]) (.int 0)) 2 = true := by decide +kernel
example : failsWith (getLevel (strs ["a", "b"]) (.int 2)) .patsyError = true := by decide +kernel
example : failsWith (getLevel (strs ["a", "b"]) (.int (-3))) .patsyError = true := by decide +kernel
example : failsWith (getLevel (strs ["a", "b"]) (.str "c")) .patsyError = true := by decide +kernel

/-! ### `test_Treatment` (contrasts.py:195-215) -/

example : has (dummyCode readable abc) ["[a]", "[b]", "[c]"] [[1, 0, 0], [0, 1, 0], [0, 0, 1]] = true := by decide +kernel
example : has (treatment readable none abc) ["[T.b]", "[T.c]"] [[0, 0], [1, 0], [0, 1]] = true := by decide +kernel
example : [PyVal.int 1, .int (-2), .str "b"].all
    (fun r => has (treatment readable (some r) abc) ["[T.a]", "[T.c]"] [[1, 0], [0, 0], [0, 1]]) = true := by decide +kernel
example : has (treatment readable none (ints [2, 1, 0])) ["[T.1]", "[T.0]"] [[0, 0], [1, 0], [0, 1]] = true := by decide +kernel

/-! ### `test_Sum` (contrasts.py:430-469) -/

example : has (sumWith readable none abc) ["[mean]", "[S.a]", "[S.b]"] [[1, 1, 0], [1, 0, 1], [1, -1, -1]] = true := by decide +kernel
example : has (sumWithout readable none abc) ["[S.a]", "[S.b]"] [[1, 0], [0, 1], [-1, -1]] = true := by decide +kernel
example : has (sumWithout readable none (ints [-1, -2, -3])) ["[S.-1]", "[S.-2]"] [[1, 0], [0, 1], [-1, -1]] = true := by decide +kernel
example : has (sumWith readable (some (.int 1)) abc) ["[mean]", "[S.a]", "[S.c]"] [[1, 1, 0], [1, -1, -1], [1, 0, 1]] = true := by
  decide +kernel
example : has (sumWithout readable (some (.int 1)) abc) ["[S.a]", "[S.c]"] [[1, 0], [-1, -1], [0, 1]] = true := by decide +kernel
example : has (sumWithout readable (some (.int 1)) (ints [1, 0, 2])) ["[S.0]", "[S.2]"] [[-1, -1], [1, 0], [0, 1]] = true := by
  decide +kernel
example : [PyVal.int (-3), .str "a"].all
    (fun r => has (sumWith readable (some r) abc) ["[mean]", "[S.b]", "[S.c]"] [[1, -1, -1], [1, 1, 0], [1, 0, 1]]) = true := by
  decide +kernel
example : [PyVal.int (-3), .str "a"].all
    (fun r => has (sumWithout readable (some r) abc) ["[S.b]", "[S.c]"] [[-1, -1], [1, 0], [0, 1]]) = true := by decide +kernel

/-! ### `test_Helmert` (contrasts.py:528-541), `test_diff` (594-617) -/

example : has (helmertWith readable abcd) ["[H.intercept]", "[H.b]", "[H.c]", "[H.d]"]
    [[1, -1, -1, -1], [1, 1, -1, -1], [1, 0, 2, -1], [1, 0, 0, 3]] = true := by decide +kernel
example : has (helmertWithout readable abcd) ["[H.b]", "[H.c]", "[H.d]"]
    [[-1, -1, -1], [1, -1, -1], [0, 2, -1], [0, 0, 3]] = true := by decide +kernel

/-- A stable `argsort`. -/
def argsort (l : List Nat) : List Nat := (List.range l.length).insertionSort fun i j => l[i]?.getD 0 ≤ l[j]?.getD 0

example : has (diffWith readable argsort abcd) ["[D.a]", "[D.b]", "[D.c]", "[D.d]"]
    [[1, -3 / 4, -1 / 2, -1 / 4], [1, 1 / 4, -1 / 2, -1 / 4], [1, 1 / 4, 1 / 2, -1 / 4], [1, 1 / 4, 1 / 2, 3 / 4]] = true := by
  decide +kernel
example : has (diffWithout readable argsort abcd) ["[D.a]", "[D.b]", "[D.c]"]
    [[-3 / 4, -1 / 2, -1 / 4], [1 / 4, -1 / 2, -1 / 4], [1 / 4, 1 / 2, -1 / 4], [1 / 4, 1 / 2, 3 / 4]] = true := by
  decide +kernel

/-! ### `test_to_uniqueify_list` (util.py:353-356) -/

open Patsy.Util in
example : uniqueify (fun a b : Nat => a == b) [1, 2, 3] = [1, 2, 3] ∧ uniqueify (fun a b : Nat => a == b) [1, 3, 3, 2, 3, 1] = [1, 3, 2] ∧
    uniqueify (fun a b : Nat => a == b) [3, 2, 1, 4, 1, 2, 3] = [3, 2, 1, 4] := by decide +kernel

/-! ### `test_balanced` (user_util.py:59-92), `test_demo_data` (150-171) -/

open Patsy.UserUtil in
example : balanced [("b", 3), ("a", 2)] 1 =
    [("a", ["a1", "a1", "a1", "a2", "a2", "a2"]), ("b", ["b1", "b2", "b3", "b1", "b2", "b3"])] := by decide +kernel
open Patsy.UserUtil in
example : balanced [("a", 2), ("b", 3)] 2 =
    [("a", ["a1", "a1", "a1", "a2", "a2", "a2", "a1", "a1", "a1", "a2", "a2", "a2"]),
      ("b", ["b1", "b2", "b3", "b1", "b2", "b3", "b1", "b2", "b3", "b1", "b2", "b3"])] := by decide +kernel

/-- Draws of the random generator. -/
def normal (_ n : Nat) : List ℚ := List.replicate n 0

/-- The columns: their names, their lengths, and their strings. -/
def demo (ns : List String) (minRows nlevels : Int) : Except Err (List (String × Nat × List String)) :=
  (UserUtil.demoData normal ns nlevels minRows).map
    (List.map fun c => (c.1, c.2.length, match c.2 with | .cat v => v | .num _ => []))

example : okIs (demo ["a", "b", "x"] 5 2)
    [("a", 8, ["a1", "a1", "a2", "a2", "a1", "a1", "a2", "a2"]), ("b", 8, ["b1", "b2", "b1", "b2", "b1", "b2", "b1", "b2"]),
      ("x", 8, [])] = true := by decide +kernel
example : okIs (demo ["x", "y"] 5 2) [("x", 5, []), ("y", 5, [])] = true := by decide +kernel
example : okIs (demo ["x"] 10 2) [("x", 10, [])] = true := by decide +kernel
example : okIs ((demo ["a", "b", "x"] 10 2).map (List.map fun c => c.2.1)) [12, 12, 12] = true := by decide +kernel
example : okIs ((demo ["a", "b", "x"] 10 3).map (List.map fun c => c.2.1)) [18, 18, 18] = true := by decide +kernel
example : failsWith (demo ["a", "b", "__123"] 5 2) .patsyError = true := by decide +kernel

/-! ### `test_NAAction_*` (missing.py:201-275); the tests of the constructor are about arguments that the model does not have -/

section missing
open Patsy.Build

/-- The entry that is not a number. -/
def nan : ℚ := 1 / 7
def isnan (x : ℚ) : Bool := x == nan

def naTypes : List (Bool × Bool) := [(false, false), (true, false), (false, true), (true, true)]

example : naTypes.all (fun p =>
    (NAAction.isNumericalNA ⟨.drop, p.1, p.2⟩ isnan [[nan], [1], [nan], [1]] == [p.1, false, p.1, false]) &&
    (NAAction.isNumericalNA ⟨.drop, p.1, p.2⟩ isnan [[nan, 1], [1, 1], [1, nan], [1, 1]] == [p.1, false, p.1, false])) = true := by
  decide +kernel

example : naTypes.all (fun p =>
    okIs (Cat.isCategoricalNA ⟨.drop, p.1, p.2⟩ (.str "a")) false && okIs (Cat.isCategoricalNA ⟨.drop, p.1, p.2⟩ (.int 1)) false &&
    okIs (Cat.isCategoricalNA ⟨.drop, p.1, p.2⟩ .none) p.2 && okIs (Cat.isCategoricalNA ⟨.drop, p.1, p.2⟩ (.nan 0)) p.1) = true := by
  decide +kernel

deriving instance DecidableEq for Value

example : okIs (NAAction.handleNA ⟨.drop, true, true⟩
    [.cat [-1, 2, -1, 4, 5], .num 1 [[10], [20], [30], [40], [50]], .num 2 [[1, nan], [3, 4], [10, 5], [6, 7], [8, nan]]]
    [[true, false, true, false, false], List.replicate 5 false, [true, false, false, false, true]])
    [.cat [2, 4], .num 1 [[20], [40]], .num 2 [[3, 4], [6, 7]]] = true := by decide +kernel

def arrs : List (Value ℚ) := [.num 1 [[11 / 10], [12 / 10]], .num 1 [[1], [2]]]

example : okIs (NAAction.handleNA ⟨.raise, true, true⟩ arrs [[false, false], [false, false]]) arrs = true := by decide +kernel
example : failsWith (NAAction.handleNA ⟨.raise, true, true⟩ [.num 1 [[11 / 10], [12 / 10]], .num 1 [[1], [nan]]]
    [[false, false], [false, true]]) .patsyError = true := by decide +kernel
example : okIs (NAAction.handleNA (K := ℚ) ⟨.drop, true, true⟩ [] []) [] = true := by decide +kernel
example : okIs (NAAction.handleNA (K := ℚ) ⟨.raise, true, true⟩ [] []) [] = true := by decide +kernel

end missing

end Patsy.Conformance.Contrasts
