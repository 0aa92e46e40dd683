import Verif.Model.Columns
import Verif.Model.Tensor
import Verif.Model.SortAnything
import Verif.Model.AstNames
import Mathlib.Data.Rat.Defs
import Mathlib.Algebra.Field.Rat

/-!
# Patsy's own tests of small functions

Transcribed from `/repo/patsy/build.py`, `mgcv_cubic_splines.py`, `util.py`, `eval.py`.  These are tests of the model, not proofs of
properties.
-/

namespace Patsy.Conformance.SmallTests

open Patsy.Build

/-! ### `test__column_combinations` (build.py:226-235) -/

example : columnCombinations [2, 3] = [[0, 0], [1, 0], [0, 1], [1, 1], [0, 2], [1, 2]] := by decide
example : columnCombinations [3] = [[0], [1], [2]] := by decide
example : columnCombinations [] = [[]] := by decide

/-! ### `test__subterm_column_names_iter_and__build_subterm` (build.py:300-383) -/

def contrast : ContrastMatrix ℚ := ⟨[[0, 1/2], [3, 0]], 2, ["[c1]", "[c2]"]⟩

def info (f : String) (t : FType) : String × FactorInfo String Unit ℚ := (f, ⟨0, f, t, fun _ _ => .error .valueError⟩)

def infos1 := [info "f1" (.numerical 1), info "f2" (.categorical 2), info "f3" (.numerical 1)]

def infos2 := [info "f1" (.numerical 2), info "f2" (.categorical 2), info "f3" (.numerical 1)]

def subterm (n : Nat) : SubtermInfo String ℚ := ⟨["f1", "f2", "f3"], [("f2", contrast)], n⟩

example : okIs (subtermColumnNames id infos1 (subterm 2)) ["f1:f2[c1]:f3", "f1:f2[c2]:f3"] = true := by decide +kernel
example : okIs (buildSubterm infos1 (subterm 2)
    [("f1", .num 1 [[1], [2], [3]]), ("f2", .cat [0, 0, 1]), ("f3", .num 1 [[15/2], [2], [-12]])] 3 2)
    [[0, 0, 3 * 3 * -12], [1/2 * 1 * (15/2), 1/2 * 2 * 2, 0]] = true := by decide +kernel
example : failsWith (buildSubterm infos1 (subterm 2)
    [("f1", .num 1 [[1], [2], [3]]), ("f2", .cat [0, -1, 1]), ("f3", .num 1 [[15/2], [2], [-12]])] 3 2)
    .patsyError = true := by decide +kernel

example : okIs (subtermColumnNames id infos2 (subterm 4))
    ["f1[0]:f2[c1]:f3", "f1[1]:f2[c1]:f3", "f1[0]:f2[c2]:f3", "f1[1]:f2[c2]:f3"] = true := by decide +kernel
example : okIs (buildSubterm infos2 (subterm 4)
    [("f1", .num 2 [[1, 2], [3, 4], [5, 6]]), ("f2", .cat [0, 0, 1]), ("f3", .num 1 [[15/2], [2], [-12]])] 3 4)
    [[0, 0, 3 * 5 * -12], [0, 0, 3 * 6 * -12], [1/2 * 1 * (15/2), 1/2 * 3 * 2, 0], [1/2 * 2 * (15/2), 1/2 * 4 * 2, 0]] = true := by
  decide +kernel

example : okIs (subtermColumnNames (F := String) (D := Unit) (K := ℚ) id [] ⟨[], [], 1⟩) ["Intercept"] = true := by
  decide +kernel
example : okIs (buildSubterm (F := String) (D := Unit) (K := ℚ) [] ⟨[], [], 1⟩ [("f1", .num 1 [[1], [2], [3]])] 3 1)
    [[1, 1, 1]] = true := by decide +kernel

/-! ### `test__row_tensor_product_errors` (mgcv_cubic_splines.py:182-192), `test__row_tensor_product` (195-219) -/

namespace Product

open Patsy.Tensor

/-- `np.arange(a, b).reshape((rows, cols))`, as columns. -/
def arange (a : Int) (rows cols : Nat) : Arr Int :=
  ⟨2, rows, (List.range cols).map fun j => (List.range rows).map fun i => a + (i * cols + j : Nat)⟩

def constant (c : Int) : Arr Int := ⟨2, 4, [[c, c, c, c]]⟩

def vector : Arr Int := ⟨1, 4, []⟩

def dm1 := arange 1 4 4
def dm2 : Arr Int := ⟨2, 2, [[1, 1], [2, 2]]⟩
def dm3 := arange 1 2 3

example : ∀ dms ∈ [[], [vector], [vector, vector], [arange 1 3 4, arange 1 4 3]],
    failsWith (rowTensorProduct dms) .valueError = true := by decide +kernel
example : ∀ dms ∈ [[dm1], [constant 1, dm1], [dm1, constant 1]], okIs (rowTensorProduct dms) dm1.cols = true := by
  decide +kernel
example : ∀ dms ∈ [[constant 2, dm1], [dm1, constant 2]],
    okIs (rowTensorProduct dms) (dm1.cols.map (List.map (2 * ·))) = true := by decide +kernel
example : okIs (rowTensorProduct [dm2, dm3]) [[1, 4], [2, 5], [3, 6], [2, 8], [4, 10], [6, 12]] = true := by decide +kernel
example : okIs (rowTensorProduct [dm3, dm2]) [[1, 4], [2, 8], [2, 5], [4, 10], [3, 6], [6, 12]] = true := by decide +kernel

end Product

/-! ### `test_SortAnythingKey` (util.py:620-643) -/

namespace Sorting

open Patsy.SortAny

def same : List Obj → List Obj → Bool
  | [], [] => true
  | x :: xs, y :: ys => pyEq x y && same xs ys
  | _, _ => false

def sorts (given expected : List Obj) : Bool := same (sorted (fun _ => 0) given) expected

example : sorts [.num 20, .num 10, .num 0, .num 15] [.num 0, .num 10, .num 15, .num 20] = true := by decide +kernel
example : sorts [.num 10, .num (-3/2)] [.num (-3/2), .num 10] = true := by decide +kernel
example : sorts [.num 10, .str "a", .num (41/2), .str "b"] [.num 10, .num (41/2), .str "a", .str "b"] = true := by
  decide +kernel
example : sorts [.inst "z" 0, .inst "a" 0, .num 1, .inst "b" 0, .inst "object" 0]
    [.num 1, .inst "a" 0, .inst "b" 0, .inst "object" 0, .inst "z" 0] = true := by decide +kernel

end Sorting

/-! ### `test_ast_names` (eval.py:121-129), `test_ast_names_disallowed_nodes` (132-142) -/

namespace Ast

open Patsy.AstNames

abbrev N := Node Nat

example : okIs (astNames (.call (.op "Attribute log" [.name "np"]) [.name "x"] : N)) ["x", "np"] = true := by decide +kernel
example : okIs (astNames (.name "x" : N)) ["x"] = true := by decide +kernel
example : okIs (astNames (.call (.name "center") [.op "Add" [.name "x", .const 1]] : N)) ["center", "x"] = true := by
  decide +kernel
example : okIs (astNames (.op "Attribute month" [.op "Attribute dt" [.op "Attribute date" [.name "dt"]]] : N)) ["dt"] = true := by
  decide +kernel

example : ∀ kind ∈ ["Lambda", "ListComp", "GeneratorExp", "DictComp", "SetComp"],
    failsWith (astNames (.binder kind [.op "Add" [.name "x", .const 1]] : N)) .patsyError = true := by decide +kernel

end Ast

end Patsy.Conformance.SmallTests
