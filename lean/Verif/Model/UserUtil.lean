import Verif.Model.Err
import Mathlib.Data.List.Sort
import Mathlib.Data.Rat.Floor

/-!
# Model of `balanced` and `demo_data` (`patsy/user_util.py:18-147`)

Integers are unbounded, and the quotient `min_rows * 1.0 / balanced_design_size` is exact.
-/

namespace Patsy.UserUtil

/-- `itertools.product(*pools)`, following the equivalent program in its documentation. -/
def product {A : Type} (pools : List (List A)) : List (List A) :=
  pools.foldl (fun result pool => result.flatMap fun x => pool.map fun y => x ++ [y]) [[]]

/-- The length of the shortest of the lists. -/
def shortest {A : Type} : List (List A) → Nat
  | [] => 0
  | r :: rs => rs.foldl (fun n r => min n r.length) r.length

/-- `zip(*rows)`. -/
def zipStar {A : Type} (rows : List (List A)) : List (List A) :=
  (List.range (shortest rows)).map fun (i : Nat) => rows.filterMap fun r => r[i]?

/-- The `i`-th level of a factor (user_util.py:51). -/
def levelName (name : String) (i : Nat) : String := name ++ toString i

/-- The levels of a factor (user_util.py:50-51). -/
def levelsOf (factors : List (String × Int)) (name : String) : List String :=
  (List.range ((factors.lookup name).getD 0).toNat).map fun (i : Nat) => levelName name (i + 1)

/-- `sorted` of strings, which are ordered by code points. -/
def sortNames (names : List String) : List String := names.insertionSort fun a b => a ≤ b

/-- `balanced` (user_util.py:18-56).  The keyword arguments besides `repeat` are a dict of integers; a list times a
negative number is empty. -/
def balanced (factors : List (String × Int)) (repeats : Int) : List (String × List String) :=
  let names := sortNames (factors.map Prod.fst)
  let values := zipStar (product (names.map (levelsOf factors)))
  (names.zip values).map fun nv => (nv.1, (List.replicate repeats.toNat nv.2).flatten)

/-- A column of demo data: a list of strings, or an array of numbers. -/
inductive Column (R : Type) where
  | cat (values : List String)
  | num (values : List R)

/-- The number of rows. -/
def Column.length {R : Type} : Column R → Nat
  | .cat v => v.length
  | .num v => v.length

/-- The names of the categorical and numerical variables (user_util.py:130-138), without duplicates. -/
def classify : List String → Except Err (List String × List String)
  | [] => .ok ([], [])
  | name :: names =>
    match name.toList with
    | [] => .error .indexError
    | ch :: _ =>
      if "abcdefghijklmn".toList.contains ch then do
        let r ← classify names
        pure (if r.1.contains name then r.1 else name :: r.1, r.2)
      else if "pqrstuvwxyz".toList.contains ch then do
        let r ← classify names
        pure (r.1, if r.2.contains name then r.2 else name :: r.2)
      else .error .patsyError

/-- `int(np.ceil(min_rows * 1.0 / size))` (user_util.py:140): division by zero gives an infinity, or a NaN if
`min_rows` is zero. -/
def repeatsFor (minRows size : Int) : Except Err Int :=
  if size = 0 then if minRows = 0 then .error .valueError else .error .overflowError
  else .ok ⌈(minRows : ℚ) / (size : ℚ)⌉

/-- The numerical columns (user_util.py:144-145): the `k`-th call of `r.normal` returns `normal k size`. -/
def numerical {R : Type} (normal : Nat → Nat → List R) (names : List String) (numRows : Int) :
    Except Err (List (String × Column R)) :=
  if numRows < 0 ∧ names ≠ [] then .error .valueError
  else .ok ((sortNames names).zipIdx.map fun ni => (ni.1, .num (normal ni.2 numRows.toNat)))

/-- `demo_data` (user_util.py:94-147). -/
def demoData {R : Type} (normal : Nat → Nat → List R) (names : List String) (nlevels minRows : Int) :
    Except Err (List (String × Column R)) := do
  let r ← classify names
  let size := (r.1.map fun _ => nlevels).prod
  let repeats ← repeatsFor minRows size
  let nums ← numerical normal r.2 (repeats * size)
  pure ((balanced (r.1.map fun n => (n, nlevels)) repeats).map (fun nv => (nv.1, Column.cat nv.2)) ++ nums)

end Patsy.UserUtil
