import Mathlib.Algebra.BigOperators.Group.Finset.Basic
import Mathlib.Algebra.Field.Defs
import Mathlib.Data.Finset.Range
import Mathlib.Analysis.Real.Sqrt
import Mathlib.Data.Real.Sign
import Verif.Model.Categorical
import Verif.Model.DesignInfo

/-!
# Model of `patsy/contrasts.py`

Floats are replaced by a field `K` (by `ℝ` for `Poly`, which takes square roots).  A finished
matrix is the list of its rows; an array that is being filled is a function of the row and column
indices together with its shape.  `readable` is `_obj_to_readable_str` (contrasts.py:75-84): the
representation of Python objects is not modelled.
-/

namespace Patsy.Contrast

open Patsy.Cat (PyVal)
open Patsy.Build (ContrastMatrix)

/-- The rows of the array with the given entries and shape. -/
def matOf {K : Type} (rows cols : Nat) (f : Nat → Nat → K) : List (List K) :=
  (List.range rows).map fun i => (List.range cols).map (f i)

section codings
variable {K : Type} [Field K]

/-- `np.eye(n)`. -/
def eye (n : Nat) : List (List K) := matOf n n fun i j => if i = j then 1 else 0

/-- `_name_levels` (contrasts.py:106-107). -/
def nameLevels (readable : PyVal → String) (pre : String) (levels : List PyVal) : List String :=
  levels.map fun l => "[" ++ pre ++ readable l ++ "]"

/-- `_dummy_code` (contrasts.py:114-115). -/
def dummyCode (readable : PyVal → String) (levels : List PyVal) : Except Err (ContrastMatrix K) :=
  ContrastMatrix.make (eye levels.length) levels.length (nameLevels readable "" levels)

/-- `isinstance(obj, int)`, with the value; `bool` is a subclass of `int`. -/
def intVal : PyVal → Option Int
  | .int i => some i
  | .bool b => some (if b then 1 else 0)
  | _ => none

/-- The index that an integer denotes in `_get_level` (contrasts.py:121-126). -/
def indexOfInt (n : Nat) (i : Int) : Except Err Nat :=
  let i := if i < 0 then i + n else i
  if 0 ≤ i ∧ i < n then .ok i.toNat else .error .patsyError

/-- `_get_level` (contrasts.py:118-127).  `in` and `index` compare by identity or `==`; an unhashable
reference is never equal to a level (levels are hashable). -/
def getLevel (levels : List PyVal) (ref : PyVal) : Except Err Nat :=
  match levels.findIdx? (fun l => ref.key.isSome && decide (l.key = ref.key)) with
  | some i => .ok i
  | none =>
    match intVal ref with
    | some i => indexOfInt levels.length i
    | none => .error .patsyError

/-- `levels[:i] + levels[i + 1:]`. -/
def without (levels : List PyVal) (i : Nat) : List PyVal := levels.take i ++ levels.drop (i + 1)

/-- The level chosen by a `Treatment` or `Sum` object, by default the given one. -/
def chosenLevel (levels : List PyVal) (ref : Option PyVal) (default : Nat) : Except Err Nat :=
  match ref with
  | none => .ok default
  | some r => getLevel levels r

/-- `Treatment.code_without_intercept` (contrasts.py:180-190).  `np.eye(-1)` raises a
`ValueError`. -/
def treatment (readable : PyVal → String) (reference : Option PyVal) (levels : List PyVal) :
    Except Err (ContrastMatrix K) := do
  let r ← chosenLevel levels reference 0
  if levels.length = 0 then .error .valueError
  else
    let e : List (List K) := eye (levels.length - 1)
    ContrastMatrix.make (e.take r ++ [List.replicate (levels.length - 1) 0] ++ e.drop r)
      (levels.length - 1) (nameLevels readable "T." (without levels r))

/-- `Sum._sum_contrast` (contrasts.py:405-413): the three assignments fill the three parts of the
array, whose rows are put together here. -/
def sumContrast (n omitted : Nat) : List (List K) :=
  let e : List (List K) := eye (n - 1)
  e.take omitted ++ [List.replicate (n - 1) (-1)] ++ e.drop omitted

/-- `Sum.code_without_intercept` (contrasts.py:421-425). -/
def sumWithout (readable : PyVal → String) (omitted : Option PyVal) (levels : List PyVal) :
    Except Err (ContrastMatrix K) := do
  let o ← chosenLevel levels omitted (levels.length - 1)
  if levels.length = 0 then .error .valueError
  else
    ContrastMatrix.make (sumContrast levels.length o) (levels.length - 1)
      (nameLevels readable "S." (without levels o))

/-- `np.column_stack((np.ones(n), matrix))`. -/
def withOnes (m : List (List K)) : List (List K) := m.map fun r => 1 :: r

/-- `Sum.code_with_intercept` (contrasts.py:415-419). -/
def sumWith (readable : PyVal → String) (omitted : Option PyVal) (levels : List PyVal) :
    Except Err (ContrastMatrix K) := do
  let c ← sumWithout readable omitted levels
  ContrastMatrix.make (withOnes c.matrix) (c.ncols + 1) ("[mean]" :: c.suffixes)

/-- `a[i, j] = v`. -/
def setEntry (a : Nat → Nat → K) (i j : Nat) (v : K) : Nat → Nat → K :=
  fun i' j' => if i' = i ∧ j' = j then v else a i' j'

/-- `a[rows, cols] = values` with index arrays. -/
def assign (a : Nat → Nat → K) : List (Nat × Nat) → List K → Nat → Nat → K
  | (i, j) :: ix, v :: vs => assign (setEntry a i j v) ix vs
  | _, _ => a

/-- `np.triu_indices(n)`, row by row. -/
def triuIndices (n : Nat) : List (Nat × Nat) :=
  (List.range n).flatMap fun i => ((List.range n).filter fun j => decide (i ≤ j)).map fun j => (i, j)

/-- `np.tril_indices(n)`, row by row. -/
def trilIndices (n : Nat) : List (Nat × Nat) :=
  (List.range n).flatMap fun i => ((List.range n).filter fun j => decide (j ≤ i)).map fun j => (i, j)

/-- `Helmert._helmert_contrast` (contrasts.py:492-512).  `contr[1:]` is a view, so its entry `(i, j)` is
the entry `(i + 1, j)` of `contr`. -/
def helmertContrast (n : Nat) : List (List K) :=
  let c0 : Nat → Nat → K := fun _ _ => 0
  let c1 := assign c0 ((List.range (n - 1)).map fun i => (i + 1, i))
    ((List.range (n - 1)).map fun (i : Nat) => ((i : K) + 1))
  let c2 := assign c1 (triuIndices (n - 1)) (List.replicate (triuIndices (n - 1)).length (-1))
  matOf n (n - 1) c2

/-- `Helmert.code_without_intercept` (contrasts.py:521-523). -/
def helmertWithout (readable : PyVal → String) (levels : List PyVal) : Except Err (ContrastMatrix K) :=
  if levels.length = 0 then .error .valueError
  else ContrastMatrix.make (helmertContrast levels.length) (levels.length - 1)
    (nameLevels readable "H." (levels.drop 1))

/-- `Helmert.code_with_intercept` (contrasts.py:514-519); the name `"intercept"` is a string. -/
def helmertWith (readable : PyVal → String) (levels : List PyVal) : Except Err (ContrastMatrix K) :=
  if levels.length = 0 then .error .valueError
  else ContrastMatrix.make (withOnes (helmertContrast levels.length)) levels.length
    ("[H.intercept]" :: nameLevels readable "H." (levels.drop 1))

/-- `np.repeat(values, counts)`. -/
def npRepeat (values counts : List Nat) : List Nat :=
  (List.zipWith (fun v c => List.replicate c v) values counts).flatten

/-- `(row[order], col[order])`. -/
def reorder (ix : List (Nat × Nat)) (order : List Nat) : List (Nat × Nat) :=
  order.map fun k => ix[k]?.getD (0, 0)

/-- `Diff._diff_contrast` (contrasts.py:564-581).  `argsort` is `np.argsort`, whose default algorithm is
not stable. -/
def diffContrast (argsort : List Nat → List Nat) (n : Nat) : List (List K) :=
  let intRange := (List.range (n - 1)).map (· + 1)
  let up := triuIndices (n - 1)
  let c1 := assign (fun _ _ => (0 : K)) (reorder up (argsort (up.map (·.2))))
    ((npRepeat intRange intRange).map fun (u : Nat) => (((u : Int) - (n : Int) : Int) : K) / (n : K))
  let lo := trilIndices (n - 1)
  let c2 := assign c1 ((reorder lo (argsort (lo.map (·.2)))).map fun p => (p.1 + 1, p.2))
    ((npRepeat intRange intRange.reverse).map fun (l : Nat) => (l : K) / (n : K))
  matOf n (n - 1) c2

/-- `Diff.code_without_intercept` (contrasts.py:587-589). -/
def diffWithout (readable : PyVal → String) (argsort : List Nat → List Nat) (levels : List PyVal) :
    Except Err (ContrastMatrix K) :=
  if levels.length = 0 then .error .valueError
  else ContrastMatrix.make (diffContrast argsort levels.length) (levels.length - 1)
    (nameLevels readable "D." levels.dropLast)

/-- `Diff.code_with_intercept` (contrasts.py:583-585). -/
def diffWith (readable : PyVal → String) (argsort : List Nat → List Nat) (levels : List PyVal) :
    Except Err (ContrastMatrix K) :=
  if levels.length = 0 then .error .valueError
  else ContrastMatrix.make (withOnes (diffContrast argsort levels.length)) levels.length
    (nameLevels readable "D." levels)

end codings

/-! ### `Poly` -/

/-- The names of the polynomial columns (contrasts.py:278-280). -/
def polyNames (n : Nat) : List String :=
  ([".Constant", ".Linear", ".Quadratic", ".Cubic"] ++
    (List.range (n - 4)).map fun i => "^" ++ toString (i + 4)).take n

/-- `raw_poly` (contrasts.py:271-272) as a function of the indices. -/
noncomputable def rawPoly (scores : List ℝ) : Nat → Nat → ℝ :=
  let n := scores.length
  let mean := scores.sum / n
  fun i j => (scores[i]?.getD 0 - mean) ^ j

/-- `Poly._code_either` up to the names (contrasts.py:271-277).  `qr n a` are the factors that
`np.linalg.qr` returns for the `n × n` array `a`.  (The division at line 275 divides column `j`
by the norm of row `j`.) -/
noncomputable def polyMatrix (qr : Nat → (Nat → Nat → ℝ) → (Nat → Nat → ℝ) × (Nat → Nat → ℝ))
    (scores : List ℝ) : Nat → Nat → ℝ :=
  let n := scores.length
  let f := qr n (rawPoly scores)
  let q1 : Nat → Nat → ℝ := fun i j => f.1 i j * Real.sign (f.2 j j)
  let q2 : Nat → Nat → ℝ := fun i j => q1 i j / Real.sqrt (∑ k ∈ Finset.range n, q1 j k ^ 2)
  fun i j => if j = 0 then 1 else q2 i j

/-- `Poly._code_either` (contrasts.py:257-286) for at least one level. -/
noncomputable def poly (qr : Nat → (Nat → Nat → ℝ) → (Nat → Nat → ℝ) × (Nat → Nat → ℝ))
    (scores : Option (List ℝ)) (intercept : Bool) (levels : List PyVal) : Except Err (ContrastMatrix ℝ) :=
  let n := levels.length
  let s := scores.getD ((List.range n).map fun (i : Nat) => (i : ℝ))
  if s.length ≠ n then .error .patsyError
  else
    let q := polyMatrix qr s
    if intercept then ContrastMatrix.make (matOf n n q) n (polyNames n)
    else ContrastMatrix.make (matOf n (n - 1) fun i j => q i (j + 1)) (n - 1) ((polyNames n).drop 1)

/-! ### `code_contrast_matrix` -/

/-- What a user may give as a contrast: a coding object (with its two methods), a `ContrastMatrix`, an
array of numbers, something callable that returns a contrast, or nothing.  Other objects, which lead to
an `AttributeError`, are not modelled. -/
inductive Spec (K : Type) where
  | coding (withIntercept withoutIntercept : List PyVal → Except Err (ContrastMatrix K))
  | matrix (m : ContrastMatrix K)
  | array (ndim ncols : Nat) (rows : List (List K))
  | callable (result : Spec K)
  | none

/-- The part of `code_contrast_matrix` (contrasts.py:632-642) after the call.  A callable that
returns a callable (such as a class) has methods that lack an argument. -/
def Spec.apply {K : Type} (intercept : Bool) (levels : List PyVal) : Spec K → Except Err (ContrastMatrix K)
  | .matrix m => .ok m
  | .array ndim ncols rows =>
    if ndim < 2 then .error .indexError
    else ContrastMatrix.make rows ncols ((List.range ncols).map fun i => "[custom" ++ toString i ++ "]")
  | .coding w wo => if intercept then w levels else wo levels
  | .callable _ => .error .typeError
  | .none => .error .typeError

/-- The call at contrasts.py:630-631. -/
def Spec.call {K : Type} : Spec K → Spec K
  | .callable r => r
  | s => s

/-- `code_contrast_matrix` (contrasts.py:627-642). -/
def codeContrastMatrix {K : Type} (intercept : Bool) (levels : List PyVal) (contrast default : Spec K) :
    Except Err (ContrastMatrix K) :=
  let c := match contrast with
    | .none => default
    | c => c
  c.call.apply intercept levels

end Patsy.Contrast
