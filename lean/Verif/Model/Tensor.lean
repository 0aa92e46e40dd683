import Verif.Model.Err
import Mathlib.Algebra.Ring.Defs

/-!
# Model of `_row_tensor_product` (`patsy/mgcv_cubic_splines.py:139-179`)

A matrix is the list of its columns; the array `tp` is updated in place, column by column.
-/

namespace Patsy.Tensor

variable {K : Type}

/-- An array argument: its number of dimensions, and for two-dimensional arrays the number of rows and the
columns. -/
structure Arr (K : Type) where
  ndim : Nat
  nrows : Nat
  cols : List (List K)
  deriving DecidableEq, Repr

/-- The position that a Python index means in a sequence of length `n`. -/
def pyIndex (n : Nat) (i : Int) : Option Nat :=
  if 0 ≤ i then if i < n then some i.toNat else none
  else if 0 ≤ i + n then some (i + n).toNat else none

/-- `tp[:, i]`. -/
def getCol (tp : List (List K)) (i : Int) : Except Err (List K) :=
  match pyIndex tp.length i with
  | some k => match tp[k]? with
    | some c => .ok c
    | none => .error .indexError
  | none => .error .indexError

/-- `tp[:, i] = c`. -/
def setCol (tp : List (List K)) (i : Int) (c : List K) : Except Err (List (List K)) :=
  match pyIndex tp.length i with
  | some k => .ok (tp.set k c)
  | none => .error .indexError

/-- `range(a, 0)` for `a = -n`. -/
def negRange (n : Nat) : List Int := (List.range n).map fun (i : Nat) => (i : Int) - (n : Int)

variable [Mul K] [Zero K]

/-- The loop over `t` (lines 173-175): the array and `p` afterwards. -/
def innerLoop (xj : List K) : List Int → Int → List (List K) → Except Err (List (List K) × Int)
  | [], p, tp => .ok (tp, p)
  | t :: ts, p, tp => do
    let c ← getCol tp t
    let tp' ← setCol tp p (List.zipWith (· * ·) c xj)
    innerLoop xj ts (p + 1) tp'

/-- The loop over `j` (lines 171-175). -/
def middleLoop (filled : Nat) : List (List K) → Int → List (List K) → Except Err (List (List K))
  | [], _, tp => .ok tp
  | xj :: cols, p, tp => do
    let r ← innerLoop xj (negRange filled) p tp
    middleLoop filled cols r.2 r.1

/-- The loop over the matrices from the last but one to the first (lines 169-176). -/
def outerLoop : List (Arr K) → Nat → List (List K) → Except Err (List (List K))
  | [], _, tp => .ok tp
  | dm :: dms, filled, tp => do
    let tp' ← middleLoop filled dm.cols (-((filled * dm.cols.length : Nat) : Int)) tp
    outerLoop dms (filled * dm.cols.length) tp'

/-- `tp[:, -k:] = last` (line 167) where `k` columns are given and `tp` is zero: the last columns are replaced.
If there are no columns to replace, NumPy broadcasts a single column and raises a `ValueError` otherwise (`-0:` is
everything). -/
def fillLast (n : Nat) (zero : List K) (last : List (List K)) : Except Err (List (List K)) :=
  if last.length ≤ n then .ok (List.replicate (n - last.length) zero ++ last)
  else if last.length = 1 then .ok []
  else .error .valueError

/-- `_row_tensor_product`. -/
def rowTensorProduct (dms : List (Arr K)) : Except Err (List (List K)) :=
  match dms with
  | [] => .error .valueError
  | d :: ds =>
    if (d :: ds).any fun dm => decide (dm.ndim ≠ 2) then .error .valueError
    else if (d :: ds).any fun dm => decide (dm.nrows ≠ d.nrows) then .error .valueError
    else
      let last := (d :: ds).getLast (by simp)
      do
        let tp ← fillLast (((d :: ds).map fun dm => dm.cols.length).foldl (· * ·) 1) (List.replicate d.nrows 0)
          last.cols
        outerLoop (d :: ds).dropLast.reverse last.cols.length tp

end Patsy.Tensor
