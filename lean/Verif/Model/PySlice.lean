import Verif.Model.DesignInfo

/-!
# Model: `DesignInfo.slice` with arbitrary integers and slices

`Model/DesignInfo.lean` has the columns of terms and names as pairs of natural numbers.
Here the result is a Python `slice` object, whose bounds may be negative or missing, and
indexing by it follows the language reference (`slice.indices`).
-/

namespace Patsy.Build

open Patsy.Desc

/-- A Python `slice(start, stop, step)`; `none` is `None`. -/
structure PySlice where
  start : Option Int
  stop : Option Int
  step : Option Int
  deriving DecidableEq, Repr

/-- A given bound of a slice, for a sequence of length `n`: negative numbers count from the
end, and what lies outside is moved to the nearest end (`PySlice_AdjustIndices` of Python,
used by design_info.py:390 and by every subscription). -/
def clipBound (n : Nat) (backwards : Bool) (b : Int) : Int :=
  if b < 0 then
    if b + n < 0 then (if backwards then -1 else 0) else b + n
  else if (n : Int) ≤ b then (if backwards then (n : Int) - 1 else n) else b

/-- `slice.indices(n)` (Python, used in design_info.py:390): a zero step is a `ValueError`. -/
def PySlice.indices (s : PySlice) (n : Nat) : Except Err (Int × Int × Int) :=
  let step := s.step.getD 1
  if step = 0 then .error .valueError else
  let back := decide (step < 0)
  let start := match s.start with
    | none => if back then (n : Int) - 1 else 0
    | some b => clipBound n back b
  let stop := match s.stop with
    | none => if back then -1 else n
    | some b => clipBound n back b
  .ok (start, stop, step)

/-- Subscription of a list by a slice: the elements at `start`, `start + step`, ... before
`stop`. -/
def PySlice.select {A : Type} (s : PySlice) (l : List A) : Except Err (List A) := do
  let (start, stop, step) ← s.indices l.length
  .ok ((List.range l.length).filterMap fun (k : Nat) =>
    let p := start + (k : Int) * step
    if (0 < step ∧ p < stop) ∨ (step < 0 ∧ stop < p) then l[p.toNat]? else none)

/-- A column range as a Python slice. -/
def Slice.toPy (s : Slice) : PySlice := ⟨some s.start, some s.stop, none⟩

variable {F D K : Type} [DecidableEq F]

/-- The argument of `DesignInfo.slice` (design_info.py:473-479). -/
inductive PyColumnSpec (F : Type) where
  | slice (s : PySlice)
  | index (i : Int)
  | term (t : Term F)
  | name (s : String)

/-- `DesignInfo.slice` (design_info.py:493-504) for all kinds of arguments.  The integers
are Python integers (or numpy ones without overflow). -/
def DesignInfo.slicePy (d : DesignInfo F D K) : PyColumnSpec F → Except Err PySlice
  | .slice s => .ok s
  | .index i => .ok ⟨some i, some (i + 1), none⟩
  | .term t => (d.slice (.term t)).map Slice.toPy
  | .name n => (d.slice (.name n)).map Slice.toPy

end Patsy.Build
