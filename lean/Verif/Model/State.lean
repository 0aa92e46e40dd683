import Mathlib.Algebra.Field.Basic
import Mathlib.Algebra.BigOperators.Group.List.Basic
import Verif.Model.Err

/-!
# Model of `patsy/state.py`

An array with any number of columns is the list of its rows, and a row is a function on the
columns `ι` (1-dimensional input, which `atleast_2d_column_default` turns into one column, is
the case of one column).  Numbers are the elements of a field: rounding, dtypes and NaN are
not modelled; all chunks have the same columns.  Division by zero, which gives `nan` or `inf`
in numpy, is not meaningful here.
-/

namespace Patsy.State

variable {ι K : Type} [Field K]

/-- A row of an array. -/
abbrev Row (ι K : Type) := ι → K

/-- The attributes of `Center` (state.py:102-104). -/
structure Center (ι K : Type) where
  sum : Option (Row ι K)
  count : Nat

/-- `Center.__init__` (state.py:102-104). -/
def Center.init : Center ι K := ⟨none, 0⟩

/-- `Center.memorize_chunk` (state.py:106-114). -/
def Center.memorizeChunk (s : Center ι K) (x : List (Row ι K)) : Center ι K :=
  let total := x.sum
  ⟨some (match s.sum with
    | none => total
    | some t => t + total), s.count + x.length⟩

/-- `Center.memorize_finish` (state.py:116-117). -/
def Center.memorizeFinish (s : Center ι K) : Center ι K := s

/-- `Center.transform` (state.py:119-131).  Without any chunk `self._sum` is `None`, which
cannot be divided. -/
def Center.transform (s : Center ι K) (x : List (Row ι K)) : Except Err (List (Row ι K)) :=
  match s.sum with
  | none => .error .typeError
  | some t =>
    let mean : Row ι K := fun i => t i / (s.count : K)
    .ok (x.map fun r => r - mean)

/-- The attributes of `Standardize` (state.py:161-164). -/
structure Standardize (ι K : Type) where
  n : Nat
  mean : Option (Row ι K)
  m2 : Option (Row ι K)

/-- `Standardize.__init__` (state.py:161-164). -/
def Standardize.init : Standardize ι K := ⟨0, none, none⟩

/-- One round of the loop over the rows (state.py:172-176): `current_n`, `current_mean`,
`current_M2`. -/
def Standardize.step (s : Nat × Row ι K × Row ι K) (x : Row ι K) : Nat × Row ι K × Row ι K :=
  let n := s.1 + 1
  let delta := x - s.2.1
  let mean := s.2.1 + fun i => delta i / (n : K)
  let m2 := s.2.2 + delta * (x - mean)
  (n, mean, m2)

/-- `Standardize.memorize_chunk` (state.py:166-176); the keyword arguments are ignored
there. -/
def Standardize.memorizeChunk (s : Standardize ι K) (x : List (Row ι K)) : Standardize ι K :=
  let r := x.foldl Standardize.step (s.n, s.mean.getD 0, s.m2.getD 0)
  ⟨r.1, some r.2.1, some r.2.2⟩

/-- `Standardize.memorize_finish` (state.py:178-179). -/
def Standardize.memorizeFinish (s : Standardize ι K) : Standardize ι K := s

/-- `Standardize.transform` (state.py:181-192); `sqrt` is `np.sqrt`.  Without any chunk the
attributes are `None`, with which one cannot calculate. -/
def Standardize.transform (sqrt : K → K) (s : Standardize ι K) (center rescale : Bool) (ddof : K)
    (x : List (Row ι K)) : Except Err (List (Row ι K)) :=
  match s.mean, s.m2 with
  | some mean, some m2 =>
    let x := if center then x.map (fun r => r - mean) else x
    let x := if rescale then x.map (fun r i => r i / sqrt (m2 i / ((s.n : K) - ddof))) else x
    .ok x
  | _, _ => if center || rescale then .error .typeError else .ok x

/-- A stateful transform: class with start state, `memorize_chunk`, `memorize_finish` and
`transform`; the remaining arguments are fixed. -/
structure Transform (S X Y : Type) where
  init : S
  chunk : S → X → S
  finish : S → S
  transform : S → X → Except Err Y

/-- The function that `stateful_transform` makes of a class (state.py:53-58). -/
def Transform.call {S X Y : Type} (T : Transform S X Y) (x : X) : Except Err Y :=
  T.transform (T.finish (T.chunk T.init x)) x

/-- The state after the memorisation of chunks (cf. `Props/Memorize.lean`: every chunk once and
in order, then the end of the pass). -/
def Transform.memorized {S X Y : Type} (T : Transform S X Y) (chunks : List X) : S :=
  T.finish (chunks.foldl T.chunk T.init)

/-- `center` (state.py:136). -/
def centerT : Transform (Center ι K) (List (Row ι K)) (List (Row ι K)) :=
  ⟨Center.init, Center.memorizeChunk, Center.memorizeFinish, Center.transform⟩

/-- `standardize` and `scale` (state.py:197-199). -/
def standardizeT (sqrt : K → K) (center rescale : Bool) (ddof : K) :
    Transform (Standardize ι K) (List (Row ι K)) (List (Row ι K)) :=
  ⟨Standardize.init, Standardize.memorizeChunk, Standardize.memorizeFinish,
    fun s x => s.transform sqrt center rescale ddof x⟩

end Patsy.State
