import Verif.Model.BuildMatrices
import Verif.Model.Builders

/-!
# Model of `patsy/highlevel.py`

The capture of the environment (`Model/Environment.lean`) is not repeated here: the environment enters through
`Setting.memorize`.  As in `Model/BuildMatrices.lean`, pandas is assumed to be installed.
-/

namespace Patsy.Build

open Patsy.Desc

variable {F D K : Type} [DecidableEq F]

/-- The column labels of a data frame: of an integer dtype, or else their `str`. -/
inductive Labels where
  | ints (l : List Int)
  | others (l : List String)

/-- A pandas object: whether it is a series (or else a data frame), the labels of its columns (for a series: of the data
frame made from it), the labels of its rows. -/
structure PandasPart where
  series : Bool
  labels : Labels
  index : List Label

/-- What `_do_highlevel_design` gets as an explicit matrix: whether it is an instance of `DesignMatrix`, its attribute
`design_info` if that is a `DesignInfo`, its number of dimensions, its entries as a matrix (at most one dimension: as a
column; more than two dimensions: anything), whether the entries are integers or floats, and whether it is a pandas
object.  Any other object is for NumPy an array whose entries are not numbers. -/
structure ArrayLike (F D K : Type) where
  isDesignMatrix : Bool := false
  info : Option (DesignInfo F D K) := none
  ndim : Nat := 2
  mat : Mat K
  numbers : Bool := true
  pandas : Option PandasPart := none

/-- The names that `DesignInfo.from_array` gives to the columns (design_info.py:708-712). -/
def ArrayLike.names (a : ArrayLike F D K) (pre : String) : List String :=
  match a.pandas with
  | some ⟨_, .others l, _⟩ => l
  | some ⟨_, .ints l, _⟩ => l.map fun i => pre ++ toString i
  | none => (List.range a.mat.cols.length).map fun i => pre ++ toString i

/-- `DesignInfo.from_array` (design_info.py:684-713). -/
def fromArray (name : F → String) (a : ArrayLike F D K) (pre : String) : Except Err (DesignInfo F D K) :=
  match a.info with
  | some d => .ok d
  | none => if 2 < a.ndim then .error .valueError else DesignInfo.make name (a.names pre) none

/-- A design matrix with its `design_info`; the index if it is a data frame. -/
structure Table (F D K : Type) where
  info : DesignInfo F D K
  mat : Mat K
  index : Option (List Label)

/-- `DesignMatrix(m, di)` (design_info.py:1144-1171). -/
def designMatrix (a : ArrayLike F D K) (di : DesignInfo F D K) : Except Err (Table F D K) :=
  if a.isDesignMatrix && a.info.isSome then .ok ⟨di, a.mat, none⟩
  else if 2 < a.ndim then .error .valueError
  else if di.columnNames.length ≠ a.mat.cols.length then .error .valueError
  else if !a.numbers then .error .valueError
  else .ok ⟨di, a.mat, none⟩

/-- The conversion into a data frame (highlevel.py:196-201).  The constructor of `pandas.DataFrame` and the assignment to
`columns` raise `ValueError`s. -/
def dataFrame (a : ArrayLike F D K) (di : DesignInfo F D K) : Except Err (Table F D K) :=
  if 2 < a.ndim then .error .valueError
  else if di.columnNames.length ≠ a.mat.cols.length then .error .valueError
  else .ok ⟨di, a.mat, some ((a.pandas.map (·.index)).getD ((List.range a.mat.nrows).map Label.row))⟩

/-- `_regularize_matrix` (highlevel.py:190-203): the matrix and the original index. -/
def regularizeMatrix (name : F → String) (frame : Bool) (a : ArrayLike F D K) (pre : String) :
    Except Err (Table F D K × Option (List Label)) := do
  let di ← fromArray name a pre
  let t ← if frame then dataFrame a di else designMatrix a di
  pure (t, a.pandas.map (·.index))

/-- The number of columns, `shape[1]`. -/
def Table.ncols (t : Table F D K) : Nat := t.mat.cols.length

/-- `np.zeros((rhs.shape[0], 0), dtype=float)` (highlevel.py:207). -/
def noColumns (nrows : Nat) : ArrayLike F D K := { mat := ⟨nrows, []⟩ }

/-- `rhs_orig_index is not None and lhs_orig_index is not None and not rhs_orig_index.equals(lhs_orig_index)`
(highlevel.py:217-221). -/
def indexMismatch : Option (List Label) → Option (List Label) → Bool
  | some r, some l => decide (r ≠ l)
  | _, _ => false

/-- The exchange of indexes at the end (highlevel.py:222-226). -/
def shareIndex (frame : Bool) (lhsOrig rhsOrig : Option (List Label)) (lhs rhs : Table F D K) :
    Table F D K × Table F D K :=
  if frame then
    match lhsOrig, rhsOrig with
    | none, some _ => ({ lhs with index := rhs.index }, rhs)
    | some _, none => (lhs, { rhs with index := lhs.index })
    | _, _ => (lhs, rhs)
  else (lhs, rhs)

/-- The treatment of explicit matrices (highlevel.py:205-227). -/
def explicitMatrices (name : F → String) (frame : Bool) (lhs : Option (ArrayLike F D K)) (rhs : ArrayLike F D K) :
    Except Err (Table F D K × Table F D K) := do
  let r ← regularizeMatrix name frame rhs "x"
  let l ← regularizeMatrix name frame (lhs.getD (noColumns r.1.mat.nrows)) "y"
  if l.1.mat.nrows ≠ r.1.mat.nrows then .error .patsyError
  else if indexMismatch r.2 l.2 then .error .patsyError
  else pure (shareIndex frame l.2 r.2 l.1 r.1)

/-- The `formula_like` argument: a `DesignInfo`; a pair of them; an object with the method
`__patsy_get_model_desc__` with the result of the call (`none` for an object that is not a `ModelDesc`); a string with the
result of `ModelDesc.from_formula` (`Model/Desc.lean` and others); a `ModelDesc`; a pair whose components are not both
`DesignInfo`s, the first one possibly `None`; a tuple of another length; anything else. -/
inductive FormulaLike (F D K : Type) where
  | design (d : DesignInfo F D K)
  | designs (l r : DesignInfo F D K)
  | provider (result : Except Err (Option (ModelDesc F)))
  | text (parsed : Except Err (ModelDesc F))
  | desc (m : ModelDesc F)
  | pair (lhs : Option (ArrayLike F D K)) (rhs : ArrayLike F D K)
  | tuple (length : Nat)
  | array (a : ArrayLike F D K)

/-- The first element of a list (`[0]`). -/
def first {A : Type} : List A → Except Err A
  | [] => .error .indexError
  | a :: _ => .ok a

/-- `isinstance(formula_like, ModelDesc)` or else a `PatsyError` (highlevel.py:46-49). -/
def isDesc {A : Type} : Option A → Except Err A
  | none => .error .patsyError
  | some a => .ok a

/-- The last part of `_try_incr_builders` (highlevel.py:54-61). -/
def descBuilders {H : Type} [DecidableEq H] (P : Setting F D K H) (chunks : List D) (m : ModelDesc F) :
    Except Err (Option (List (DesignInfo F D K))) := do
  let dis ← designMatrixBuilders P chunks [m.lhs, m.rhs]
  pure (some dis)

/-- `_try_incr_builders` (highlevel.py:31-63). -/
def tryIncrBuilders {H : Type} [DecidableEq H] (P : Setting F D K H) (chunks : List D) :
    FormulaLike F D K → Except Err (Option (List (DesignInfo F D K)))
  | .design d => do
    let dis ← designMatrixBuilders P chunks [[]]
    let e ← first dis
    pure (some [e, d])
  | .designs l r => .ok (some [l, r])
  | .provider result => do
    let m ← isDesc (← result)
    descBuilders P chunks m
  | .text parsed => do
    let m ← parsed
    descBuilders P chunks m
  | .desc m => descBuilders P chunks m
  | _ => .ok none

/-- `incr_dbuilder` (highlevel.py:101-110), after the capture of the environment. -/
def incrDbuilder {H : Type} [DecidableEq H] (P : Setting F D K H) (chunks : List D) (f : FormulaLike F D K) :
    Except Err (DesignInfo F D K) := do
  match ← tryIncrBuilders P chunks f with
  | some [l, r] => if 0 < l.columnNames.length then .error .patsyError else .ok r
  | _ => .error .patsyError

/-- `incr_dbuilders` (highlevel.py:121-129), after the capture of the environment. -/
def incrDbuilders {H : Type} [DecidableEq H] (P : Setting F D K H) (chunks : List D) (f : FormulaLike F D K) :
    Except Err (DesignInfo F D K × DesignInfo F D K) := do
  match ← tryIncrBuilders P chunks f with
  | some [l, r] => if l.columnNames.length = 0 then .error .patsyError else .ok (l, r)
  | _ => .error .patsyError

/-- The argument `return_type`. -/
inductive ReturnType where
  | matrix
  | dataframe
  | other
  deriving DecidableEq

/-- The two matrices that `build_design_matrices` returns, with the designs as their `design_info`
(build.py:1014-1022). -/
def asTables (dis : List (DesignInfo F D K)) (b : Built K) : Except Err (Table F D K × Table F D K) :=
  match dis, b.mats with
  | [l, r], [x, y] => .ok (⟨l, x, b.index⟩, ⟨r, y, b.index⟩)
  | _, _ => .error .valueError

/-- `hasattr(a, "name")` for a data frame (util.py:95): it has a column of that name. -/
def PandasPart.hasName (p : PandasPart) : Bool :=
  match p.labels with
  | .others l => decide ("name" ∈ l)
  | .ints _ => false

/-- `asarray_or_pandas(formula_like, subok=True)` (util.py:88-98): pandas objects are copied and lose the attribute
`design_info`.  The constructor of data frames has no argument `name`. -/
def asArray (a : ArrayLike F D K) : Except Err (ArrayLike F D K) :=
  match a.pandas with
  | none => .ok a
  | some p => if !p.series && p.hasName then .error .typeError else .ok { a with info := none }

/-- The second part of `_do_highlevel_design` (highlevel.py:169-227). -/
def highLevelMatrices (name : F → String) (frame : Bool) : FormulaLike F D K → Except Err (Table F D K × Table F D K)
  | .pair lhs rhs => explicitMatrices name frame lhs rhs
  | .array a => do explicitMatrices name frame none (← asArray a)
  | _ => .error .patsyError

/-- `_do_highlevel_design` (highlevel.py:150-227).  `dataIndex` is the index of `data` if it is a data frame. -/
def highLevelDesign {H : Type} [DecidableEq H] [Mul K] [One K] (P : Setting F D K H) (isnan : K → Bool)
    (dataIndex : Option (List Label)) (data : D) (rt : ReturnType) (f : FormulaLike F D K) :
    Except Err (Table F D K × Table F D K) :=
  if rt = .other then .error .patsyError
  else do
    match ← tryIncrBuilders P [data] f with
    | some dis => do
      let b ← buildDesignMatrices isnan P.na (rt = .dataframe) dataIndex dis data
      asTables dis b
    | none => highLevelMatrices P.name (rt = .dataframe) f

/-- `dmatrix` (highlevel.py:293-301). -/
def dmatrix {H : Type} [DecidableEq H] [Mul K] [One K] (P : Setting F D K H) (isnan : K → Bool)
    (dataIndex : Option (List Label)) (data : D) (rt : ReturnType) (f : FormulaLike F D K) :
    Except Err (Table F D K) := do
  let t ← highLevelDesign P isnan dataIndex data rt f
  if t.1.ncols ≠ 0 then .error .patsyError else .ok t.2

/-- `dmatrices` (highlevel.py:316-322). -/
def dmatrices {H : Type} [DecidableEq H] [Mul K] [One K] (P : Setting F D K H) (isnan : K → Bool)
    (dataIndex : Option (List Label)) (data : D) (rt : ReturnType) (f : FormulaLike F D K) :
    Except Err (Table F D K × Table F D K) := do
  let t ← highLevelDesign P isnan dataIndex data rt f
  if t.1.ncols = 0 then .error .patsyError else .ok t

end Patsy.Build
