import Verif.Model.Columns
import Verif.Model.Missing

/-!
# Model of `_build_design_matrix` and `build_design_matrices` (`patsy/build.py`)
-/

namespace Patsy.Build

variable {F D K : Type} [DecidableEq F]

/-- A design matrix: number of rows and list of columns (each of that length). -/
structure Mat (K : Type) where
  nrows : Nat
  cols : List (List K)
  deriving DecidableEq, Repr

/-- The loop over the evaluated factors in `_build_design_matrix` (build.py:803-816):
the dictionary of this design's factors and the number of rows.  Each design has one
`FactorInfo` per factor, so the assignments to `factor_to_values` never overwrite. -/
def collectValues (fis : List (F × FactorInfo F D K)) :
    List (FactorInfo F D K × Value K) → List (F × Value K) → Option Nat →
      Except Err (List (F × Value K) × Option Nat)
  | [], acc, rows => .ok (acc, rows)
  | (fi, v) :: l, acc, rows =>
    match dictGet fis fi.factor with
    | none => collectValues fis l acc rows
    | some fi' =>
      if fi'.uid ≠ fi.uid then collectValues fis l acc rows
      else
        match rows with
        | some n =>
          if n ≠ v.nrows then .error .assertionError
          else collectValues fis l (acc ++ [(fi.factor, v)]) (some n)
        | none => collectValues fis l (acc ++ [(fi.factor, v)]) (some v.nrows)

/-- The loop over the subterms (build.py:824-830).  `width` is `m.shape[1]`; slicing clips
at the width. -/
def buildSubterms [Mul K] [One K] (fis : List (F × FactorInfo F D K))
    (values : List (F × Value K)) (nrows width : Nat) :
    List (SubtermInfo F K) → Nat → Except Err (List (List K) × Nat)
  | [], start => .ok ([], start)
  | st :: sts, start => do
    let cols ← buildSubterm fis st values nrows
      (min (start + st.numColumns) width - min start width)
    let r ← buildSubterms fis values nrows width sts (start + st.numColumns)
    .ok (cols ++ r.1, r.2)

/-- `_build_design_matrix` (build.py:799-831): `need_reshape` and the matrix.  `c` is the
coding of the design and `width` its number of column names. -/
def buildDesignMatrix [Mul K] [One K] (c : Coding F D K) (width : Nat)
    (vals : List (FactorInfo F D K × Value K)) : Except Err (Bool × Mat K) := do
  let cv ← collectValues c.factorInfos vals [] none
  let nrows := cv.2.getD 1
  let r ← buildSubterms c.factorInfos cv.1 nrows width (c.termCodings.flatMap (·.2)) 0
  if r.2 ≠ width then .error .assertionError
  else .ok (cv.2.isNone, ⟨nrows, r.1⟩)

/-- `_eval_factor` (build.py:66-94): value, missing-value mask, pandas index. -/
def evalFactor (isnan : K → Bool) (na : NAAction) (fi : FactorInfo F D K) (data : D) :
    Except Err (Value K × List Bool × Option (List Label)) := do
  let r ← fi.eval na.types data
  match fi.type, r.1 with
  | .numerical n, .num ncols rows =>
    if ncols ≠ n then .error .patsyError
    else .ok (r.1, na.isNumericalNA isnan rows, r.2)
  | .numerical _, _ => .error .patsyError
  | .categorical _, .cat codes => .ok (r.1, codes.map (fun c => decide (c = -1)), r.2)
  | .categorical _, _ => .error .assertionError

/-- `_CheckMatch.check` (build.py:842-858): the new stored value. -/
def checkMatch {A : Type} [DecidableEq A] (stored : Option A) (seen : A) : Except Err (Option A) :=
  match stored with
  | none => .ok (some seen)
  | some v => if v = seen then .ok (some v) else .error .patsyError

/-- State of the evaluation loop of `build_design_matrices`: the dictionaries
`factor_info_to_values` and `factor_info_to_isNAs` (same keys, same order) and the values
of the two checkers. -/
structure EvalState (F D K : Type) where
  entries : List (FactorInfo F D K × Value K × List Bool)
  rows : Option Nat
  index : Option (List Label)

/-- `if value is a pandas object: index_checker.check(value.index, ...)`
(build.py:957-959). -/
def checkIndex (stored : Option (List Label)) (seen : Option (List Label)) :
    Except Err (Option (List Label)) :=
  match seen with
  | none => .ok stored
  | some i => checkMatch stored i

/-- The evaluation loop (build.py:938-967) over the factor infos of all designs. -/
def evalLoop (isnan : K → Bool) (na : NAAction) (data : D) :
    List (FactorInfo F D K) → EvalState F D K → Except Err (EvalState F D K)
  | [], s => .ok s
  | fi :: fis, s =>
    if s.entries.any (fun e => decide (e.1.uid = fi.uid)) then evalLoop isnan na data fis s
    else do
      let r ← evalFactor isnan na fi data
      let rows ← checkMatch s.rows r.1.nrows
      let index ← checkIndex s.index r.2.2
      evalLoop isnan na data fis ⟨s.entries ++ [(fi, r.1, r.2.1)], rows, index⟩

/-- The coding dictionaries and the width of a design; a design without them makes
`design_info.factor_infos.values()` fail. -/
def DesignInfo.codingOf (d : DesignInfo F D K) : Except Err (Coding F D K × Nat) :=
  match d.coding with
  | some c => .ok (c, d.columnIndexes.length)
  | none => .error .typeError

/-- Making the matrix of a design without factors tall enough (build.py:995-1013). -/
def reshape (numRows : Option Nat) (r : Bool × Mat K) : Except Err (Mat K) :=
  if r.1 then
    if r.2.nrows ≠ 1 then .error .assertionError
    else
      match numRows with
      | none => .error .patsyError
      | some n => .ok ⟨n, r.2.cols.map fun col => col.flatMap fun x => List.replicate n x⟩
  else .ok r.2

/-- What `build_design_matrices` returns: the matrices, and the index used for the data
frames (`none` for `return_type="matrix"`). -/
structure Built (K : Type) where
  mats : List (Mat K)
  index : Option (List Label)
  deriving DecidableEq, Repr

/-- The number of rows after missing-value handling (build.py:985-986): from the first value, if
there is one. -/
def rowsAfter (rows : Option Nat) : List (Value K) → Option Nat
  | [] => rows
  | v :: _ => some v.nrows

/-- `pandas_index = new_values.pop()` (build.py:988). -/
def lastLabels (values : List (Value K)) : Option (List Label) :=
  match values.getLast? with
  | some (.labels ls) => some ls
  | _ => none

/-- `build_design_matrices` (build.py:861-1022), from the conversion of `NA_action` on.
`dataIndex` is `data.index` if `data` is a pandas data frame (whose number of rows is the
length of its index), `frame` says whether `return_type="dataframe"`.  pandas is assumed to
be installed; `dtype` is not modelled.  When no rows are known and a data frame is
requested, every design without factors is an error and every other design has made the
rows known, so the final construction of data frames always has an index, except when
`design_infos` is empty. -/
def buildDesignMatrices [Mul K] [One K] (isnan : K → Bool) (na : NAAction) (frame : Bool)
    (dataIndex : Option (List Label)) (dis : List (DesignInfo F D K)) (data : D) :
    Except Err (Built K) := do
  let cs ← dis.mapM DesignInfo.codingOf
  let s ← evalLoop isnan na data (cs.flatMap fun c => c.1.factorInfos.map Prod.snd)
    ⟨[], dataIndex.map List.length, dataIndex⟩
  let values := s.entries.map fun e => e.2.1
  let isNAs := s.entries.map fun e => e.2.2
  let withIndex := frame && s.rows.isSome
  let numRows0 := s.rows.getD 0
  let idx := s.index.getD ((List.range numRows0).map Label.row)
  let newValues ← na.handleNA (values ++ (if withIndex then [Value.labels idx] else []))
    (isNAs ++ (if withIndex then [List.replicate idx.length false] else []))
  let numRows := rowsAfter s.rows newValues
  let index := if withIndex then lastLabels newValues else none
  let vals := (s.entries.map Prod.fst).zip (if withIndex then newValues.dropLast else newValues)
  let results ← cs.mapM fun c => buildDesignMatrix c.1 c.2 vals
  let mats ← results.mapM (reshape numRows)
  .ok ⟨mats, index⟩

end Patsy.Build
