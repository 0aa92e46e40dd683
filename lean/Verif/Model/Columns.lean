import Verif.Model.DesignInfo

/-!
# Model of the column building functions of `patsy/build.py`

`K` is the type of matrix entries; only its multiplication and one are used, and no law
about them, so floating point numbers are an instance.
-/

namespace Patsy.Build

variable {F D K : Type} [DecidableEq F]

/-- `itertools.product` (leftmost slowest). -/
def product {A : Type} : List (List A) → List (List A)
  | [] => [[]]
  | l :: ls => l.flatMap fun a => (product ls).map fun t => a :: t

/-- `_column_combinations` (build.py:219-223). -/
def columnCombinations (ns : List Nat) : List (List Nat) :=
  (product (ns.reverse.map List.range)).map List.reverse

/-- The loop of `_subterm_column_combinations` (build.py:239-246). -/
def columnsPerFactor (fis : List (F × FactorInfo F D K)) (cms : List (F × ContrastMatrix K)) :
    List F → Except Err (List Nat)
  | [] => .ok []
  | f :: fs => do
    let n ← match dictGet cms f with
      | some cm => Except.ok cm.ncols
      | none =>
        match dictGet fis f with
        | none => .error .keyError
        | some fi =>
          match fi.type with
          | .numerical n => .ok n
          -- `range(None)`
          | .categorical _ => .error .typeError
    let ns ← columnsPerFactor fis cms fs
    .ok (n :: ns)

/-- `_subterm_column_combinations` (build.py:239-247). -/
def subtermCombinations (fis : List (F × FactorInfo F D K)) (st : SubtermInfo F K) :
    Except Err (List (List Nat)) := do
  let ns ← columnsPerFactor fis st.contrasts st.factors
  .ok (columnCombinations ns)

/-- The name piece of one factor (build.py:257-269). -/
def namePiece (name : F → String) (fis : List (F × FactorInfo F D K))
    (cms : List (F × ContrastMatrix K)) (f : F) (j : Nat) : Except Err String :=
  match dictGet fis f with
  | none => .error .keyError
  | some fi =>
    match fi.type with
    | .numerical n =>
      if n > 1 then .ok (name f ++ "[" ++ toString j ++ "]")
      else if j = 0 then .ok (name f)
      else .error .assertionError
    | .categorical _ =>
      match dictGet cms f with
      | none => .error .keyError
      | some cm =>
        match cm.suffixes[j]? with
        | none => .error .indexError
        | some suffix => .ok (name f ++ suffix)

/-- The inner loop of `_subterm_column_names_iter` (build.py:256-269). -/
def namePieces (name : F → String) (fis : List (F × FactorInfo F D K))
    (cms : List (F × ContrastMatrix K)) : List F → List Nat → Except Err (List String)
  | f :: fs, j :: js => do
    let p ← namePiece name fis cms f j
    let ps ← namePieces name fis cms fs js
    .ok (p :: ps)
  | _, _ => .ok []

/-- `_subterm_column_names_iter` (build.py:250-274), run to its end. -/
def subtermColumnNames (name : F → String) (fis : List (F × FactorInfo F D K))
    (st : SubtermInfo F K) : Except Err (List String) := do
  let combos ← subtermCombinations fis st
  let names ← combos.mapM fun combo => do
    let ps ← namePieces name fis st.contrasts st.factors combo
    if ps.isEmpty then .ok "Intercept" else .ok (":".intercalate ps)
  if names.length = st.numColumns then .ok names else .error .assertionError

/-- `contrast.matrix[code, j]` for a code that is not negative. -/
def contrastEntry (cm : ContrastMatrix K) (code : Int) (j : Nat) : Except Err K :=
  match cm.matrix[code.toNat]? with
  | none => .error .indexError
  | some row =>
    match row[j]? with
    | none => .error .indexError
    | some x => .ok x

/-- `row[j]`. -/
def rowEntry (row : List K) (j : Nat) : Except Err K :=
  match row[j]? with
  | none => .error .indexError
  | some x => .ok x

/-- The vector that a factor contributes to a column (build.py:284-297). -/
def factorColumn (fis : List (F × FactorInfo F D K)) (cms : List (F × ContrastMatrix K))
    (values : List (F × Value K)) (f : F) (j : Nat) : Except Err (List K) :=
  match dictGet fis f, dictGet values f with
  | some fi, some v =>
    match fi.type with
    | .categorical _ =>
      match dictGet cms f, v with
      | some cm, .cat codes =>
        if codes.any (fun c => decide (c < 0)) then .error .patsyError
        else codes.mapM fun c => contrastEntry cm c j
      | none, _ => .error .keyError
      | some _, _ => .error .typeError
    | .numerical n =>
      match v with
      | .num ncols rows =>
        if ncols ≠ n then .error .assertionError
        else rows.mapM fun r => rowEntry r j
      -- `shape[1]` of a one-dimensional array
      | _ => .error .indexError
  | _, _ => .error .keyError

/-- The inner loop of `_build_subterm` (build.py:283-297): multiply the contributions of
the factors into one column. -/
def mulColumns [Mul K] (fis : List (F × FactorInfo F D K)) (cms : List (F × ContrastMatrix K))
    (values : List (F × Value K)) : List F → List Nat → List K → Except Err (List K)
  | f :: fs, j :: js, col => do
    let v ← factorColumn fis cms values f j
    mulColumns fis cms values fs js (col.zipWith (· * ·) v)
  | _, _, col => .ok col

/-- `_build_subterm` (build.py:277-297).  `out` is a slice with `nrows` rows and `outCols`
columns; the result lists its columns.  Columns that no combination reaches keep the
initial value one; a combination without column is an `IndexError`. -/
def buildSubterm [Mul K] [One K] (fis : List (F × FactorInfo F D K)) (st : SubtermInfo F K)
    (values : List (F × Value K)) (nrows outCols : Nat) : Except Err (List (List K)) :=
  if st.numColumns ≠ outCols then .error .assertionError
  else do
    let combos ← subtermCombinations fis st
    let cols ← combos.mapM fun combo =>
      mulColumns fis st.contrasts values st.factors combo (List.replicate nrows 1)
    if cols.length > outCols then .error .indexError
    else .ok (cols ++ List.replicate (outCols - cols.length) (List.replicate nrows 1))

end Patsy.Build
