import Mathlib.Data.List.Forall2
import Verif.Model.DesignInfo
import Verif.Model.Missing
import Verif.Model.BuildMatrices

/-!
# Independent description of the entries of a design matrix

These definitions use only the containers (`FactorInfo`, `SubtermInfo`, ...), not the
functions that build matrices.
-/

namespace Patsy.Spec

open Patsy.Build Patsy.Desc

variable {F D K : Type} [DecidableEq F]

/-- The value of one factor in one row: a row of numbers or a category code. -/
inductive Cell (K : Type) where
  | num (row : List K)
  | code (c : Int)
  deriving DecidableEq, Repr

/-- Row `r` of an evaluated factor. -/
def cellOf (v : Value K) (r : Nat) : Option (Cell K) :=
  match v with
  | .num _ rows => rows[r]?.map Cell.num
  | .cat codes => codes[r]?.map Cell.code
  | .labels _ => none

/-- What a factor contributes to a row: the `j`-th number, or the entry of the contrast
matrix in the row of the category and column `j`.  A negative code contributes
nothing. -/
def cellEntry (type : FType) (cm : Option (ContrastMatrix K)) (cell : Cell K) (j : Nat) :
    Option K :=
  match type, cell with
  | .numerical _, .num row => row[j]?
  | .categorical _, .code c =>
    if c < 0 then none else cm.bind fun cm => cm.matrix[c.toNat]?.bind (·[j]?)
  | _, _ => none

/-- Contribution of factor `f` with column number `j`, in a row where the factors have the
values `cells`. -/
def entryAt (fis : List (F × FactorInfo F D K)) (cms : List (F × ContrastMatrix K))
    (cells : F → Option (Cell K)) (f : F) (j : Nat) : Option K :=
  (dictGet fis f).bind fun fi => (cells f).bind fun c => cellEntry fi.type (dictGet cms f) c j

/-- The contributions of all factors, multiplied from left to right onto `x`. -/
def prodFrom [Mul K] (fis : List (F × FactorInfo F D K)) (cms : List (F × ContrastMatrix K))
    (cells : F → Option (Cell K)) : K → List F → List Nat → Option K
  | x, f :: fs, j :: js => (entryAt fis cms cells f j).bind fun y => prodFrom fis cms cells (x * y) fs js
  | x, _, _ => some x

/-- The number of columns that a factor has in a subterm with the contrast matrices
`cms`. -/
def widthOf (fis : List (F × FactorInfo F D K)) (cms : List (F × ContrastMatrix K)) (f : F) : Nat :=
  match dictGet cms f with
  | some cm => cm.ncols
  | none =>
    match dictGet fis f with
    | some ⟨_, _, .numerical n, _⟩ => n
    | _ => 0

/-- The number of columns that each factor of a subterm has. -/
def widths (fis : List (F × FactorInfo F D K)) (st : SubtermInfo F K) : List Nat :=
  st.factors.map (widthOf fis st.contrasts)

/-- Position of the combination `js` of column numbers, leftmost fastest:
`j₀ + n₀ * (j₁ + n₁ * (j₂ + ...))`. -/
def place : List Nat → List Nat → Nat
  | n :: ns, j :: js => j + n * place ns js
  | _, _ => 0

/-- `js` chooses one column of every factor. -/
def Choice : List Nat → List Nat → Prop
  | n :: ns, j :: js => j < n ∧ Choice ns js
  | [], [] => True
  | _, _ => False

/-- The mixed-radix digits of `i`, leftmost fastest. -/
def digits : List Nat → Nat → List Nat
  | [], _ => []
  | n :: ns, i => i % n :: digits ns (i / n)

/-- The columns of a design in order: subterm and combination of column numbers. -/
def columnsOf (c : Coding F D K) : List (SubtermInfo F K × List Nat) :=
  c.termCodings.flatMap fun p => p.2.flatMap fun st =>
    (List.range st.numColumns).map fun i => (st, digits (widths c.factorInfos st) i)

/-- The entry of a column in a row where the factors have the values `cells`. -/
def columnEntry [Mul K] [One K] (c : Coding F D K) (cells : F → Option (Cell K))
    (col : SubtermInfo F K × List Nat) : Option K :=
  prodFrom c.factorInfos col.1.contrasts cells 1 col.1.factors col.2

/-- An evaluated factor has the kind of value that its type says. -/
def kindOK : FType → Value K → Prop
  | .numerical m, .num m' _ => m' = m
  | .categorical _, .cat _ => True
  | _, _ => False

/-- The factors of the list have values of the right kind with `n` rows. -/
def ValuesGood (fis : List (F × FactorInfo F D K)) (values : List (F × Value K)) (n : Nat)
    (fs : List F) : Prop :=
  ∀ f ∈ fs, ∃ fi v, dictGet fis f = some fi ∧ dictGet values f = some v ∧ v.nrows = n ∧
    kindOK fi.type v

/-- The cells in row `r`. -/
def cellsAt (values : List (F × Value K)) (r : Nat) (f : F) : Option (Cell K) :=
  (dictGet values f).bind fun v => cellOf v r

/-- `cols` are the columns of the design `c` in the rows whose factor values are `rows`:
one column per entry of `columnsOf c`, in that order, each with one entry per row. -/
def IsMatrix [Mul K] [One K] (c : Coding F D K) (rows : List (F → Option (Cell K)))
    (cols : List (List K)) : Prop :=
  List.Forall₂ (fun col vals => rows.mapM (fun cells => columnEntry c cells col) = some vals)
    (columnsOf c) cols

/-- Is the value missing?  A row of numbers is if it contains a NaN (and NaN counts as
missing), a category code if it is -1. -/
def cellMissing (na : NAAction) (isnan : K → Bool) : Cell K → Bool
  | .num row => na.nan && row.any isnan
  | .code c => c == -1

/-- The values of the factors of design `c` in row `r`, when the factors evaluate to `V`. -/
def designCells (c : Coding F D K) (V : FactorInfo F D K → Value K) (r : Nat) (f : F) :
    Option (Cell K) :=
  (dictGet c.factorInfos f).bind fun fi => cellOf (V fi) r

/-- Row `r` is complete: none of the factors is missing in it. -/
def complete (na : NAAction) (isnan : K → Bool) (fis : List (FactorInfo F D K))
    (V : FactorInfo F D K → Value K) (r : Nat) : Bool :=
  fis.all fun fi => (cellOf (V fi) r).all fun c => !cellMissing na isnan c

/-- The numbers of the complete rows among the first `n`, in order. -/
def completeRows (na : NAAction) (isnan : K → Bool) (fis : List (FactorInfo F D K))
    (V : FactorInfo F D K → Value K) (n : Nat) : List Nat :=
  (List.range n).filter (complete na isnan fis V)

/-- `d` is a design that the constructor accepted, with the coding `c`. -/
def IsDesign (d : DesignInfo F D K) (c : Coding F D K) : Prop :=
  ∃ name names, DesignInfo.make name names (some c) = .ok d

/-- All factors of several designs. -/
def factorsOf (cs : List (Coding F D K)) : List (FactorInfo F D K) :=
  cs.flatMap fun c => c.factorInfos.map Prod.snd

/-- Python objects with the same identity are the same object. -/
def SameIdentity (fis : List (FactorInfo F D K)) : Prop :=
  ∀ a ∈ fis, ∀ b ∈ fis, a.uid = b.uid → a = b

/-- pandas objects have as many index labels as rows. -/
def IndexFits (ty : NATypes) (fis : List (FactorInfo F D K)) (data : D) : Prop :=
  ∀ fi ∈ fis, ∀ v l, fi.eval ty data = .ok (v, some l) → l.length = v.nrows

/-- On `data` the factors `fis` evaluate to `V`, values of the right kind with `n` rows
each, labelled by `idx`: the common index of all pandas objects involved (`dataIndex` for
the data object itself), or the numbers of the rows if there is none.  The number of rows
must come from a factor or from a data frame. -/
structure Evaluation (ty : NATypes) (fis : List (FactorInfo F D K)) (dataIndex : Option (List Label)) (data : D)
    (V : FactorInfo F D K → Value K) (n : Nat) (idx : List Label) : Prop where
  value : ∀ fi ∈ fis, ∃ i, fi.eval ty data = .ok (V fi, i) ∧ ∀ l, i = some l → l = idx
  kind : ∀ fi ∈ fis, kindOK fi.type (V fi)
  rows : ∀ fi ∈ fis, (V fi).nrows = n
  frame : ∀ l, dataIndex = some l → l = idx
  length : idx.length = n
  default : dataIndex = none → (∀ fi ∈ fis, ∀ v l, fi.eval ty data ≠ .ok (v, some l)) →
    idx = (List.range n).map Label.row
  known : fis = [] → dataIndex ≠ none

/-- The matrices of the designs `cs` on the rows `kept`, when the factors evaluate to
`V`. -/
def AreMatrices [Mul K] [One K] (cs : List (Coding F D K)) (V : FactorInfo F D K → Value K)
    (kept : List Nat) (mats : List (Mat K)) : Prop :=
  List.Forall₂ (fun c m => m.nrows = kept.length ∧ IsMatrix c (kept.map (designCells c V)) m.cols)
    cs mats

/-- Row-wise factors on data given as a list of rows: evaluation succeeds exactly if it
does so for every row, with the value `g fi r` for row `r` whatever the other rows are, and
the labels of the rows, if any, are given by `lab`.  (This is what state that is fixed by
memorisation is for.) -/
def RowWise {R : Type} (ty : NATypes) (fis : List (FactorInfo F (List R) K))
    (g : FactorInfo F (List R) K → R → Option (Cell K)) (lab : Option (R → Label)) : Prop :=
  ∀ fi ∈ fis, ∀ rows : List R,
    ((∃ v i, fi.eval ty rows = .ok (v, i)) ↔ ∀ r ∈ rows, (g fi r).isSome) ∧
    ∀ v i, fi.eval ty rows = .ok (v, i) → kindOK fi.type v ∧ v.nrows = rows.length ∧
      (∀ q : Nat, cellOf v q = rows[q]?.bind (g fi)) ∧
      (∀ l, i = some l → ∃ f, lab = some f ∧ l = rows.map f)

/-- The values of the factors of design `c` in the data row `r`. -/
def rowCells {R : Type} (c : Coding F (List R) K) (g : FactorInfo F (List R) K → R → Option (Cell K))
    (r : R) (f : F) : Option (Cell K) :=
  (dictGet c.factorInfos f).bind fun fi => g fi r

/-- None of the factors is missing in the data row. -/
def keepRow {R : Type} (na : NAAction) (isnan : K → Bool) (fis : List (FactorInfo F (List R) K))
    (g : FactorInfo F (List R) K → R → Option (Cell K)) (r : R) : Bool :=
  fis.all fun fi => (g fi r).all fun c => !cellMissing na isnan c

/-- The labels of the rows that are kept: given by `lab`, or the numbers of the rows. -/
def keptLabels {R : Type} (lab : Option (R → Label)) (keep : R → Bool) (rows : List R) :
    List Label :=
  match lab with
  | some f => (rows.filter keep).map f
  | none => ((List.range rows.length).filter fun q => rows[q]?.any keep).map Label.row

/-- Stacking two matrices with the same number of columns. -/
def stack (m m' : Mat K) : Mat K := ⟨m.nrows + m'.nrows, List.zipWith (· ++ ·) m.cols m'.cols⟩

/-- Stacking the results of two calls: the matrices of each design, and the indexes. -/
def stackBuilt (b b' : Built K) : Built K :=
  ⟨List.zipWith stack b.mats b'.mats,
   match b.index, b'.index with
   | some l, some l' => some (l ++ l')
   | _, _ => none⟩

end Patsy.Spec
