import Mathlib.Data.Finset.Sort
import Mathlib.Algebra.BigOperators.Group.Finset.Basic
import Verif.Model.CubicSpline
import Verif.Model.Tensor

/-!
# Model of the stateful transforms `bs` (`patsy/splines.py`), `cr`, `cc` and `te` (`patsy/mgcv_cubic_splines.py`)

Numbers are real numbers; data are one-dimensional (the shape checks of `x` are not modelled) and there are no NaNs.
`df` and `degree` are integers.  pandas indexes are not modelled.  SciPy's `qr` and `splev` are parameters.
-/

namespace Patsy.SplineTransform

open Patsy.CubicSpline
open Patsy.Tensor (Arr rowTensorProduct)

/-! ### Knots -/

/-- `np.unique`: the distinct elements in increasing order. -/
noncomputable def unique (l : List ℝ) : List ℝ := l.toFinset.sort (· ≤ ·)

/-- In-place `sort()` of an array. -/
noncomputable def sorted (l : List ℝ) : List ℝ := l.mergeSort fun a b => decide (a ≤ b)

/-- `np.percentile(x, 100 * t)` with the default (linear) interpolation, `0 ≤ t ≤ 1`, for data that are not empty. -/
noncomputable def quantile (x : List ℝ) (t : ℝ) : ℝ :=
  let s := sorted x
  let v := t * ((s.length : ℝ) - 1)
  let lo := ⌊v⌋.toNat
  let hi := min (lo + 1) (s.length - 1)
  s.getD lo 0 + (s.getD hi 0 - s.getD lo 0) * (v - lo)

/-- `np.linspace(0, 1, n + 2)[1:-1]`. -/
noncomputable def fractions (n : Nat) : List ℝ := (List.range n).map fun i : Nat => ((i : ℝ) + 1) / ((n : ℝ) + 1)

/-- A bound that is given or else computed from the data; `np.min` and `np.max` of empty data fail
(splines.py:232-239; the explicit checks at mgcv_cubic_splines.py:417-431 have the same effect). -/
def bound (given computed : Option ℝ) : Except Err ℝ :=
  match given with
  | some b => .ok b
  | none => match computed with
    | some b => .ok b
    | none => .error .valueError

/-- The inner knots of `_get_all_sorted_knots` and their number (mgcv_cubic_splines.py:438-478), given the bounds. -/
noncomputable def innerKnots (x : List ℝ) (n : Option Int) (knots : Option (List ℝ)) (l u : ℝ) :
    Except Err (List ℝ × Int) :=
  match knots with
  | none => match n with
    | none => .error .valueError
    | some n =>
      if n < 0 then .error .valueError
      else
        let x' := unique (x.filter fun v => decide (l ≤ v) && decide (v ≤ u))
        if x' ≠ [] then .ok ((fractions n.toNat).map (quantile x'), n)
        else if n = 0 then .ok ([], n)
        else .error .valueError
  | some ks =>
    let ks' := unique ks
    if n.any fun n => decide (n ≠ (ks'.length : Int)) then .error .valueError
    else if ks'.any fun k => decide (k < l) then .error .valueError
    else if ks'.any fun k => decide (k > u) then .error .valueError
    else .ok (ks', ks'.length)

/-- `_get_all_sorted_knots` (mgcv_cubic_splines.py:397-490). -/
noncomputable def getAllSortedKnots (x : List ℝ) (n : Option Int) (knots : Option (List ℝ)) (lower upper : Option ℝ) :
    Except Err (List ℝ) := do
  let l ← bound lower x.min?
  let u ← bound upper x.max?
  if u < l then .error .valueError
  else
    let inner ← innerKnots x n knots l u
    let all := unique ([l, u] ++ inner.1)
    if (all.length : Int) ≠ inner.2 + 2 then .error .valueError
    else .ok all

/-! ### Constraints -/

/-- The argument `constraints`: an array of one or two dimensions is made two-dimensional by `np.atleast_2d`. -/
inductive Constraints where
  | none
  | center
  | array (rows cols : Nat) (entry : Nat → Nat → ℝ)
  | manyDims

/-- Constraints that have been memorized: a two-dimensional array. -/
structure Cons where
  rows : Nat
  cols : Nat
  entry : Nat → Nat → ℝ

/-- The factor `q` of `scipy.linalg.qr(np.transpose(constraints))`, a square array with as many rows as the
constraints have columns. -/
abbrev QR := Cons → Nat → Nat → ℝ

/-- `_absorb_constraints` (mgcv_cubic_splines.py:290-310), by rows of the design matrix.  `np.dot` rejects arrays
that do not fit. -/
noncomputable def absorb (qr : QR) (c : Cons) (row : List ℝ) : Except Err (List ℝ) :=
  if row.length ≠ c.cols then .error .valueError
  else .ok ((List.range (c.cols - c.rows)).map fun j => ∑ k ∈ Finset.range c.cols, row.getD k 0 * qr c k (c.rows + j))

/-- `_get_crs_dmatrix` and `_get_te_dmatrix` after the free matrix is built (mgcv_cubic_splines.py:373-376, 388-391). -/
noncomputable def absorbAny (qr : QR) (c : Option Cons) (row : List ℝ) : Except Err (List ℝ) :=
  match c with
  | none => .ok row
  | some c => absorb qr c row

/-- The mean of rows, column by column (`mean(axis=0)`); `n` columns. -/
noncomputable def meanRow (rows : List (List ℝ)) (j : Nat) : ℝ :=
  (rows.map fun r => r.getD j 0).sum / (rows.length : ℝ)

/-! ### `cr` and `cc` -/

/-- A row of `_get_free_crs_dmatrix(x, knots, cyclic)` (mgcv_cubic_splines.py:313-351). -/
noncomputable def freeRow (cyclic : Bool) (knots : List ℝ) (x : ℝ) : Except Err (List ℝ) :=
  if cyclic then (cyclicRow (knots.length - 1) (fun i => knots.getD i 0) x).map List.ofFn
  else (naturalRow (knots.length - 2) (fun i => knots.getD i 0) x).map List.ofFn

/-- The arguments of `cr` and `cc` besides the data. -/
structure CrArgs where
  df : Option Int
  knots : Option (List ℝ)
  lower : Option ℝ
  upper : Option ℝ
  constraints : Constraints

/-- What a `CubicRegressionSpline` remembers. -/
structure CrState where
  knots : List ℝ
  constraints : Option Cons

/-- The number of constraints (mgcv_cubic_splines.py:642-653). -/
def countConstraints : Constraints → Except Err Int
  | .none => .ok 0
  | .center => .ok 1
  | .array rows _ _ => .ok rows
  | .manyDims => .error .valueError

/-- The number of inner knots (mgcv_cubic_splines.py:655-667). -/
def countInner (cyclic : Bool) (nc : Int) : Option Int → Except Err (Option Int)
  | none => .ok none
  | some df =>
    if df < (if !cyclic && decide (nc = 0) then 2 else 1) then .error .valueError
    else .ok (some (df - 2 + nc + if cyclic then 1 else 0))

/-- The number of columns without constraints (mgcv_cubic_splines.py:682-684). -/
def dfBefore (cyclic : Bool) (knots : List ℝ) : Nat := if cyclic then knots.length - 1 else knots.length

/-- The constraints that are remembered (mgcv_cubic_splines.py:675-690; for `'center'`
the means of the columns, mgcv_cubic_splines.py:540-552).  The mean over no data is zero here (NaN in
NumPy). -/
noncomputable def finishConstraints (cyclic : Bool) (knots x : List ℝ) : Constraints → Except Err (Option Cons)
  | .none => .ok none
  | .center => do
    let rows ← x.mapM (freeRow cyclic knots)
    pure (some ⟨1, dfBefore cyclic knots, fun _ j => meanRow rows j⟩)
  | .array rows cols entry =>
    if cols ≠ dfBefore cyclic knots then .error .valueError else .ok (some ⟨rows, cols, entry⟩)
  | .manyDims => .error .valueError

/-- `CubicRegressionSpline.memorize_finish` (mgcv_cubic_splines.py:632-690), given the concatenated data. -/
noncomputable def crFinish (cyclic : Bool) (args : CrArgs) (x : List ℝ) : Except Err CrState :=
  if args.df.isNone && args.knots.isNone then .error .valueError
  else do
    let nc ← countConstraints args.constraints
    let n ← countInner cyclic nc args.df
    let knots ← getAllSortedKnots x n args.knots args.lower args.upper
    let cons ← finishConstraints cyclic knots x args.constraints
    pure ⟨knots, cons⟩

/-- `self._tmp` of `CubicRegressionSpline` and `BS`. -/
structure Tmp (A : Type) where
  args : Option A
  xs : List (List ℝ)

/-- Before the first chunk. -/
def Tmp.init {A : Type} : Tmp A := ⟨none, []⟩

/-- `memorize_chunk` (mgcv_cubic_splines.py:604-630, splines.py:150-177). -/
def Tmp.memorizeChunk {A : Type} (t : Tmp A) (args : A) (x : List ℝ) : Tmp A := ⟨some args, t.xs ++ [x]⟩

/-- `memorize_finish` of either class: the arguments of the last chunk and all data. -/
def Tmp.finish {A S : Type} (fin : A → List ℝ → Except Err S) (t : Tmp A) : Except Err S :=
  match t.args with
  | none => .error .keyError
  | some args => fin args t.xs.flatten

/-- Memorizing chunks with the same arguments. -/
def memorizeChunks {A S : Type} (fin : A → List ℝ → Except Err S) (args : A) (chunks : List (List ℝ)) : Except Err S :=
  (chunks.foldl (fun t x => t.memorizeChunk args x) Tmp.init).finish fin

/-- A row of `CubicRegressionSpline.transform` (mgcv_cubic_splines.py:692-716). -/
noncomputable def crRow (qr : QR) (cyclic : Bool) (s : CrState) (x : ℝ) : Except Err (List ℝ) := do
  let row ← freeRow cyclic s.knots x
  absorbAny qr s.constraints row

/-- `CubicRegressionSpline.transform` (mgcv_cubic_splines.py:692-716), row by row. -/
noncomputable def crTransform (qr : QR) (cyclic : Bool) (s : CrState) (x : List ℝ) : Except Err (List (List ℝ)) :=
  x.mapM (crRow qr cyclic s)

/-! ### `bs` -/

/-- The arguments of `bs` besides the data. -/
structure BsArgs where
  df : Option Int
  knots : Option (List ℝ)
  degree : Int
  includeIntercept : Bool
  lower : Option ℝ
  upper : Option ℝ

/-- What a `BS` remembers. -/
structure BsState where
  degree : Nat
  knots : List ℝ

/-- The inner knots (splines.py:193-231).  A percentile of empty data fails. -/
noncomputable def bsInner (args : BsArgs) (x : List ℝ) : Except Err (List ℝ) :=
  match args.df with
  | none => match args.knots with
    | none => .error .valueError
    | some ks => .ok ks
  | some df =>
    let n := df - (args.degree + 1) + if args.includeIntercept then 0 else 1
    if n < 0 then .error .valueError
    else match args.knots with
      | some ks => if (ks.length : Int) ≠ n then .error .valueError else .ok ks
      | none =>
        if n ≠ 0 ∧ x = [] then .error .indexError else .ok ((fractions n.toNat).map (quantile x))

/-- `BS.memorize_finish` (splines.py:179-261), given the concatenated data. -/
noncomputable def bsFinish (args : BsArgs) (x : List ℝ) : Except Err BsState :=
  if args.degree < 0 then .error .valueError
  else do
    let inner ← bsInner args x
    let l ← bound args.lower x.min?
    let u ← bound args.upper x.max?
    if l > u then .error .valueError
    else if inner.any fun k => decide (k < l) then .error .valueError
    else if inner.any fun k => decide (k > u) then .error .valueError
    else pure ⟨args.degree.toNat,
      sorted ((List.replicate (args.degree.toNat + 1) [l, u]).flatten ++ inner)⟩

/-- `scipy.interpolate.splev(x, (knots, coefs, degree))`. -/
abbrev Splev := ℝ → List ℝ → (Nat → ℝ) → Nat → ℝ

/-- A row of the array that `_eval_bspline_basis` returns (splines.py:57-63). -/
def basisRow (splev : Splev) (knots : List ℝ) (degree : Nat) (x : ℝ) : List ℝ :=
  (List.range (knots.length - (degree + 1))).map fun i => splev x knots (fun j => if j = i then 1 else 0) degree

/-- `_eval_bspline_basis` (splines.py:19-63): points outside of the knots are not supported; the minimum of no
points fails. -/
noncomputable def evalBasis (splev : Splev) (x : List ℝ) (knots : List ℝ) (degree : Nat) : Except Err (List (List ℝ)) := do
  let knots := sorted knots
  let lo ← bound none x.min?
  let hi ← bound none x.max?
  let kl ← bound none knots.min?
  let ku ← bound none knots.max?
  if lo < kl ∨ hi > ku then .error .notImplementedError
  else pure (x.map (basisRow splev knots degree))

/-- `BS.transform` (splines.py:263-280), row by row. -/
noncomputable def bsTransform (splev : Splev) (s : BsState) (includeIntercept : Bool) (x : List ℝ) :
    Except Err (List (List ℝ)) := do
  let basis ← evalBasis splev x s.knots s.degree
  pure (if includeIntercept then basis else basis.map (List.drop 1))

/-! ### `te` -/

/-- `self._tmp` of `TE`. -/
structure TeTmp where
  constraints : Option Constraints
  count : Nat
  sum : Option (List ℝ)

/-- Before the first chunk. -/
def TeTmp.init : TeTmp := ⟨none, 0, none⟩

/-- `self._tmp["sum"] += chunk_sum`, from zeros; arrays of different lengths do not fit (NumPy would repeat a single
column). -/
def addSum (old : Option (List ℝ)) (new : List ℝ) : Except Err (List ℝ) :=
  let old := old.getD (List.replicate new.length 0)
  if old.length ≠ new.length then .error .valueError else .ok (List.zipWith (· + ·) old new)

/-- The number of rows of the first argument. -/
def firstRows (args : List (Arr ℝ)) : Nat := (args.head?.map fun a => a.nrows).getD 0

/-- `TE.memorize_chunk` (mgcv_cubic_splines.py:952-971).  Arguments of one dimension are columns already. -/
def teMemorizeChunk (t : TeTmp) (constraints : Constraints) (args : List (Arr ℝ)) : Except Err TeTmp :=
  let c := t.constraints.getD constraints
  match c with
  | .center => do
    let tp ← rowTensorProduct args
    let s ← addSum t.sum (tp.map List.sum)
    pure ⟨some c, t.count + firstRows args, some s⟩
  | _ => .ok { t with constraints := some c }

/-- `TE.memorize_finish` (mgcv_cubic_splines.py:973-987). -/
noncomputable def teFinish (t : TeTmp) : Except Err (Option Cons) :=
  match t.constraints with
  | none => .error .keyError
  | some .none => .ok none
  | some .center => match t.sum with
    | none => .error .keyError
    | some s => .ok (some ⟨1, s.length, fun _ j => s.getD j 0 / (t.count : ℝ)⟩)
  | some (.array rows cols entry) => .ok (some ⟨rows, cols, entry⟩)
  | some .manyDims => .error .valueError

/-- Memorizing chunks with the same constraints. -/
noncomputable def teMemorize (constraints : Constraints) (chunks : List (List (Arr ℝ))) : Except Err (Option Cons) := do
  let t ← chunks.foldlM (fun t args => teMemorizeChunk t constraints args) TeTmp.init
  teFinish t

/-- The rows of a matrix that is given by its columns. -/
def rowsOf (n : Nat) (cols : List (List ℝ)) : List (List ℝ) := (List.range n).map fun i => cols.map fun c => c.getD i 0

/-- `TE.transform` (mgcv_cubic_splines.py:989-999), row by row. -/
noncomputable def teTransform (qr : QR) (c : Option Cons) (args : List (Arr ℝ)) : Except Err (List (List ℝ)) := do
  let tp ← rowTensorProduct args
  (rowsOf (firstRows args) tp).mapM (absorbAny qr c)

end Patsy.SplineTransform
