import Verif.Model.Categorical
import Verif.Model.Contrasts
import Verif.Model.Setup

/-!
# Model of `_examine_factor_types` and `design_matrix_builders` (`patsy/build.py`)

`D` is the type of data objects (chunks).  Python sets are lists without duplicates; `visit` turns the elements of a set
into the list that a loop goes through.
-/

namespace Patsy.Build

open Patsy.Desc Patsy.Redundancy Patsy.Cat

variable {F D K Cn : Type} [DecidableEq F]

/-! ### `_examine_factor_types` -/

/-- The local variables `num_column_counts`, `cat_sniffers` and `examine_needed` (build.py:486-488). -/
structure Exam (F Cn : Type) where
  nums : List (F × Nat)
  sniffers : List (F × Sniffer Cn)
  needed : List F

/-- The numerical case (build.py:498-504): the number of columns.  `guess_categorical` leaves only arrays of numbers. -/
def countColumns : CatValue Cn → Except Err Nat
  | .raw (.array _ ndim ncols _) =>
    if 2 < ndim then .error .patsyError else .ok (if ndim = 2 then ncols else 1)
  | _ => .error .assertionError

/-- One factor on one chunk (build.py:491-504). -/
def examineOne (na : NAAction) (eval : F → D → Except Err (CatValue Cn)) (data : D) (s : Exam F Cn) (f : F) :
    Except Err (Exam F Cn) := do
  let v ← eval f data
  if (dictGet s.sniffers f).isSome || guessCategorical v then do
    let r ← ((dictGet s.sniffers f).getD {}).sniff na v
    pure ⟨s.nums, dictSet (fun a b => decide (a = b)) s.sniffers f r.1,
      if r.2 then s.needed.erase f else s.needed⟩
  else do
    let n ← countColumns v
    pure ⟨dictSet (fun a b => decide (a = b)) s.nums f n, s.sniffers, s.needed.erase f⟩

/-- The loop over the data (build.py:489-506). -/
def examineLoop (na : NAAction) (visit : List F → List F) (eval : F → D → Except Err (CatValue Cn)) :
    List D → Exam F Cn → Except Err (Exam F Cn)
  | [], s => .ok s
  | d :: ds, s => do
    let s' ← (visit s.needed).foldlM (examineOne na eval d) s
    if s'.needed.isEmpty then pure s' else examineLoop na visit eval ds s'

/-- `_examine_factor_types` (build.py:485-511): `num_column_counts` and `cat_levels_contrasts`.  `order` is the order in
which the set of levels is traversed. -/
def examineTypes (na : NAAction) (order : List PyVal → List PyVal) (visit : List F → List F)
    (eval : F → D → Except Err (CatValue Cn)) (chunks : List D) (factors : List F) :
    Except Err (List (F × Nat) × List (F × List PyVal × Option Cn)) := do
  let s ← examineLoop na visit eval chunks ⟨[], [], factors⟩
  pure (s.nums, s.sniffers.map fun p => (p.1, p.2.levelsContrast order))

/-! ### `design_matrix_builders` -/

/-- The value of a factor on a data object: what kind of value it is; the rows of the two-dimensional array that
`atleast_2d_column_default` makes of it if it consists of numbers; the index if it is a pandas object. -/
structure Seen (K : Type) where
  value : CatValue (Contrast.Spec K)
  rows : List (List K)
  index : Option (List Label)

/-- The numerical part of `_eval_factor` (build.py:70-86) up to the comparison of the number of columns, which is in
`evalFactor`.  Anything but an array of numbers is a `PatsyError`; a `pandas.Categorical` of numbers, which pandas may
convert, is counted among these. -/
def numericValue (s : Seen K) : Except Err (Value K × Option (List Label)) :=
  match s.value with
  | .raw (.array .number ndim ncols _) =>
    if 2 < ndim then .error .patsyError else .ok (.num (if ndim = 2 then ncols else 1) s.rows, s.index)
  | _ => .error .patsyError

/-- The categorical part of `_eval_factor` (build.py:88-94). -/
def categoricalValue (na : NAAction) (levels : List PyVal) (s : Seen K) :
    Except Err (Value K × Option (List Label)) := do
  let codes ← categoricalToInt na levels s.value
  pure (.cat codes, s.index)

/-- One round of the loop that makes the `FactorInfo`s (build.py:752-771).  Only the `NA_types` of the `NA_action`
that is given when the factor is evaluated matter. -/
def factorInfo (eval : F → D → Except Err (Seen K)) (nums : List (F × Nat))
    (cats : List (F × List PyVal × Option (Contrast.Spec K))) (uid : Nat) (f : F) : Except Err (FactorInfo F D K) :=
  match dictGet nums f with
  | some n => .ok ⟨uid, f, .numerical n, fun _ d => do numericValue (← eval f d)⟩
  | none =>
    match dictGet cats f with
    | none => .error .assertionError
    | some lc => .ok ⟨uid, f, .categorical lc.1.length, fun ty d => do categoricalValue ⟨.drop, ty.nan, ty.none⟩ lc.1 (← eval f d)⟩

/-- `code_contrast_matrix(full, levels, contrast, default=Treatment)` (build.py:677-682). -/
def coderOf (default : Contrast.Spec K) (cats : List (F × List PyVal × Option (Contrast.Spec K))) (f : F)
    (full : Bool) : Except Err (ContrastMatrix K) :=
  match dictGet cats f with
  | none => .error .keyError
  | some lc => Contrast.codeContrastMatrix full lc.1 (lc.2.getD .none) default

/-- The set of all factors (build.py:739-742). -/
def allFactors (termlists : List (List (Term F))) : List F :=
  (termlists.flatMap fun l => l.flatMap (·.factors)).dedup

/-- What `design_matrix_builders` is given from outside.  `memorize fs` is `_factors_memorize` for the set of factors
`fs` (modelled in `Model/Memorize.lean` and, for the factors of formulas, in `Model/EvalFactor.lean`): it may fail, and
otherwise says how the factors evaluate from then on. -/
structure Setting (F D K : Type) (H : Type) where
  name : F → String
  hash : Subterm F → H
  visit : List F → List F
  order : List PyVal → List PyVal
  default : Contrast.Spec K
  na : NAAction
  memorize : List F → Except Err (F → D → Except Err (Seen K))

/-- `design_matrix_builders` (build.py:693-796). -/
def designMatrixBuilders {H : Type} [DecidableEq H] (P : Setting F D K H) (chunks : List D)
    (termlists : List (List (Term F))) : Except Err (List (DesignInfo F D K)) := do
  let factors := P.visit (allFactors termlists)
  let eval ← P.memorize factors
  let types ← examineTypes P.na P.order P.visit (fun f d => do pure (← eval f d).value) chunks factors
  let infos ← factors.zipIdx.mapM fun fi => do
    let info ← factorInfo eval types.1 types.2 fi.2 fi.1
    pure (fi.1, info)
  termlists.mapM (makeDesign P.name P.hash types.1 (coderOf P.default types.2) infos)

end Patsy.Build
