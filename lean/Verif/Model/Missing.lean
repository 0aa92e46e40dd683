import Verif.Model.DesignInfo

/-!
# Model of `patsy/missing.py`

`isnan` is NumPy's `isnan` on matrix entries; it is a parameter.
-/

namespace Patsy.Build

variable {K : Type}

/-- The `on_NA` argument (missing.py:47, 90-116). -/
inductive OnNA where
  | drop
  | raise
  deriving DecidableEq, Repr

/-- `NAAction` (missing.py:54-188).  The flags say whether `"NaN"` and `"None"` are in
`NA_types`.  The constructor is in `Model/NAOptions.lean`. -/
structure NAAction where
  onNA : OnNA := .drop
  nan : Bool := true
  none : Bool := true
  deriving DecidableEq, Repr

/-- What counts as missing. -/
def NAAction.types (na : NAAction) : NATypes := ⟨na.nan, na.none⟩

/-- `NAAction.is_numerical_NA` (missing.py:134-144) on a 2-d array. -/
def NAAction.isNumericalNA (na : NAAction) (isnan : K → Bool) (rows : List (List K)) :
    List Bool :=
  rows.map fun r => na.nan && r.any isnan

/-- Boolean mask indexing `v[mask]`. -/
def maskSelect {A : Type} (l : List A) (mask : List Bool) : List A :=
  ((l.zip mask).filter Prod.snd).map Prod.fst

/-- `v[good_mask]` or `v[good_mask, ...]` (missing.py:186). -/
def Value.select (v : Value K) (mask : List Bool) : Value K :=
  match v with
  | .num n rows => .num n (maskSelect rows mask)
  | .cat codes => .cat (maskSelect codes mask)
  | .labels ls => .labels (maskSelect ls mask)

/-- `total_mask |= is_NA` for all masks (missing.py:181-183); the arrays have equal
lengths (`build_design_matrices` checks it before). -/
def totalMask (n : Nat) (isNAs : List (List Bool)) : List Bool :=
  isNAs.foldl (fun acc m => acc.zipWith (fun a b => a || b) m) (List.replicate n false)

/-- `NAAction._handle_NA_raise` (missing.py:174-178). -/
def handleRaise (values : List (Value K)) (isNAs : List (List Bool)) :
    Except Err (List (Value K)) :=
  if isNAs.any (fun m => m.any id) then .error .patsyError else .ok values

/-- `NAAction._handle_NA_drop` (missing.py:180-186). -/
def handleDrop (values : List (Value K)) (isNAs : List (List Bool)) : List (Value K) :=
  match isNAs with
  | [] => values
  | m :: _ =>
    let good := (totalMask m.length isNAs).map (fun b => !b)
    values.map fun v => v.select good

/-- `NAAction.handle_NA` (missing.py:146-172). -/
def NAAction.handleNA (na : NAAction) (values : List (Value K)) (isNAs : List (List Bool)) :
    Except Err (List (Value K)) :=
  if values.length ≠ isNAs.length then .error .assertionError
  else if values.isEmpty then .ok values
  else
    match na.onNA with
    | .raise => handleRaise values isNAs
    | .drop => .ok (handleDrop values isNAs)

end Patsy.Build
