import Mathlib.Data.List.Sort
import Mathlib.Data.Rat.Defs
import Mathlib.Algebra.Order.Ring.Unbundled.Rat
import Verif.Model.Err
import Verif.Model.Missing

/-!
# Model of `patsy/categorical.py`, of `NAAction.is_categorical_NA` and of `SortAnythingKey`

Data are lists of Python scalars.
-/

namespace Patsy.Cat

open Patsy.Build (NAAction)

/-- The Python objects that may occur in categorical data.  `npBool` is `numpy.bool_` (for which
`value is True` is false); `float` is a finite float, by its exact value; each NaN is an object
with an identity; `unhashable` stands for lists, dictionaries and the like.  Infinite floats,
complex numbers, tuples and instances of other classes are not modelled. -/
inductive PyVal where
  | none
  | bool (b : Bool)
  | npBool (b : Bool)
  | int (i : Int)
  | float (q : ℚ)
  | nan (id : Nat)
  | str (s : String)
  | unhashable (id : Nat)
  deriving DecidableEq

/-- What an object is for a set or a dictionary: objects that are equal (`True == 1 == 1.0`) or
identical have the same key. -/
inductive Key where
  | none
  | num (q : ℚ)
  | nan (id : Nat)
  | str (s : String)
  deriving DecidableEq

/-- The numerical value of a bool. -/
def boolNum (b : Bool) : ℚ := if b then 1 else 0

/-- The key of an object, if it is hashable. -/
def PyVal.key : PyVal → Option Key
  | .none => some .none
  | .bool b => some (.num (boolNum b))
  | .npBool b => some (.num (boolNum b))
  | .int i => some (.num i)
  | .float q => some (.num q)
  | .nan id => some (.nan id)
  | .str s => some (.str s)
  | .unhashable _ => Option.none

/-- Characters without blanks at the ends. -/
def stripBlanks (l : List Char) : List Char :=
  ((l.dropWhile Char.isWhitespace).reverse.dropWhile Char.isWhitespace).reverse

/-- Strings that Python's `float` turns into NaN.  (Blanks are ASCII blanks; Python removes Unicode
blanks too.) -/
def isNanString (s : String) : Bool :=
  decide ((stripBlanks s.toList).map Char.toLower ∈ [['n', 'a', 'n'], ['+', 'n', 'a', 'n'], ['-', 'n', 'a', 'n']])

/-- Integers for which `float` raises an `OverflowError`: those that would be rounded to
`2 ^ 1024` or beyond. -/
def intOverflows (i : Int) : Bool := decide (2 ^ 1024 - 2 ^ 970 ≤ i.natAbs)

/-- `safe_scalar_isnan` (util.py:649-653).  The `OverflowError` that `float` raises for very large
integers is not among the exceptions caught. -/
def scalarIsNan : PyVal → Except Err Bool
  | .nan _ => .ok true
  | .str s => .ok (isNanString s)
  | .int i => if intOverflows i then .error .overflowError else .ok false
  | _ => .ok false

/-- `NAAction.is_categorical_NA` (missing.py:124-132). -/
def isCategoricalNA (na : NAAction) (v : PyVal) : Except Err Bool := do
  let isnan ← if na.nan then scalarIsNan v else .ok false
  .ok (isnan || (na.none && decide (v = .none)))

/-- The class of an array. -/
inductive Kind where
  | number | boolDtype | other
  deriving DecidableEq

/-- The value of a factor, apart from `C(...)`: a `pandas.Categorical` (or a series of that type) with
its categories and codes, or something array-like.  `boolDtype` means an object with a boolean
`dtype` attribute; `number` means that `numpy.asarray` gives a number dtype.  For `ndim ≤ 1` the
values are listed (a scalar is a list of length one, categorical.py:169-170); for more dimensions
only the number of columns matters. -/
inductive Raw where
  | pandas (cats : List PyVal) (codes : List Int)
  | array (kind : Kind) (ndim ncols : Nat) (vals : List PyVal)

/-- The value of a factor: raw data, or a `_CategoricalBox` (categorical.py:61-67). -/
inductive CatValue (Cn : Type) where
  | raw (r : Raw)
  | box (r : Raw) (contrast : Option Cn) (levels : Option (List PyVal))

variable {Cn : Type}

/-- `C` (categorical.py:69-107). -/
def mkC (d : CatValue Cn) (contrast : Option Cn) (levels : Option (List PyVal)) : CatValue Cn :=
  match d with
  | .raw r => .box r contrast levels
  | .box r c l => .box r (contrast.or c) (levels.or l)

/-- `guess_categorical` (categorical.py:132-140). -/
def guessCategorical : CatValue Cn → Bool
  | .raw (.pandas _ _) => true
  | .box _ _ _ => true
  | .raw (.array .number _ _ _) => false
  | .raw (.array _ _ _ _) => true

/-- Membership in a set. -/
def hasKey (set : List PyVal) (k : Key) : Bool := set.any fun v => decide (v.key = some k)

/-- `set.add` with the error of categorical.py:219-226.  A set is represented by its elements in
order of insertion. -/
def addLevel (set : List PyVal) (v : PyVal) : Except Err (List PyVal) :=
  match v.key with
  | none => .error .patsyError
  | some k => .ok (if hasKey set k then set else set ++ [v])

/-- One value in the loop of `sniff` (categorical.py:213-226). -/
def sniffValue (na : NAAction) (set : List PyVal) (v : PyVal) : Except Err (List PyVal) := do
  let isNA ← isCategoricalNA na v
  if isNA then .ok set
  else match v with
    | .bool _ => do
      let s ← addLevel set (.bool true)
      addLevel s (.bool false)
    | _ => addLevel set v

/-- `self._level_set == set([True, False])` (categorical.py:229). -/
def isBoolSet (set : List PyVal) : Bool :=
  decide (set.length = 2) && hasKey set (.num 1) && hasKey set (.num 0)

/-- The attributes of a `CategoricalSniffer` (categorical.py:175-180). -/
structure Sniffer (Cn : Type) where
  contrast : Option Cn := none
  levels : Option (List PyVal) := none
  levelSet : List PyVal := []

/-- `sniff` after unboxing (categorical.py:199-229). -/
def Sniffer.sniffRaw (na : NAAction) (s : Sniffer Cn) : Raw → Except Err (Sniffer Cn × Bool)
  | .pandas cats _ => .ok ({ s with levels := some cats }, true)
  | .array kind ndim _ vals =>
    if kind = .boolDtype then .ok ({ s with levelSet := [.bool true, .bool false] }, true)
    else if 1 < ndim then .error .patsyError
    else do
      let set ← vals.foldlM (sniffValue na) s.levelSet
      .ok ({ s with levelSet := set }, isBoolSet set)

/-- `CategoricalSniffer.sniff` (categorical.py:189-229). -/
def Sniffer.sniff (na : NAAction) (s : Sniffer Cn) : CatValue Cn → Except Err (Sniffer Cn × Bool)
  | .raw r => s.sniffRaw na r
  | .box r c (some l) => .ok ({ s with contrast := c, levels := some l }, true)
  | .box r c none => { s with contrast := c }.sniffRaw na r

/-! ### Sorting -/

/-- The numerical value of a number other than NaN. -/
def PyVal.numVal : PyVal → Option ℚ
  | .bool b => some (boolNum b)
  | .npBool b => some (boolNum b)
  | .int i => some i
  | .float q => some q
  | _ => Option.none

/-- Is it a number (including NaN)? -/
def PyVal.isNumber : PyVal → Bool
  | .nan _ => true
  | v => v.numVal.isSome

/-- `a < b`, where `none` means that Python raises a `TypeError` (util.py:586-596); a comparison with
NaN is false. -/
def pythonLt (a b : PyVal) : Option Bool :=
  match a, b with
  | .str s, .str t => some (decide (s < t))
  | _, _ =>
    if a.isNumber && b.isNumber then
      match a.numVal, b.numVal with
      | some x, some y => some (decide (x < y))
      | _, _ => some false
    else none

/-- `obj.__class__.__name__`, as far as it is needed. -/
def className : PyVal → String
  | .none => "NoneType"
  | .str _ => "str"
  | _ => "other"

/-- `SortAnythingKey.__lt__` (util.py:598-617).  The memory position, the last criterion, is not
modelled: unequal objects of the same class are comparable here. -/
def sortLt (a b : PyVal) : Bool :=
  match pythonLt a b with
  | some r => r
  | none =>
    if (pythonLt a (.int 0)).isSome then true
    else if (pythonLt b (.int 0)).isSome then false
    else if a.key = b.key then false
    else decide (className a < className b)

/-- `list.sort(key=SortAnythingKey)`, a stable sort. -/
def sortAnything (l : List PyVal) : List PyVal := l.insertionSort fun a b => sortLt b a = false

/-- `levels_contrast` (categorical.py:182-187).  `order` is the order in which Python enumerates the
set. -/
def Sniffer.levelsContrast (order : List PyVal → List PyVal) (s : Sniffer Cn) :
    List PyVal × Option Cn :=
  (match s.levels with
    | some l => l
    | none => sortAnything (order s.levelSet), s.contrast)

/-! ### `_examine_factor_types` -/

/-- The type of a factor. -/
inductive FactorType (Cn : Type) where
  | numerical (ncols : Nat)
  | categorical (levels : List PyVal) (contrast : Option Cn)

/-- `_examine_factor_types` (build.py:485-511) for one factor with the given values in successive chunks
(the factors are examined independently of each other; a factor that is done is not looked at
again).  Without chunks nothing is found out. -/
def examineFactor (na : NAAction) (order : List PyVal → List PyVal) :
    Option (Sniffer Cn) → List (CatValue Cn) → Except Err (Option (FactorType Cn))
  | none, [] => .ok none
  | some s, [] =>
    let r := s.levelsContrast order
    .ok (some (.categorical r.1 r.2))
  | st, v :: vs =>
    match st, v with
    | none, .raw (.array .number ndim ncols _) =>
      if 2 < ndim then .error .patsyError
      else .ok (some (.numerical (if ndim = 2 then ncols else 1)))
    | st, v =>
      match (st.getD {}).sniff na v with
      | .error e => .error e
      | .ok (s, true) =>
        let r := s.levelsContrast order
        .ok (some (.categorical r.1 r.2))
      | .ok (s, false) => examineFactor na order (some s) vs

/-! ### `categorical_to_int` -/

/-- `dict(zip(levels, range(len(levels))))` (categorical.py:350-355): an entry for an equal key
is overwritten. -/
def levelDict : Nat → List PyVal → Except Err (List (Key × Nat))
  | _, [] => .ok []
  | i, v :: vs =>
    match v.key with
    | none => .error .patsyError
    | some k => do
      let r ← levelDict (i + 1) vs
      .ok (if r.any (fun p => decide (p.1 = k)) then r else (k, i) :: r)

/-- `level_to_int[...]`. -/
def lookupKey (d : List (Key × Nat)) (k : Key) : Option Nat := (d.find? fun p => decide (p.1 = k)).map (·.2)

/-- One value in the loop (categorical.py:366-393). -/
def valueToInt (na : NAAction) (d : List (Key × Nat)) (v : PyVal) : Except Err Int := do
  let isNA ← isCategoricalNA na v
  if isNA then .ok (-1)
  else match v.key with
    | none => .error .patsyError
    | some k => match lookupKey d k with
      | none => .error .patsyError
      | some i => .ok (i : Int)

/-- `data.astype(np.int_)` for a boolean array. -/
def boolToInt : PyVal → Int
  | .bool true => 1
  | .npBool true => 1
  | _ => 0

/-- The part of `categorical_to_int` for array-like data (categorical.py:348-396). -/
def arrayToInt (na : NAAction) (levels : List PyVal) (kind : Kind) (ndim : Nat) (vals : List PyVal) :
    Except Err (List Int) :=
  if 1 < ndim then .error .patsyError
  else do
    let d ← levelDict 0 levels
    if kind = .boolDtype then
      match lookupKey d (.num 0) with
      | none => .error .keyError
      | some 0 =>
        match lookupKey d (.num 1) with
        | none => .error .keyError
        | some 1 => .ok (vals.map boolToInt)
        | some _ => vals.mapM (valueToInt na d)
      | some _ => vals.mapM (valueToInt na d)
    else vals.mapM (valueToInt na d)

/-- `==` of tuples of scalars: elements are compared by identity, then by equality, as in
dictionaries. -/
def sameLevels (a b : List PyVal) : Bool := decide (a.map PyVal.key = b.map PyVal.key)

/-- The values that iterating over a `pandas.Categorical` yields. -/
def pandasValues (cats : List PyVal) (codes : List Int) : List PyVal :=
  codes.map fun c => if c < 0 then .nan 0 else cats[c.toNat]?.getD (.nan 0)

/-- `categorical_to_int` (categorical.py:327-396).  A `pandas.Categorical` in a box is treated as
array-like data. -/
def categoricalToInt (na : NAAction) (levels : List PyVal) : CatValue Cn → Except Err (List Int)
  | .raw (.pandas cats codes) => if sameLevels cats levels then .ok codes else .error .patsyError
  | .raw (.array kind ndim _ vals) => arrayToInt na levels kind ndim vals
  | .box r _ l =>
    if (match l with | some l => !sameLevels l levels | none => false) then .error .patsyError
    else match r with
      | .pandas cats codes => arrayToInt na levels .other 1 (pandasValues cats codes)
      | .array kind ndim _ vals => arrayToInt na levels kind ndim vals

end Patsy.Cat
