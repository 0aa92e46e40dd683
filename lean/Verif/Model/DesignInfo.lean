import Verif.Model.Describe

/-!
# Model of `patsy/design_info.py`: the containers and the bookkeeping of `DesignInfo`

`F` is the type of factors (with Python equality decided by `DecidableEq`), `K` the
type of matrix entries, `D` the type of data objects.  Python dictionaries are
association lists in insertion order; a key is looked up with the equality of its
type.
-/

namespace Patsy.Build

open Patsy.Desc

/-- Labels of a pandas index: the default `np.arange` labels and all others. -/
inductive Label where
  | row (n : Nat)
  | other (s : String)
  deriving DecidableEq, Repr

/-- The arrays that `build_design_matrices` handles (build.py:957-966): a 2-d array of
numbers, given by its number of columns and the list of its rows, a 1-d array of
category codes, or a pandas index. -/
inductive Value (K : Type) where
  | num (ncols : Nat) (rows : List (List K))
  | cat (codes : List Int)
  | labels (ls : List Label)
  deriving DecidableEq, Repr

/-- `value.shape[0]`. -/
def Value.nrows {K : Type} : Value K → Nat
  | .num _ rows => rows.length
  | .cat codes => codes.length
  | .labels ls => ls.length

/-- `ContrastMatrix` (contrasts.py:22-49).  `matrix` is the list of rows, `ncols` is
`matrix.shape[1]`. -/
structure ContrastMatrix (K : Type) where
  matrix : List (List K)
  ncols : Nat
  suffixes : List String
  deriving DecidableEq, Repr

/-- `ContrastMatrix.__init__` (contrasts.py:41-45). -/
def ContrastMatrix.make {K : Type} (matrix : List (List K)) (ncols : Nat)
    (suffixes : List String) : Except Err (ContrastMatrix K) :=
  if ncols ≠ suffixes.length then .error .patsyError else .ok ⟨matrix, ncols, suffixes⟩

/-- The `type`, `num_columns` and `categories` attributes of a `FactorInfo`
(design_info.py:76-102); of the categories only their number matters here. -/
inductive FType where
  | numerical (numColumns : Nat)
  | categorical (numCategories : Nat)
  deriving DecidableEq, Repr

/-- The `NA_types` of an `NAAction` (missing.py:114-121): are `"NaN"` and `"None"` among them? -/
structure NATypes where
  nan : Bool
  none : Bool
  deriving DecidableEq, Repr

/-- `FactorInfo` (design_info.py:42-102).  `uid` is the identity of the object (the
class defines no equality, so `is`, `==` and dictionary keys all go by identity).
`eval` is `factor.eval(state, ·)` followed by `atleast_2d_column_default` for a numerical
factor (result `Value.num`) and by `categorical_to_int` for a categorical one (result
`Value.cat`), together with the pandas index of the result, if it has one.  Which scalars count as missing when a
categorical factor is evaluated is decided by the `NA_action` given to `build_design_matrices`. -/
structure FactorInfo (F D K : Type) where
  uid : Nat
  factor : F
  type : FType
  eval : NATypes → D → Except Err (Value K × Option (List Label))

/-- `SubtermInfo` (design_info.py:167-228). -/
structure SubtermInfo (F K : Type) where
  factors : List F
  contrasts : List (F × ContrastMatrix K)
  numColumns : Nat
  deriving DecidableEq, Repr

variable {F D K : Type} [DecidableEq F]

/-- `SubtermInfo.__init__` (design_info.py:212-228); the type checks of the arguments
are not modelled. -/
def SubtermInfo.make (factors : List F) (contrasts : List (F × ContrastMatrix K))
    (numColumns : Nat) : Except Err (SubtermInfo F K) :=
  if contrasts.any (fun p => decide (p.1 ∉ factors)) then .error .valueError
  else .ok ⟨factors, contrasts, numColumns⟩

/-- `Term.name` (desc.py:62-67). -/
def termName {F : Type} (name : F → String) (t : Term F) : String :=
  if t.factors.isEmpty then "Intercept" else ":".intercalate (t.factors.map name)

/-- Dictionary access with `==` on the keys. -/
def dictGet {A B : Type} [DecidableEq A] (d : List (A × B)) (a : A) : Option B :=
  (d.find? fun p => decide (p.1 = a)).map Prod.snd

/-- Access to a dictionary whose keys are `Term`s (desc.py:46-56: equal as sets). -/
def termGet {B : Type} (d : List (Term F × B)) (t : Term F) : Option B :=
  (d.find? fun p => Term.eqv p.1 t).map Prod.snd

/-- Dictionary assignment `d[a] = b`: an existing key keeps its place. -/
def dictSet {A B : Type} (eqv : A → A → Bool) : List (A × B) → A → B → List (A × B)
  | [], a, b => [(a, b)]
  | (a', b') :: d, a, b => if eqv a' a then (a', b) :: d else (a', b') :: dictSet eqv d a b

/-- `dict(pairs)` / repeated assignment. -/
def dictOf {A B : Type} (eqv : A → A → Bool) (l : List (A × B)) : List (A × B) :=
  l.foldl (fun d p => dictSet eqv d p.1 p.2) []

/-- Half-open column range, a Python `slice(start, stop)` with `0 ≤ start`. -/
structure Slice where
  start : Nat
  stop : Nat
  deriving DecidableEq, Repr

/-- Subscription of a list by a slice. -/
def Slice.select {A : Type} (s : Slice) (l : List A) : List A := (l.take s.stop).drop s.start

/-- The two dictionaries that describe how a design is coded. -/
structure Coding (F D K : Type) where
  factorInfos : List (F × FactorInfo F D K)
  termCodings : List (Term F × List (SubtermInfo F K))

/-- `DesignInfo` (design_info.py:266-401).  Construct with `DesignInfo.make`. -/
structure DesignInfo (F D K : Type) where
  columnIndexes : List (String × Nat)
  coding : Option (Coding F D K)
  termSlices : Option (List (Term F × Slice))
  termNameSlices : List (String × Slice)

/-- `DesignInfo.column_names` (design_info.py:414-417). -/
def DesignInfo.columnNames (d : DesignInfo F D K) : List String := d.columnIndexes.map Prod.fst

/-- Equality of two lists as sets. -/
def sameSet {A : Type} [DecidableEq A] (l m : List A) : Bool :=
  l.all (fun a => decide (a ∈ m)) && m.all (fun a => decide (a ∈ l))

/-- The loop over the factors of one subterm in `DesignInfo.__init__`
(design_info.py:325-340): expected number of columns and list of categorical factors. -/
def expectedColumns (fis : List (F × FactorInfo F D K)) (cms : List (F × ContrastMatrix K)) :
    List F → Except Err (Nat × List F)
  | [] => .ok (1, [])
  | f :: fs =>
    match dictGet fis f with
    | none => .error .keyError
    | some fi =>
      match fi.type with
      | .numerical n => do
        let r ← expectedColumns fis cms fs
        .ok (n * r.1, r.2)
      | .categorical k =>
        match dictGet cms f with
        | none => .error .keyError
        | some cm =>
          if cm.matrix.length ≠ k then .error .valueError
          else do
            let r ← expectedColumns fis cms fs
            .ok (cm.ncols * r.1, f :: r.2)

/-- The checks of one subterm (design_info.py:323-346). -/
def checkSubterm (fis : List (F × FactorInfo F D K)) (st : SubtermInfo F K) :
    Except Err Unit := do
  let r ← expectedColumns fis st.contrasts st.factors
  if sameSet r.2 (st.contrasts.map Prod.fst) = false then .error .valueError
  else if r.1 ≠ st.numColumns then .error .valueError
  else .ok ()

/-- `for x in l: check(x)`. -/
def forAll {A : Type} (check : A → Except Err Unit) : List A → Except Err Unit
  | [] => .ok ()
  | a :: l => do
    check a
    forAll check l

/-- The checks of the dictionaries (design_info.py:294-346), without the type checks of
the arguments. -/
def checkCoding (c : Coding F D K) : Except Err Unit := do
  forAll (fun (p : Term F × List (SubtermInfo F K)) =>
    forAll (fun (st : SubtermInfo F K) =>
      if st.factors.all (fun f => decide (f ∈ p.1.factors)) then .ok ()
      else .error .valueError) p.2) c.termCodings
  if sameSet (c.termCodings.flatMap fun p => p.1.factors) (c.factorInfos.map Prod.fst) = false then
    .error .valueError
  else do
    forAll (fun (p : F × FactorInfo F D K) =>
      if p.1 = p.2.factor then .ok () else .error .valueError) c.factorInfos
    forAll (fun (p : Term F × List (SubtermInfo F K)) => forAll (checkSubterm c.factorInfos) p.2)
      c.termCodings

/-- Number of columns of a term (design_info.py:360-362). -/
def termColumns (sts : List (SubtermInfo F K)) : Nat := (sts.map (·.numColumns)).sum

/-- The loop that lays out the slices (design_info.py:357-364), from column `idx` on.
The keys of `term_codings` are distinct, so the assignments just append. -/
def layout {A : Type} : Nat → List (A × Nat) → List (A × Slice)
  | _, [] => []
  | idx, (a, n) :: l => (a, ⟨idx, idx + n⟩) :: layout (idx + n) l

/-- The check that the slices are in order and cover everything
(design_info.py:388-394); with non-negative bounds `slice.indices(n)` clips both at `n`. -/
def checkCovered (n : Nat) : Nat → List Slice → Except Err Unit
  | covered, [] => if covered = n then .ok () else .error .assertionError
  | covered, s :: l =>
    if min s.start n ≠ covered then .error .assertionError
    else checkCovered n (min s.stop n) l

/-- `DesignInfo.__init__` (design_info.py:276-401). -/
def DesignInfo.make (name : F → String) (columnNames : List String)
    (coding : Option (Coding F D K)) : Except Err (DesignInfo F D K) := do
  let indexes := dictOf (fun a b => decide (a = b)) (columnNames.zip (List.range columnNames.length))
  match coding with
  | none =>
    let slices := layout 0 (columnNames.map fun c => (c, 1))
    let nameSlices := dictOf (fun a b => decide (a = b)) slices
    checkCovered columnNames.length 0 (nameSlices.map Prod.snd)
    finish indexes none none nameSlices
  | some c => do
    checkCoding c
    let slices := layout 0 (c.termCodings.map fun p => (p.1, termColumns p.2))
    let total := (c.termCodings.map fun p => termColumns p.2).sum
    if total ≠ indexes.length then .error .valueError
    else do
      let nameSlices := dictOf (fun a b => decide (a = b))
        (slices.map fun p => (termName name p.1, p.2))
      if slices.map Prod.snd ≠ nameSlices.map Prod.snd then .error .assertionError
      else do
        checkCovered columnNames.length 0 (nameSlices.map Prod.snd)
        finish indexes (some c) (some slices) nameSlices
where
  /-- The check for name collisions (design_info.py:397-401). -/
  finish (indexes : List (String × Nat)) (coding : Option (Coding F D K))
      (termSlices : Option (List (Term F × Slice))) (nameSlices : List (String × Slice)) :
      Except Err (DesignInfo F D K) := do
    forAll (fun (p : String × Nat) =>
      match dictGet nameSlices p.1 with
      | none => .ok ()
      | some s => if s = ⟨p.2, p.2 + 1⟩ then .ok () else .error .valueError) indexes
    .ok ⟨indexes, coding, termSlices, nameSlices⟩

/-- The argument of `DesignInfo.slice`. -/
inductive ColumnSpec (F : Type) where
  | slice (s : Slice)
  | index (i : Nat)
  | term (t : Term F)
  | name (s : String)

/-- `DesignInfo.slice` (design_info.py:493-504).  Only non-negative integers and slices
are modelled.  A string is never equal to a `Term` and conversely. -/
def DesignInfo.slice (d : DesignInfo F D K) : ColumnSpec F → Except Err Slice
  | .slice s => .ok s
  | .index i => .ok ⟨i, i + 1⟩
  | .term t =>
    match d.termSlices with
    | none => .error .patsyError
    | some ts =>
      match termGet ts t with
      | some s => .ok s
      | none => .error .patsyError
  | .name n =>
    match dictGet d.termNameSlices n with
    | some s => .ok s
    | none =>
      match dictGet d.columnIndexes n with
      | some i => .ok ⟨i, i + 1⟩
      | none => .error .patsyError

/-- An element of the list given to `DesignInfo.subset`. -/
inductive TermSpec (F : Type) where
  | name (s : String)
  | term (t : Term F)

/-- Dictionary access `d[k]` that lets the `KeyError` escape. -/
def orKeyError {A : Type} (o : Option A) : Except Err A :=
  match o with
  | some a => .ok a
  | none => .error .keyError

/-- `term_name_to_term.get(name_or_term, name_or_term)` (design_info.py:662-670);
`term_name_to_term` keeps the last term of a given name.  An unknown name stays a string,
which is never a key of `term_slices`. -/
def resolveTerm (name : F → String) (c : Coding F D K) (w : TermSpec F) : Except Err (Term F) :=
  match w with
  | .name n => orKeyError (dictGet (dictOf (fun a b => decide (a = b))
      (c.termCodings.map fun p => (termName name p.1, p.1))) n)
  | .term t => .ok t

/-- The loop of `DesignInfo.subset` for a full design (design_info.py:666-676). -/
def subsetLoop (name : F → String) (d : DesignInfo F D K) (c : Coding F D K)
    (ts : List (Term F × Slice)) :
    List (TermSpec F) → List String → List (F × FactorInfo F D K) →
      List (Term F × List (SubtermInfo F K)) →
      Except Err (List String × List (F × FactorInfo F D K) ×
        List (Term F × List (SubtermInfo F K)))
  | [], names, fis, tcs => .ok (names, fis, tcs)
  | w :: ws, names, fis, tcs => do
    let term ← resolveTerm name c w
    let s ← orKeyError (termGet ts term)
    let newFis ← term.factors.foldlM (fun acc f => do
      let fi ← orKeyError (dictGet c.factorInfos f)
      .ok (dictSet (fun a b => decide (a = b)) acc f fi)) fis
    let sts ← orKeyError (termGet c.termCodings term)
    subsetLoop name d c ts ws (names ++ s.select d.columnNames) newFis
      (dictSet Term.eqv tcs term sts)

/-- The loop of `DesignInfo.subset` for a design without coding
(design_info.py:654-659).  A `Term` is never a key of `term_name_slices`. -/
def subsetNames (d : DesignInfo F D K) : List (TermSpec F) → List String →
    Except Err (List String)
  | [], names => .ok names
  | .term _ :: _, _ => .error .keyError
  | .name n :: ws, names =>
    match dictGet d.termNameSlices n with
    | none => .error .keyError
    | some s => subsetNames d ws (names ++ s.select d.columnNames)

/-- `DesignInfo.subset` (design_info.py:648-681) for a list of term names and `Term`s.  A
formula string is first turned into the list of the names of its right-hand terms
(648-652), see `subsetFormula`. -/
def DesignInfo.subset (name : F → String) (d : DesignInfo F D K) (which : List (TermSpec F)) :
    Except Err (DesignInfo F D K) :=
  match d.coding, d.termSlices with
  | some c, some ts => do
    let r ← subsetLoop name d c ts which [] [] []
    DesignInfo.make name r.1 (some ⟨r.2.1, r.2.2⟩)
  | _, _ => do
    let names ← subsetNames d which []
    DesignInfo.make name names none

/-- The part of `DesignInfo.subset` that treats a formula (design_info.py:648-652), for
the parsed formula `desc`. -/
def DesignInfo.subsetFormula (name : F → String) (d : DesignInfo F D K) (desc : ModelDesc F) :
    Except Err (DesignInfo F D K) :=
  if desc.lhs ≠ [] then .error .patsyError
  else d.subset name (desc.rhs.map fun t => .name (termName name t))

end Patsy.Build
