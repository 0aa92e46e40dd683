import Verif.Props.ModelSpace
import Verif.Spec.HighLevel
import Verif.Props.HighLevel
import Verif.Props.FormulaPowers

/-!
# What a model looks like on a data set

The type of each factor (`typeOf`, C14 and C47) says how its values are read: as rows of numbers, or as numbers of levels
(`categoricalToInt`, C25).  A row counts if no factor of the formula is missing in it.
-/

namespace Patsy.Spec

open Patsy.Build Patsy.Desc Patsy.Cat

variable {F D K : Type} [DecidableEq F]

/-- The numbers of columns of the numerical factors; the levels and contrasts of the others. -/
abbrev Types (F K : Type) := List (F × Nat) × List (F × List PyVal × Option (Contrast.Spec K))

/-- Row `r` of a factor that has the values `ev f`. -/
def factorCell (na : NAAction) (types : Types F K) (ev : F → Except Err (Seen K)) (r : Nat) (f : F) : Option (Cell K) :=
  match typeOf types f, ev f with
  | some (.numerical _), .ok s => s.rows[r]?.map .num
  | some (.categorical levels _), .ok s =>
    match categoricalToInt na levels s.value with
    | .ok codes => codes[r]?.map .code
    | .error _ => none
  | _, _ => none

/-- The rows among the first `n` in which none of the factors `fs` is missing. -/
def keptCells (na : NAAction) (isnan : K → Bool) (types : Types F K) (ev : F → Except Err (Seen K)) (fs : List F) (n : Nat) :
    List (F → Option (Cell K)) :=
  ((List.range n).filter fun r => fs.all fun f => (factorCell na types ev r f).all fun c => !cellMissing na isnan c).map
    (factorCell na types ev)

/-- The levels of a factor. -/
def levelsOf (types : Types F K) (f : F) : List PyVal :=
  match typeOf types f with
  | some (.categorical levels _) => levels
  | _ => []

/-- The number of levels of a factor. -/
def levelCount (types : Types F K) (f : F) : Nat := (levelsOf types f).length

/-- The data set has `n` rows: so many as every factor of the formula, or as the data frame if there are no factors. -/
def RowCount (na : NAAction) (types : Types F K) (ev : F → Except Err (Seen K)) (fs : List F)
    (dataIndex : Option (List Label)) (n : Nat) : Prop :=
  (∀ f ∈ fs, ∀ r, r < n ↔ (factorCell na types ev r f).isSome) ∧ (fs = [] → ∃ l, dataIndex = some l ∧ l.length = n)

/-- The codes of a `pandas.Categorical` are numbers of categories, or -1. -/
def CodesFit {H : Type} (P : Setting F D K H) : Prop :=
  ∀ fs eval, P.memorize fs = .ok eval → ∀ f d s cats codes, eval f d = .ok s → s.value = .raw (.pandas cats codes) →
    ∀ c ∈ codes, -1 ≤ c ∧ c < cats.length

/-- The contrasts of the categorical factors of the terms are bases (`GoodContrast`), as are those that come with patsy
(`builtin_good`, `poly_good`). -/
def GoodCodings [Field K] (default : Contrast.Spec K) (types : Types F K) (ts : List (Term F)) : Prop :=
  ∀ t ∈ ts, ∀ f ∈ t.factors, ∀ levels contrast, typeOf types f = some (.categorical levels contrast) →
    Props.GoodContrast default levels (contrast.getD .none)

/-- What `design_matrix_builders` learns from the data about the factors of a model: how they evaluate and what types they
have. -/
def Learned {H : Type} (P : Setting F D K H) (data : D) (m : ModelDesc F) (eval : F → D → Except Err (Seen K))
    (types : Types F K) : Prop :=
  P.memorize (P.visit (allFactors [m.lhs, m.rhs])) = .ok eval ∧
    examineTypes P.na P.order P.visit (fun f d => do pure (← eval f d).value) [data]
      (P.visit (allFactors [m.lhs, m.rhs])) = .ok types

/-- The terms are coded as they should: with good contrasts, and the hash function tells apart what it has to. -/
def WellCoded {H : Type} [Field K] (P : Setting F D K H) (types : Types F K) (ts : List (Term F)) : Prop :=
  GoodCodings P.default types ts ∧ Props.Separates P.hash (fun f => (dictGet types.1 f).isSome) (ts.map (·.factors))

/-- The rows of the data set that are kept for the model. -/
def modelRows {H : Type} (P : Setting F D K H) (isnan : K → Bool) (data : D) (m : ModelDesc F)
    (eval : F → D → Except Err (Seen K)) (types : Types F K) (n : Nat) : List (F → Option (Cell K)) :=
  keptCells P.na isnan types (fun f => eval f data) (allFactors [m.lhs, m.rhs]) n

/-- `v` is a vector of fitted values of the least squares problem with the given columns (`n` rows) and outcome `y`. -/
def Fitted [Field K] [LE K] (n : Nat) (cols : List (List K)) (y v : Fin n → K) : Prop :=
  v ∈ Submodule.span K (Set.range (columnVectors n cols)) ∧
    ∀ b : Fin cols.length → K, ∑ i, (y i - v i) ^ 2 ≤ ∑ i, (y i - ∑ j, b j * columnVectors n cols j i) ^ 2

end Patsy.Spec
