import Verif.Spec.Fit
import Verif.Spec.Program

/-!
# Predictions (specification for C60)

A model that was fitted on some rows is evaluated on other rows: the functions that the terms describe are defined on the
old and on the new rows together.
-/

namespace Patsy.Spec

open Patsy.Build Patsy.Desc Patsy.Cat

variable {F K : Type} [DecidableEq F]

/-- The linear combination of the columns of a matrix with `n` rows that has the coefficients `b`. -/
def weighted [Field K] (n : Nat) (cols : List (List K)) (b : Nat → K) : Fin n → K :=
  fun i => ∑ j : Fin cols.length, b j * columnVectors n cols j i

/-- The part of a function on old and new rows that belongs to the old ones. -/
def oldPart {A : Type} {rows rows' : List A} (v : Fin (rows ++ rows').length → K) : Fin rows.length → K :=
  fun i => v ⟨i, by rw [List.length_append]; omega⟩

/-- The part of a function on old and new rows that belongs to the new ones. -/
def newPart {A : Type} {rows rows' : List A} (v : Fin (rows ++ rows').length → K) : Fin rows'.length → K :=
  fun i => v ⟨rows.length + i, by rw [List.length_append]; omega⟩

/-- `v` is a sum of functions that the terms describe on the given rows. -/
def ModelFunction [Field K] (types : Types F K) (ts : List (Term F)) (rows : List (F → Option (Cell K)))
    (v : Fin rows.length → K) : Prop :=
  v ∈ Submodule.span K (⋃ u ∈ ts, termFunctions types.1 rows u)

/-- The matrices with columns `cols` on the old rows and `cols'` on the new rows belong to the same model: with the same
coefficients, they give on the old and the new rows together exactly the functions of the model. -/
def Extends [Field K] (types : Types F K) (ts : List (Term F)) (rows rows' : List (F → Option (Cell K)))
    (cols cols' : List (List K)) : Prop :=
  ∀ v : Fin (rows ++ rows').length → K, ModelFunction types ts (rows ++ rows') v ↔
    ∃ b, oldPart v = weighted rows.length cols b ∧ newPart v = weighted rows'.length cols' b

end Patsy.Spec

namespace Patsy.Program

open Patsy.Spec Patsy.Build Patsy.Desc Patsy.Cat

variable {D V A S K H : Type}

/-- The value of a factor on further data: the stateful transforms that it calls use what they remember, `σ f k` for the
`k`-th call in the code of `f`. -/
def Interp.remembered (I : Interp D V A S K H) (σ : String → Nat → S) (data : D) (f : String) : Except Err (Seen K) :=
  (valueWith I.python I.classOf (σ f) (I.expression f) data).map I.see

/-- The stateful transforms in the factors of a model remember the arguments of their calls on the given data. -/
def Trained (I : Interp D V A S K H) (data : D) (m : ModelDesc String) (σ : String → Nat → S) : Prop :=
  ∀ f ∈ allFactors [m.lhs, m.rhs], Remembers I.python I.classOf [data] (I.expression f) (σ f)

/-- What the matrix `new` of data `data'` has to do with the matrix `old` of the data that the model was made from.  It has a
row for every row of the new data in which no factor of the right-hand side is missing, where the factors have the types of
the old data and the transforms use what they remember of the old data; and the two matrices belong to the same model. -/
def Predicts [Field K] (I : Interp D V A S K H) (isnan : K → Bool) (data : D) (m : ModelDesc String)
    (types : Types String K) (n : Nat) (σ : String → Nat → S) (na : NAAction) (dataIndex' : Option (List Build.Label))
    (data' : D) (old new : Mat K) : Prop :=
  ∃ n', RowCount na types (I.remembered σ data') (allFactors [m.rhs]) dataIndex' n' ∧
    new.nrows = (keptCells na isnan types (I.remembered σ data') (allFactors [m.rhs]) n').length ∧
    (GoodCodings I.default types m.rhs → old.cols.length = new.cols.length ∧
      Extends types m.rhs (completeRows I isnan data m types n)
        (keptCells na isnan types (I.remembered σ data') (allFactors [m.rhs]) n') old.cols new.cols)

end Patsy.Program
