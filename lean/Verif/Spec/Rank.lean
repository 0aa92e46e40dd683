import Mathlib.LinearAlgebra.LinearIndependent.Defs
import Mathlib.LinearAlgebra.Span.Defs
import Mathlib.Algebra.BigOperators.Group.Finset.Basic
import Mathlib.Algebra.Field.Defs
import Verif.Spec.Build

/-!
# The space of functions that a list of terms describes

A term with the numerical factors `x, y, ...` and the categorical factors `a, b, ...` describes the functions
`x_i * y_j * ... * φ(a, b, ...)`: a product of one column of each numerical factor times any function of the levels of the
categorical factors (doc/formulas.rst, section "Redundancy and categorical factors").
-/

namespace Patsy.Spec

open Patsy.Build Patsy.Desc

variable {F K : Type} [DecidableEq F] [Field K]

/-- The level of a categorical factor in a row. -/
def levelAt (cells : F → Option (Cell K)) (f : F) : Nat :=
  match cells f with
  | some (.code c) => c.toNat
  | _ => 0

/-- Column `j` of a numerical factor in a row. -/
def numberAt (cells : F → Option (Cell K)) (f : F) (j : Nat) : K :=
  match cells f with
  | some (.num row) => row[j]?.getD 0
  | _ => 0

/-- A product of columns of numerical factors. -/
def monomial (cells : F → Option (Cell K)) (k : Finset (F × Nat)) : K := ∏ p ∈ k, numberAt cells p.1 p.2

/-- `k` chooses one column of each numerical factor of the term; `nums` has the numbers of their columns. -/
def MonomialOf (nums : List (F × Nat)) (t : Term F) (k : Finset (F × Nat)) : Prop :=
  ∃ j : F → Nat, (∀ f ∈ t.factors, ∀ m, dictGet nums f = some m → j f < m) ∧
    k = (t.factors.filter fun f => (dictGet nums f).isSome).toFinset.image fun f => (f, j f)

/-- `φ` has the same value in rows with the same levels of the factors `fs`. -/
def DependsOnly (rows : List (F → Option (Cell K))) (fs : List F) (φ : Fin rows.length → K) : Prop :=
  ∀ i i', (∀ f ∈ fs, levelAt rows[i] f = levelAt rows[i'] f) → φ i = φ i'

/-- The functions that a term describes. -/
def termFunctions (nums : List (F × Nat)) (rows : List (F → Option (Cell K))) (t : Term F) :
    Set (Fin rows.length → K) :=
  {v | ∃ k φ, MonomialOf nums t k ∧ DependsOnly rows (t.factors.filter fun f => (dictGet nums f).isNone) φ ∧
    ∀ i, v i = monomial rows[i] k * φ i}

/-- The columns of a matrix with `n` rows as vectors. -/
def columnVectors (n : Nat) (cols : List (List K)) (j : Fin cols.length) : Fin n → K :=
  fun i => cols[j][i]?.getD 0

/-- In the row, the categorical factors of the terms have the levels `g`. -/
def HasLevels (nums : List (F × Nat)) (ts : List (Term F)) (g : F → Nat) (cells : F → Option (Cell K)) : Prop :=
  ∀ t ∈ ts, ∀ f ∈ t.factors, dictGet nums f = none → levelAt cells f = g f

/-- `g` is a combination of levels, when the factor `f` has `n f` levels. -/
def Combination (nums : List (F × Nat)) (ts : List (Term F)) (n g : F → Nat) : Prop :=
  ∀ t ∈ ts, ∀ f ∈ t.factors, dictGet nums f = none → g f < n f

/-- The data are rich enough to tell all the functions apart: for every combination of levels, the products of numerical
columns that occur in the terms are linearly independent on the rows with these levels.  (Without numerical factors the
only product is the constant 1, and this means that every combination of levels occurs.) -/
def Rich (nums : List (F × Nat)) (ts : List (Term F)) (n : F → Nat) (rows : List (F → Option (Cell K))) : Prop :=
  ∀ g, Combination nums ts n g →
    LinearIndepOn K (fun (k : Finset (F × Nat)) (i : {i : Fin rows.length // HasLevels nums ts g rows[i]}) =>
      monomial rows[i.1] k) {k | ∃ t ∈ ts, MonomialOf nums t k}

end Patsy.Spec
