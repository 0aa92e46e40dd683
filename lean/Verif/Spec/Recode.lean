import Verif.Spec.Fit

/-!
# The same model in other variables

One data set, described by two sets of variables: other units, another origin, another basis of the same curves, other
names of the levels.
-/

namespace Patsy.Spec

open Patsy.Build Patsy.Desc

variable {F K : Type} [DecidableEq F]

/-- With every term, the terms cover it without the factor `f`: the numerical factor can be dropped from a term. -/
def Droppable (nums : List (F × Nat)) (ts : List (Term F)) (f : F) : Prop :=
  ∀ t ∈ ts, f ∈ t.factors → ∃ u ∈ ts, Props.Marginal nums ⟨t.factors.filter fun g => g ≠ f⟩ u

/-- Rows `row'` in the variables of the terms `ts'` can be computed from the rows `row` in the variables of the terms
`ts`.  The factor `f` takes the place of `τ f`: a level of a categorical factor is determined by the level of the other,
and a column of a numerical factor is a linear combination of the columns of the other; plus a constant, if the other can
be dropped from the terms. -/
structure Expressed [Field K] {n : Nat} (nums : List (F × Nat)) (ts : List (Term F)) (row : Fin n → F → Option (Cell K))
    (nums' : List (F × Nat)) (ts' : List (Term F)) (row' : Fin n → F → Option (Cell K)) (τ : F → F) : Prop where
  terms : ∀ t' ∈ ts', ∃ t ∈ ts, ∀ f, f ∈ t.factors ↔ ∃ f' ∈ t'.factors, τ f' = f
  distinct : ∀ t' ∈ ts', ∀ f ∈ t'.factors, ∀ g ∈ t'.factors, τ f = τ g → f = g
  kinds : ∀ t' ∈ ts', ∀ f ∈ t'.factors, (dictGet nums' f).isSome = (dictGet nums (τ f)).isSome
  levels : ∀ t' ∈ ts', ∀ f ∈ t'.factors, dictGet nums' f = none → ∀ i i',
    levelAt (row i) (τ f) = levelAt (row i') (τ f) → levelAt (row' i) f = levelAt (row' i') f
  columns : ∀ t' ∈ ts', ∀ f ∈ t'.factors, ∀ m m', dictGet nums (τ f) = some m → dictGet nums' f = some m' → ∀ j < m',
    ∃ (q : K) (a : Nat → K), (q ≠ 0 → Droppable nums ts (τ f)) ∧
      ∀ i, numberAt (row' i) f j = q + ∑ l ∈ Finset.range m, a l * numberAt (row i) (τ f) l

/-- The two descriptions say the same about the same rows: each can be computed from the other. -/
def Recoded [Field K] (nums : List (F × Nat)) (ts : List (Term F)) (rows : List (F → Option (Cell K)))
    (nums' : List (F × Nat)) (ts' : List (Term F)) (rows' : List (F → Option (Cell K))) : Prop :=
  ∃ (n : Nat) (row row' : Fin n → F → Option (Cell K)) (σ τ : F → F), rows = List.ofFn row ∧ rows' = List.ofFn row' ∧
    Expressed nums ts row nums' ts' row' τ ∧ Expressed nums' ts' row' nums ts row σ

/-- The second description can be computed from the first one. -/
def Computed [Field K] (nums : List (F × Nat)) (ts : List (Term F)) (rows : List (F → Option (Cell K)))
    (nums' : List (F × Nat)) (ts' : List (Term F)) (rows' : List (F → Option (Cell K))) : Prop :=
  ∃ (n : Nat) (row row' : Fin n → F → Option (Cell K)) (τ : F → F), rows = List.ofFn row ∧ rows' = List.ofFn row' ∧
    Expressed nums ts row nums' ts' row' τ

end Patsy.Spec
