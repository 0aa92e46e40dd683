import Verif.Spec.CompleteCases

/-!
# Designs made alone and designs made together with others
-/

namespace Patsy.Spec

open Patsy.Build

variable {F D K : Type} [DecidableEq F]

/-- When the factors `gs` can be memorised together, then the factors `fs` can be memorised without the others, and
evaluate to the same values: what a factor remembers does not depend on the other factors. -/
def MemorisedApart {H : Type} (P : Setting F D K H) (gs fs : List F) : Prop :=
  ∀ eval', P.memorize gs = .ok eval' → ∃ eval, P.memorize fs = .ok eval ∧ ∀ f ∈ fs, eval f = eval' f

/-- The designs have the same columns, with the same names in the same order, the same terms and slices, and give the
same matrices on all data. -/
structure Interchangeable [Mul K] [One K] (d d' : DesignInfo F D K) : Prop where
  columns : d.columnIndexes = d'.columnIndexes
  terms : d.termSlices = d'.termSlices
  names : d.termNameSlices = d'.termNameSlices
  matrices : ∀ isnan na frame dataIndex data,
    buildDesignMatrices isnan na frame dataIndex [d] data = buildDesignMatrices isnan na frame dataIndex [d'] data

/-- The matrix `m'` has the rows `ks` of the matrix `m`, in the same order. -/
structure RowsOf (ks : List Nat) (m m' : Mat K) : Prop where
  increasing : ks.Pairwise (· < ·)
  inside : ∀ k ∈ ks, k < m.nrows
  rows : m'.nrows = ks.length
  cols : List.Forall₂ (Picked m.nrows ks) m.cols m'.cols

end Patsy.Spec
