import Verif.Model.SplineTransform

/-! # Vocabulary for the spline transforms -/

namespace Patsy.Spec

open Patsy.SplineTransform

/-- The lower end of the range of a spline: given by the user, or else the smallest datum. -/
def LowerEnd (given : Option ℝ) (x : List ℝ) (l : ℝ) : Prop :=
  given = some l ∨ given = none ∧ l ∈ x ∧ ∀ v ∈ x, l ≤ v

/-- The upper end of the range of a spline: given by the user, or else the largest datum. -/
def UpperEnd (given : Option ℝ) (x : List ℝ) (u : ℝ) : Prop :=
  given = some u ∨ given = none ∧ u ∈ x ∧ ∀ v ∈ x, v ≤ u

/-- The data between `l` and `u` allow for `n` distinct quantiles strictly between. -/
def RoomFor (n : Int) (x : List ℝ) (l u : ℝ) : Prop :=
  n = 0 ∨ (∃ a ∈ x, ∃ b ∈ x, l ≤ a ∧ a < b ∧ b ≤ u) ∨ n = 1 ∧ ∃ c ∈ x, l < c ∧ c < u

/-- What `scipy.linalg.qr` promises about its result `q` for the transpose of the constraints: `q` is orthogonal, and
the transpose is `q` times an upper triangular matrix `r`. -/
def IsQR (qr : QR) (c : Cons) : Prop :=
  (∀ i j, i < c.cols → j < c.cols → ∑ k ∈ Finset.range c.cols, qr c k i * qr c k j = if i = j then 1 else 0) ∧
  ∃ r : Nat → Nat → ℝ, (∀ i j, j < i → r i j = 0) ∧
    ∀ a k, a < c.rows → k < c.cols → c.entry a k = ∑ i ∈ Finset.range c.cols, qr c k i * r i a

/-- The coefficients satisfy the constraints. -/
def Satisfies (c : Cons) (β : Nat → ℝ) : Prop :=
  ∀ a, a < c.rows → ∑ k ∈ Finset.range c.cols, c.entry a k * β k = 0

/-- No constraint follows from the others. -/
def Independent (c : Cons) : Prop :=
  ∀ w : Nat → ℝ, (∀ k, k < c.cols → ∑ a ∈ Finset.range c.rows, w a * c.entry a k = 0) → ∀ a, a < c.rows → w a = 0

/-- A row times coefficients. -/
def combine (row : List ℝ) (β : Nat → ℝ) : ℝ := ∑ k ∈ Finset.range row.length, row.getD k 0 * β k

/-- The arguments of `te`: at least one matrix, each with `n` rows and at least one column. -/
def Tables (args : List (Tensor.Arr ℝ)) (n : Nat) : Prop :=
  args ≠ [] ∧ ∀ a ∈ args, a.ndim = 2 ∧ a.nrows = n ∧ a.cols ≠ [] ∧ ∀ c ∈ a.cols, c.length = n

/-- Both chunks have the same number of matrices with the same numbers of columns. -/
def SameShape (args args' : List (Tensor.Arr ℝ)) : Prop :=
  List.Forall₂ (fun a b : Tensor.Arr ℝ => a.cols.length = b.cols.length) args args'

/-- One chunk below another. -/
def stackTables (args args' : List (Tensor.Arr ℝ)) : List (Tensor.Arr ℝ) :=
  List.zipWith (fun a b : Tensor.Arr ℝ => ⟨2, a.nrows + b.nrows, List.zipWith (· ++ ·) a.cols b.cols⟩) args args'

end Patsy.Spec
