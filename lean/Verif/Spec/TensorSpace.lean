import Verif.Spec.SplineTransform

/-!
# Specification of tensor product smooths

Nothing of `_row_tensor_product` is used: a space of functions is given by rows, and a function of several variables is
looked at in one variable at a time.
-/

namespace Patsy.Spec

/-- The functions that are combinations of columns; `b x` is the row of the point `x`. -/
def Spanned {X : Type} (b : X → List ℝ) (f : X → ℝ) : Prop := ∃ γ : Nat → ℝ, ∀ x, f x = combine (b x) γ

/-- As a function of any one of its variables, the others being fixed, `F` has the property `S` of this variable. -/
def Separately {k : Nat} {X : Fin k → Type} (S : (i : Fin k) → (X i → ℝ) → Prop) (F : (∀ i, X i) → ℝ) : Prop :=
  ∀ (i : Fin k) (p : ∀ i, X i), S i fun x => F (Function.update p i x)

/-- The arguments of `te` for a list of points: the matrix of the `i`-th argument has the row `b i x` for a point whose
`i`-th coordinate is `x`; it has `n i` columns. -/
def tablesOf {k : Nat} {X : Fin k → Type} (b : (i : Fin k) → X i → List ℝ) (n : Fin k → Nat) (ps : List (∀ i, X i)) :
    List (Tensor.Arr ℝ) :=
  List.ofFn fun i => ⟨2, ps.length, (List.range (n i)).map fun j => ps.map fun p => (b i (p i)).getD j 0⟩

end Patsy.Spec
