import Mathlib.Analysis.InnerProductSpace.GramSchmidtOrtho
import Mathlib.Analysis.InnerProductSpace.PiL2
import Mathlib.LinearAlgebra.Matrix.ToLinearEquiv
import Verif.Lemmas.SplineTransform

/-! # Constraints are absorbed exactly -/

namespace Patsy.SplineTransform

open Patsy.Spec
open Finset (range)

variable {qr : QR} {c : Cons}

/-- The rows of the factor are orthonormal as well. -/
theorem qr_rows (h : IsQR qr c) {k k' : Nat} (hk : k < c.cols) (hk' : k' < c.cols) :
    ∑ i ∈ range c.cols, qr c k i * qr c k' i = if k = k' then 1 else 0 := by
  let Q : Matrix (Fin c.cols) (Fin c.cols) ℝ := Matrix.of fun k i => qr c k i
  have h1 : Q.transpose * Q = 1 := by
    ext i j
    rw [Matrix.mul_apply, Matrix.one_apply]
    have := h.1 i j i.2 j.2
    rw [Finset.sum_range] at this
    simpa [Q, Matrix.transpose_apply, Fin.ext_iff] using this
  have h2 : Q * Q.transpose = 1 := mul_eq_one_comm.mp h1
  have := congrFun (congrFun h2 ⟨k, hk⟩) ⟨k', hk'⟩
  rw [Matrix.mul_apply, Matrix.one_apply] at this
  rw [Finset.sum_range]
  simpa [Q, Matrix.transpose_apply, Fin.ext_iff] using this

/-- The coefficients of the unconstrained columns that belong to coefficients of the constrained columns. -/
def lift (qr : QR) (c : Cons) (γ : Nat → ℝ) (k : Nat) : ℝ :=
  ∑ j ∈ range (c.cols - c.rows), qr c k (c.rows + j) * γ j

theorem absorb_combine {row out : List ℝ} (h : absorb qr c row = .ok out) (γ : Nat → ℝ) :
    combine out γ = combine row (lift qr c γ) := by
  simp only [absorb] at h
  split at h
  · cases h
  · rename_i hl
    have hl' := not_not.mp hl
    rw [← Except.ok.inj h]
    simp only [combine, List.length_map, List.length_range, hl', lift, Finset.mul_sum]
    rw [Finset.sum_comm]
    refine Finset.sum_congr rfl fun j hj => ?_
    have hj' := Finset.mem_range.mp hj
    rw [List.getD_eq_getElem _ _ (by simpa using hj')]
    simp only [List.getElem_map, List.getElem_range, Finset.sum_mul]
    exact Finset.sum_congr rfl fun k _ => by ring

/-- A column of the factor after the first `rows` ones satisfies the constraints. -/
theorem constraint_column (h : IsQR qr c) {a j : Nat} (ha : a < c.rows) (hj : c.rows + j < c.cols) :
    ∑ k ∈ range c.cols, c.entry a k * qr c k (c.rows + j) = 0 := by
  obtain ⟨h1, r, hr, h2⟩ := h
  have e : ∑ k ∈ range c.cols, c.entry a k * qr c k (c.rows + j) =
      ∑ i ∈ range c.cols, r i a * ∑ k ∈ range c.cols, qr c k i * qr c k (c.rows + j) := by
    simp only [Finset.mul_sum]
    rw [Finset.sum_comm]
    refine Finset.sum_congr rfl fun k hk => ?_
    rw [h2 a k ha (Finset.mem_range.mp hk), Finset.sum_mul]
    exact Finset.sum_congr rfl fun i _ => by ring
  rw [e]
  refine Finset.sum_eq_zero fun i hi => ?_
  rw [h1 i (c.rows + j) (Finset.mem_range.mp hi) hj]
  split
  · rename_i hij
    rw [hr i a (by omega), zero_mul]
  · rw [mul_zero]

theorem lift_satisfies (h : IsQR qr c) (γ : Nat → ℝ) : Satisfies c (lift qr c γ) := by
  intro a ha
  simp only [lift, Finset.mul_sum]
  rw [Finset.sum_comm]
  refine Finset.sum_eq_zero fun j hj => ?_
  have := constraint_column h ha (j := j) (by have := Finset.mem_range.mp hj; omega)
  simp only [← mul_assoc]
  rw [← Finset.sum_mul, this, zero_mul]

theorem sum_range_swap {n m : Nat} {F : Nat → ℝ} (h : ∀ i, m ≤ i → F i = 0) :
    ∑ i ∈ range n, F i = ∑ i ∈ range m, if i < n then F i else 0 := by
  rw [← Finset.sum_filter]
  symm
  apply Finset.sum_subset
  · intro i hi
    simp only [Finset.mem_filter, Finset.mem_range] at hi ⊢
    exact hi.2
  · intro i hi hni
    simp only [Finset.mem_filter, Finset.mem_range, not_and] at hi hni
    exact h i (by by_contra hlt; exact hni (by omega) hi)

/-- If no constraint follows from the others, all coefficients that satisfy the constraints are obtained. -/
theorem exists_lift (h : IsQR qr c) (hi : Independent c) {β : Nat → ℝ} (hβ : Satisfies c β) :
    ∃ γ, ∀ k, k < c.cols → β k = lift qr c γ k := by
  obtain ⟨h1, r, hr, h2⟩ := id h
  let δ : Nat → ℝ := fun i => ∑ k ∈ range c.cols, qr c k i * β k
  have hback : ∀ k, k < c.cols → β k = ∑ i ∈ range c.cols, qr c k i * δ i := by
    intro k hk
    simp only [δ, Finset.mul_sum]
    rw [Finset.sum_comm, Finset.sum_eq_single k]
    · simp only [← mul_assoc]
      rw [← Finset.sum_mul, qr_rows h hk hk, if_pos rfl, one_mul]
    · intro k' hk' hne
      simp only [← mul_assoc]
      rw [← Finset.sum_mul, qr_rows h hk (Finset.mem_range.mp hk'), if_neg (Ne.symm hne), zero_mul]
    · intro hk'
      exact absurd (Finset.mem_range.mpr hk) hk'
  -- the square part of `r`
  let R : Matrix (Fin c.rows) (Fin c.rows) ℝ := Matrix.of fun i a => if (i : Nat) < c.cols then r i a else 0
  have hdet : R.det ≠ 0 := by
    intro h0
    obtain ⟨v, hv, hRv⟩ := Matrix.exists_mulVec_eq_zero_iff.mpr h0
    apply hv
    funext a
    let w : Nat → ℝ := fun a => if ha : a < c.rows then v ⟨a, ha⟩ else 0
    have := hi w ?_ a a.2
    · simpa [w] using this
    · intro k hk
      have e : ∑ a ∈ range c.rows, w a * c.entry a k =
          ∑ i ∈ range c.cols, qr c k i * ∑ a ∈ range c.rows, r i a * w a := by
        simp only [Finset.mul_sum]
        rw [Finset.sum_comm]
        refine Finset.sum_congr rfl fun a ha => ?_
        rw [h2 a k (Finset.mem_range.mp ha) hk, Finset.mul_sum]
        exact Finset.sum_congr rfl fun i _ => by ring
      rw [e]
      refine Finset.sum_eq_zero fun i hi' => ?_
      have hic := Finset.mem_range.mp hi'
      have : ∑ a ∈ range c.rows, r i a * w a = 0 := by
        by_cases him : i < c.rows
        · have hz := congrFun hRv ⟨i, him⟩
          simp only [Matrix.mulVec, dotProduct, Pi.zero_apply, R, Matrix.of_apply, if_pos hic] at hz
          rw [Finset.sum_range]
          simpa [w] using hz
        · exact Finset.sum_eq_zero fun a ha => by
            rw [hr i a (by have := Finset.mem_range.mp ha; omega), zero_mul]
      rw [this, mul_zero]
  have hδ : ∀ i, i < c.rows → i < c.cols → δ i = 0 := by
    let d : Fin c.rows → ℝ := fun i => if (i : Nat) < c.cols then δ i else 0
    have hz : R.transpose.mulVec d = 0 := by
      funext a
      have hs := hβ a a.2
      have e : ∑ k ∈ range c.cols, c.entry a k * β k = ∑ i ∈ range c.cols, r i a * δ i := by
        simp only [δ, Finset.mul_sum]
        rw [Finset.sum_comm]
        refine Finset.sum_congr rfl fun k hk => ?_
        rw [h2 a k a.2 (Finset.mem_range.mp hk), Finset.sum_mul]
        exact Finset.sum_congr rfl fun i _ => by ring
      rw [e, sum_range_swap (m := c.rows) (fun i hi => by rw [hr i a (by have := a.2; omega), zero_mul]),
        Finset.sum_range] at hs
      simp only [Matrix.mulVec, dotProduct, Matrix.transpose_apply, Pi.zero_apply, R, Matrix.of_apply, d]
      refine Eq.trans ?_ hs
      refine Finset.sum_congr rfl fun i _ => ?_
      split <;> simp
    have := Matrix.eq_zero_of_mulVec_eq_zero (by rwa [Matrix.det_transpose]) hz
    intro i hi hic
    have := congrFun this ⟨i, hi⟩
    simpa [d, hic] using this
  refine ⟨fun j => δ (c.rows + j), fun k hk => ?_⟩
  rw [hback k hk, lift]
  by_cases hm : c.rows ≤ c.cols
  · rw [← Finset.sum_range_add_sum_Ico _ hm, Finset.sum_eq_zero, zero_add, Finset.sum_Ico_eq_sum_range]
    intro i hi
    have := Finset.mem_range.mp hi
    rw [hδ i this (by omega), mul_zero]
  · rw [show c.cols - c.rows = 0 by omega]
    rw [Finset.sum_range_zero]
    refine Finset.sum_eq_zero fun i hi => ?_
    have := Finset.mem_range.mp hi
    rw [hδ i (by omega) this, mul_zero]

/-- There are factors as SciPy promises them, for all constraints. -/
theorem exists_qr : ∃ qr : QR, ∀ c, IsQR qr c := by
  have main : ∀ c : Cons, ∃ q : Nat → Nat → ℝ, IsQR (fun _ => q) c := by
    intro c
    let f : Fin c.cols → EuclideanSpace ℝ (Fin c.cols) := fun i => WithLp.toLp 2 fun k => c.entry i k
    have hrank : Module.finrank ℝ (EuclideanSpace ℝ (Fin c.cols)) = Fintype.card (Fin c.cols) := finrank_euclideanSpace
    let b := InnerProductSpace.gramSchmidtOrthonormalBasis hrank f
    let q : Nat → Nat → ℝ := fun k i => if hk : k < c.cols then if hi : i < c.cols then b ⟨i, hi⟩ ⟨k, hk⟩ else 0 else 0
    have hq : ∀ (k i : Fin c.cols), q k i = b i k := fun k i => by simp [q]
    let g : Nat → EuclideanSpace ℝ (Fin c.cols) := fun a => WithLp.toLp 2 fun k => c.entry a k
    let r : Nat → Nat → ℝ := fun i a => if hi : i < c.cols then inner ℝ (b ⟨i, hi⟩) (g a) else 0
    refine ⟨q, ?_, r, ?_, ?_⟩
    · intro i j hi hj
      have := (orthonormal_iff_ite.mp b.orthonormal) ⟨j, hj⟩ ⟨i, hi⟩
      rw [PiLp.inner_apply] at this
      rw [Finset.sum_range]
      simp only [RCLike.inner_apply, conj_trivial] at this
      have e : ∀ k : Fin c.cols, q k i * q k j = b ⟨i, hi⟩ k * b ⟨j, hj⟩ k := fun k => by
        rw [hq k ⟨i, hi⟩, hq k ⟨j, hj⟩]
      simp only [e]
      rw [this]
      simp [Fin.ext_iff, eq_comm]
    · intro i j hji
      simp only [r]
      split
      · rename_i hi
        have := InnerProductSpace.gramSchmidtOrthonormalBasis_inv_triangular hrank f
          (show (⟨j, by omega⟩ : Fin c.cols) < ⟨i, hi⟩ from hji)
        exact this
      · rfl
    · intro a k ha hk
      have := congrArg (fun v : EuclideanSpace ℝ (Fin c.cols) => v ⟨k, hk⟩) (b.sum_repr' (g a))
      simp only at this
      have e : g a ⟨k, hk⟩ = c.entry a k := rfl
      rw [e] at this
      rw [← this, Finset.sum_range]
      simp only [PiLp.smul_apply, WithLp.ofLp_sum, Finset.sum_apply, smul_eq_mul]
      refine Finset.sum_congr rfl fun i _ => ?_
      rw [hq ⟨k, hk⟩ i]
      simp only [r, dif_pos i.2]
      exact mul_comm _ _
  choose q hq using main
  exact ⟨q, fun c => hq c⟩

end Patsy.SplineTransform
