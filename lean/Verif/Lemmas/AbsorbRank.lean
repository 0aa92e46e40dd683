import Mathlib.LinearAlgebra.Matrix.Rank
import Verif.Lemmas.Absorb

/-! # Which constraints are absorbed exactly -/

namespace Patsy.SplineTransform

open Patsy.Spec
open Finset (range)

variable {qr : QR} {c : Cons}

/-- All coefficients that satisfy the constraints are obtained only if no constraint follows from the others, or if only zero
satisfies them. -/
theorem independent_of_lift (h : ∀ β, Satisfies c β → ∃ γ, ∀ k, k < c.cols → β k = lift qr c γ k) :
    Independent c ∨ ∀ β, Satisfies c β → ∀ k, k < c.cols → β k = 0 := by
  let M : Matrix (Fin c.rows) (Fin c.cols) ℝ := Matrix.of fun a k => c.entry a k
  let L : Matrix (Fin c.cols) (Fin (c.cols - c.rows)) ℝ := Matrix.of fun k j => qr c k (c.rows + j)
  let ext : (Fin c.cols → ℝ) → Nat → ℝ := fun v k => if hk : k < c.cols then v ⟨k, hk⟩ else 0
  have hker : LinearMap.ker M.mulVecLin ≤ LinearMap.range L.mulVecLin := by
    intro v hv
    have hs : Satisfies c (ext v) := by
      intro a ha
      have := congrFun (LinearMap.mem_ker.mp hv) ⟨a, ha⟩
      rw [Finset.sum_range]
      simpa [M, Matrix.mulVec, dotProduct, ext] using this
    obtain ⟨γ, hγ⟩ := h _ hs
    refine ⟨fun j => γ j, ?_⟩
    funext k
    have := hγ k k.2
    simp only [ext, k.2, dif_pos, lift, Finset.sum_range] at this
    simpa [L, Matrix.mulVec, dotProduct] using this.symm
  have h1 : Module.finrank ℝ (LinearMap.ker M.mulVecLin) ≤ c.cols - c.rows := by
    refine (Submodule.finrank_mono hker).trans ((LinearMap.finrank_range_le _).trans ?_)
    simp
  have h2 : M.rank + Module.finrank ℝ (LinearMap.ker M.mulVecLin) = c.cols := by
    have := LinearMap.finrank_range_add_finrank_ker M.mulVecLin
    simpa [Matrix.rank] using this
  by_cases hm : c.rows ≤ c.cols
  · left
    have h3 : M.rank = c.rows := by
      have := Matrix.rank_le_height M
      omega
    have h4 : LinearIndependent ℝ M.row := by
      rw [linearIndependent_iff_card_eq_finrank_span, Fintype.card_fin, Set.finrank, ← Matrix.rank_eq_finrank_span_row, h3]
    intro w hw a ha
    refine Fintype.linearIndependent_iff.mp h4 (fun a => w a) ?_ ⟨a, ha⟩
    funext k
    have := hw k k.2
    rw [Finset.sum_range] at this
    simpa [M, Matrix.row] using this
  · right
    have h3 : LinearMap.ker M.mulVecLin = ⊥ := Submodule.finrank_eq_zero.mp (by omega)
    intro β hβ k hk
    have : (fun k : Fin c.cols => β k) ∈ LinearMap.ker M.mulVecLin := by
      rw [LinearMap.mem_ker]
      funext a
      have := hβ a a.2
      rw [Finset.sum_range] at this
      simpa [M, Matrix.mulVec, dotProduct] using this
    rw [h3, Submodule.mem_bot] at this
    exact congrFun this ⟨k, hk⟩

theorem lift_complete_iff (h : IsQR qr c) : (∀ β, Satisfies c β → ∃ γ, ∀ k, k < c.cols → β k = lift qr c γ k) ↔
    Independent c ∨ ∀ β, Satisfies c β → ∀ k, k < c.cols → β k = 0 := by
  refine ⟨independent_of_lift, ?_⟩
  rintro (hi | h0) β hβ
  · exact exists_lift h hi hβ
  · exact ⟨fun _ => 0, fun k hk => by rw [h0 β hβ k hk]; simp [lift]⟩

end Patsy.SplineTransform
