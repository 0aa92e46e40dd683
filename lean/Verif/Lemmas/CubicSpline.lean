import Verif.Model.CubicSpline
import Mathlib.Tactic.Linarith
import Mathlib.Tactic.FieldSimp
import Mathlib.Tactic.Ring
import Mathlib.Tactic.LinearCombination
import Mathlib.LinearAlgebra.Matrix.Gershgorin
import Mathlib.Algebra.BigOperators.Fin

/-! # Lemmas about cubic regression splines -/

namespace Patsy.Spec

/-- The first `size` knots are strictly increasing. -/
def KnotsIncrease (size : Nat) (knots : Nat → ℝ) : Prop := ∀ i j, i < j → j < size → knots i < knots j

end Patsy.Spec

namespace Patsy.CubicSpline

open Patsy.Spec

theorem searchSorted_succ (size : Nat) (knots : Nat → ℝ) (x : ℝ) :
    searchSorted (size + 1) knots x = searchSorted size knots x + if knots size < x then 1 else 0 := by
  rw [searchSorted, List.range_succ, List.filter_append, List.length_append, searchSorted]
  by_cases h : knots size < x <;> simp [h]

theorem searchSorted_spec {size : Nat} {knots : Nat → ℝ} (hk : KnotsIncrease size knots) (x : ℝ) :
    searchSorted size knots x ≤ size ∧ (∀ i, i < searchSorted size knots x → knots i < x) ∧
      ∀ i, searchSorted size knots x ≤ i → i < size → x ≤ knots i := by
  induction size with
  | zero => simp [searchSorted]
  | succ n ih =>
    obtain ⟨h1, h2, h3⟩ := ih fun i j hij hj => hk i j hij (by omega)
    rw [searchSorted_succ]
    by_cases hx : knots n < x
    · have hs : searchSorted n knots x = n := by
        by_contra hne
        have := h3 (searchSorted n knots x) le_rfl (by omega)
        have := hk (searchSorted n knots x) n (by omega) (by omega)
        linarith
      simp only [hx, if_true, hs]
      refine ⟨le_rfl, fun i hi => ?_, fun i hi hi' => by omega⟩
      rcases Nat.lt_or_ge i n with h | h
      · exact (hk i n h (by omega)).trans hx
      · obtain rfl : i = n := by omega
        exact hx
    · simp only [hx, if_false, Nat.add_zero]
      refine ⟨by omega, h2, fun i hi hi' => ?_⟩
      rcases Nat.lt_or_ge i n with h | h
      · exact h3 i hi h
      · obtain rfl : i = n := by omega
        exact not_lt.mp hx

theorem lowerBound_spec {size : Nat} (hs : 2 ≤ size) {knots : Nat → ℝ} (hk : KnotsIncrease size knots) (x : ℝ) :
    ∃ j : Nat, lowerBound size knots x = j ∧ j + 2 ≤ size ∧ (x ≤ knots 0 → j = 0) ∧
      (knots (size - 1) < x → j + 2 = size) ∧
      (knots 0 < x → knots j < x) ∧ (x ≤ knots (size - 1) → x ≤ knots (j + 1)) := by
  obtain ⟨h1, h2, h3⟩ := searchSorted_spec hk x
  generalize hg : searchSorted size knots x = s at *
  simp only [lowerBound, hg]
  rcases Nat.eq_zero_or_pos s with h0 | hpos
  · subst h0
    have hx := h3 0 le_rfl (by omega)
    refine ⟨0, ?_, by omega, fun _ => rfl, fun h => ?_, fun h => by linarith, fun _ => h3 1 (by omega) (by omega)⟩
    · split <;> split at * <;> omega
    · have := h3 (size - 1) (by omega) (by omega)
      linarith
  · have hx := h2 0 hpos
    by_cases hl : s = size
    · have hx2 := h2 (size - 1) (by omega)
      refine ⟨size - 2, ?_, by omega, fun h => by linarith, fun _ => by omega, fun _ => h2 _ (by omega),
        fun h => by linarith⟩
      split <;> split at * <;> omega
    · refine ⟨s - 1, ?_, by omega, fun h => by linarith, fun h => ?_, fun _ => h2 _ (by omega), fun _ => ?_⟩
      · split <;> split at * <;> omega
      · have := h3 (size - 1) (by omega) (by omega)
        linarith
      · rw [show s - 1 + 1 = s by omega]
        exact h3 s le_rfl (by omega)

theorem pymod_nonneg {a b : ℝ} (hb : 0 < b) : 0 ≤ pymod a b := by
  have := Int.floor_le (a / b)
  have h2 : ⌊a / b⌋ * b ≤ a := by rwa [le_div_iff₀ hb] at this
  simp only [pymod]
  linarith

theorem pymod_lt {a b : ℝ} (hb : 0 < b) : pymod a b < b := by
  have := Int.lt_floor_add_one (a / b)
  rw [div_lt_iff₀ hb] at this
  simp only [pymod]
  linarith

theorem mapCyclic_spec {l u : ℝ} (h : l < u) (x : ℝ) :
    ∃ y, mapCyclic x l u = .ok y ∧ l ≤ y ∧ y ≤ u ∧ (∃ k : Int, y = x + k * (u - l)) ∧ (l ≤ x → x ≤ u → y = x) := by
  have hp : 0 < u - l := by linarith
  rw [mapCyclic, if_neg (not_le.mpr h)]
  refine ⟨_, rfl, ?_⟩
  by_cases h1 : x > u
  · have a1 := pymod_nonneg (a := x - u) hp
    have a2 := pymod_lt (a := x - u) hp
    rw [if_pos h1, if_neg (by linarith)]
    refine ⟨by linarith, by linarith, ⟨-1 - ⌊(x - u) / (u - l)⌋, ?_⟩, fun _ h => by linarith⟩
    simp only [pymod]
    push_cast
    ring
  · rw [if_neg h1]
    by_cases h2 : x < l
    · have a1 := pymod_nonneg (a := l - x) hp
      have a2 := pymod_lt (a := l - x) hp
      rw [if_pos h2]
      refine ⟨by linarith, by linarith, ⟨1 + ⌊(l - x) / (u - l)⌋, ?_⟩, fun h _ => by linarith⟩
      simp only [pymod]
      push_cast
      ring
    · rw [if_neg h2]
      exact ⟨by linarith, by linarith, ⟨0, by simp⟩, fun _ _ => rfl⟩

theorem gap_pos {size : Nat} {knots : Nat → ℝ} (hk : KnotsIncrease size knots) {i : Nat} (hi : i + 1 < size) :
    0 < gap knots i := by
  have := hk i (i + 1) (by omega) hi
  simp only [gap]
  linarith

/-! ### The natural system -/

/-- The entries of the tridiagonal matrix. -/
theorem bandedMatrix_apply (n : Nat) (knots : Nat → ℝ) (i j : Fin n) :
    bandedMatrix n (bandedB n knots) i j =
      if (j : Nat) = i then (gap knots i + gap knots (i + 1)) / 3
      else if (j : Nat) = i + 1 then gap knots (i + 1) / 6
      else if (j : Nat) + 1 = i then gap knots i / 6
      else 0 := by
  simp only [bandedMatrix]
  by_cases h1 : (j : Nat) = i
  · rw [if_pos (by omega), if_pos h1, show 1 + (i : Nat) - j = 1 by omega, h1]
    simp [bandedB]
  · rw [if_neg h1]
    by_cases h2 : (j : Nat) = i + 1
    · rw [if_pos (by omega), if_pos h2, show 1 + (i : Nat) - j = 0 by omega, h2]
      simp [bandedB]
    · rw [if_neg h2]
      by_cases h3 : (j : Nat) + 1 = i
      · rw [if_pos (by omega), if_pos h3, show 1 + (i : Nat) - j = 2 by omega]
        simp [bandedB, h3]
      · rw [if_neg h3, if_neg (by omega)]

/-- A sum over positions of a function that vanishes except at three places. -/
theorem sum_three {n : Nat} (f : Nat → ℝ) (i : Nat) (hi : i < n)
    (hf : ∀ j, j < n → j ≠ i → j ≠ i + 1 → j + 1 ≠ i → f j = 0) :
    ∑ j : Fin n, f j = f i + (if i + 1 < n then f (i + 1) else 0) + if 1 ≤ i then f (i - 1) else 0 := by
  classical
  have e : ∀ j : Fin n, f j = (if (j : Nat) = i then f i else 0) + (if (j : Nat) = i + 1 then f (i + 1) else 0) +
      if (j : Nat) + 1 = i then f (i - 1) else 0 := by
    intro j
    by_cases h1 : (j : Nat) = i
    · simp [h1]
    · by_cases h2 : (j : Nat) = i + 1
      · simp [h2, show ¬ (i + 1 + 1 = i) by omega]
      · by_cases h3 : (j : Nat) + 1 = i
        · rw [if_neg h1, if_neg h2, if_pos h3, zero_add, zero_add, show (j : Nat) = i - 1 by omega]
        · simp [h1, h2, h3, hf j j.2 h1 h2 h3]
  rw [Finset.sum_congr rfl fun j _ => e j, Finset.sum_add_distrib, Finset.sum_add_distrib]
  have s1 : ∑ j : Fin n, (if (j : Nat) = i then f i else 0) = f i := by
    rw [Finset.sum_eq_single (⟨i, hi⟩ : Fin n)]
    · simp
    · intro b _ hb
      rw [if_neg fun h => hb (Fin.ext h)]
    · simp
  have s2 : ∑ j : Fin n, (if (j : Nat) = i + 1 then f (i + 1) else 0) = if i + 1 < n then f (i + 1) else 0 := by
    by_cases h : i + 1 < n
    · rw [Finset.sum_eq_single (⟨i + 1, h⟩ : Fin n), if_pos h]
      · simp
      · intro b _ hb
        rw [if_neg fun h => hb (Fin.ext h)]
      · simp
    · rw [if_neg h]
      apply Finset.sum_eq_zero
      intro b _
      rw [if_neg (by omega)]
  have s3 : ∑ j : Fin n, (if (j : Nat) + 1 = i then f (i - 1) else 0) = if 1 ≤ i then f (i - 1) else 0 := by
    by_cases h : 1 ≤ i
    · rw [Finset.sum_eq_single (⟨i - 1, by omega⟩ : Fin n), if_pos h]
      · rw [if_pos (by simp; omega)]
      · intro b _ hb
        rw [if_neg fun h => hb (Fin.ext (by simp; omega))]
      · simp
    · rw [if_neg h]
      apply Finset.sum_eq_zero
      intro b _
      rw [if_neg (by omega)]
  rw [s1, s2, s3]

/-- The tridiagonal matrix can be inverted: it is diagonally dominant. -/
theorem natural_b_det {n : Nat} {knots : Nat → ℝ} (hk : KnotsIncrease (n + 2) knots) :
    (bandedMatrix n (bandedB n knots)).det ≠ 0 := by
  apply det_ne_zero_of_sum_row_lt_diag
  intro i
  have g0 : 0 < gap knots i := gap_pos hk (by omega)
  have g1 : 0 < gap knots (i + 1) := gap_pos hk (by omega)
  let f : Nat → ℝ := fun j =>
    if j = (i : Nat) + 1 then gap knots (i + 1) / 6 else if j + 1 = (i : Nat) then gap knots i / 6 else 0
  have e : ∑ j ∈ Finset.univ.erase i, ‖bandedMatrix n (bandedB n knots) i j‖ ≤ ∑ j : Fin n, f j := by
    rw [← Finset.sum_erase_add _ _ (Finset.mem_univ i)]
    have : 0 ≤ f i := by simp [f]
    refine le_add_of_le_of_nonneg (Finset.sum_le_sum ?_) this
    intro j hj
    have hne : (j : Nat) ≠ i := fun h => (Finset.mem_erase.mp hj).1 (Fin.ext h)
    rw [bandedMatrix_apply, if_neg hne]
    simp only [f]
    split
    · rw [Real.norm_eq_abs, abs_of_pos (by positivity)]
    · split
      · rw [Real.norm_eq_abs, abs_of_pos (by positivity)]
      · simp
  refine lt_of_le_of_lt e ?_
  rw [sum_three f i i.2 (by
    intro j _ h1 h2 h3
    simp [f, h2, h3]), bandedMatrix_apply, if_pos rfl, Real.norm_eq_abs, abs_of_pos (by positivity)]
  have f0 : f i = 0 := by simp [f]
  have f1 : (if (i : Nat) + 1 < n then f (i + 1) else 0) ≤ gap knots (i + 1) / 6 := by
    split
    · simp [f]
    · positivity
  have f2 : (if 1 ≤ (i : Nat) then f (i - 1) else 0) ≤ gap knots i / 6 := by
    split
    · rename_i h
      have : ¬ ((i : Nat) - 1 = i + 1) := by omega
      simp only [f, this, if_false]
      rw [if_pos (by omega)]
    · positivity
  rw [f0]
  linarith

end Patsy.CubicSpline
