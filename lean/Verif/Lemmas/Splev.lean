import Verif.Model.Splev
import Verif.Spec.BSpline
import Verif.Lemmas.BSpline

/-! # The evaluation of B-splines -/

namespace Patsy.Splev

open Patsy.SplineTransform Patsy.Spec Patsy.BSpline Finset

theorem deBoor_eq (t : ℕ → ℝ) (l : ℕ) (x : ℝ) (k i : ℕ) : deBoor t l x k i = (bpoly t l k i).eval x := by
  induction k generalizing i with
  | zero =>
    rw [deBoor, bpoly]
    split <;> simp
  | succ k ih =>
    rw [deBoor, bpoly, ih, ih, show i + (k + 1) = i + k + 1 by omega, show i + 1 + (k + 1) = i + k + 2 by omega]
    simp only [Polynomial.eval_add, Polynomial.eval_mul, Polynomial.eval_C, Polynomial.eval_sub, Polynomial.eval_X]
    ring

theorem deBoor_zero {t : ℕ → ℝ} {l : ℕ} {x : ℝ} {k i : ℕ} (h : l < i ∨ i + k < l) : deBoor t l x k i = 0 := by
  rw [deBoor_eq, bpoly_zero h, Polynomial.eval_zero]

theorem fpbspl_eq {t u : ℕ → ℝ} {l : ℕ} {x : ℝ} {j : ℕ} (hj : j ≤ l) (hu : ∀ i, i ≤ l + j → u i = t i) {i : ℕ} (hi : i ≤ j) :
    fpbspl u x l j i = deBoor t l x j (l - j + i) := by
  induction j generalizing i with
  | zero =>
    obtain rfl : i = 0 := by omega
    simp [fpbspl, deBoor]
  | succ j ih =>
    have ih' := fun m hm => ih (by omega) (fun i hi => hu i (by omega)) (i := m) hm
    have hf : ∀ m ≤ j, (if u (l + m + 1) = u (l + m - j) then 0 else
        fpbspl u x l j m / (u (l + m + 1) - u (l + m - j))) =
        deBoor t l x j (l - j + m) / (t (l + m + 1) - t (l + m - j)) := by
      intro m hm
      rw [hu _ (by omega), hu _ (by omega), ih' m hm]
      split
      · rename_i h
        rw [h, sub_self, div_zero]
      · rfl
    rw [fpbspl, deBoor]
    simp only
    rw [add_comm]
    congr 1
    · by_cases h1 : 1 ≤ i
      · rw [if_pos h1, hf _ (by omega), hu _ (by omega)]
        rw [show l - j + (i - 1) = l - (j + 1) + i by omega, show l + (i - 1) + 1 = l - (j + 1) + i + (j + 1) by omega,
          show l + (i - 1) - j = l - (j + 1) + i by omega, show l + i - 1 - j = l - (j + 1) + i by omega]
        ring
      · rw [if_neg h1, deBoor_zero (by omega), mul_zero]
    · by_cases h1 : i ≤ j
      · rw [if_pos h1, hf _ h1, hu _ (by omega)]
        rw [show l - (j + 1) + i + 1 = l - j + i by omega, show l - j + i + (j + 1) = l + i + 1 by omega,
          show l + i - j = l - j + i by omega]
        ring
      · rw [if_neg h1, deBoor_zero (by omega), mul_zero]

theorem search_eq {t : ℕ → ℝ} {x : ℝ} {l : ℕ} (hmono : ∀ i, i < l → t (i + 1) ≤ t l) (hx : t l ≤ x) {steps a : ℕ} (ha : a ≤ l)
    (hs : l ≤ a + steps) (hend : x < t (l + 1) ∨ l = a + steps) : search t x steps a = l := by
  induction steps generalizing a with
  | zero => rw [search]; omega
  | succ steps ih =>
    rw [search]
    by_cases hal : a = l
    · subst hal
      rw [if_neg]
      rcases hend with h | h
      · exact not_le.mpr h
      · omega
    · rw [if_pos ((hmono a (by omega)).trans hx)]
      exact ih (by omega) (by omega) (hend.imp id fun h => by omega)

/-- FITPACK's `splev` computes combinations of B-splines. -/
theorem splev_evaluates : EvaluatesSplines splev := by
  intro x knots coefs k l t hsort ht hkl hl hlt hx hend
  have hu : ∀ i, i < knots.length → knots.getD i 0 = t i := by
    intro i hi
    rw [ht i hi]
    simp [List.getD, List.getElem?_eq_getElem hi]
  have hsearch : search (fun i => knots.getD i 0) x (knots.length - 2 * (k + 1)) k = l := by
    refine search_eq ?_ ?_ hkl (by omega) ?_
    · intro i hi
      rw [hu _ (by omega), hu _ (by omega)]
      rcases Nat.lt_or_ge (i + 1) l with h | h
      · rw [ht _ (by omega), ht _ (by omega)]
        exact List.pairwise_iff_getElem.mp hsort _ _ _ _ h
      · obtain rfl : i + 1 = l := by omega
        exact le_rfl
    · rw [hu _ (by omega)]
      exact hx
    · rw [hu _ (by omega)]
      exact hend.imp id fun h => by omega
  simp only [splev]
  rw [hsearch]
  have hn : knots.length - (k + 1) = (l - k) + (k + 1) + (knots.length - (k + 1) - (l + 1)) := by omega
  conv_rhs => rw [hn, sum_range_add, sum_range_add]
  have h1 : ∑ i ∈ range (l - k), coefs i * deBoor t l x k i = 0 :=
    sum_eq_zero fun i hi => by rw [deBoor_zero (by have := mem_range.mp hi; omega), mul_zero]
  have h2 : ∑ i ∈ range (knots.length - (k + 1) - (l + 1)), coefs (l - k + (k + 1) + i) * deBoor t l x k (l - k + (k + 1) + i) = 0 :=
    sum_eq_zero fun i hi => by rw [deBoor_zero (by omega), mul_zero]
  rw [h1, h2, zero_add, add_zero]
  refine sum_congr rfl fun j hj => ?_
  have := mem_range.mp hj
  rw [fpbspl_eq (t := t) hkl (fun i hi => hu i (by omega)) (by omega)]

end Patsy.Splev
