import Mathlib.Algebra.Polynomial.FieldDivision
import Mathlib.Algebra.Polynomial.Derivative
import Mathlib.Algebra.Polynomial.Taylor
import Mathlib.LinearAlgebra.FiniteDimensional.Basic
import Mathlib.LinearAlgebra.Dimension.Constructions
import Mathlib.Algebra.BigOperators.Intervals
import Mathlib.RingTheory.Polynomial.Basic
import Mathlib.Data.Real.Basic
import Mathlib.LinearAlgebra.FiniteDimensional.Lemmas
import Mathlib.LinearAlgebra.Dimension.OrzechProperty
import Mathlib.Algebra.CharZero.Infinite
import Mathlib.Tactic.Ring
import Mathlib.Tactic.FieldSimp
import Mathlib.Tactic.LinearCombination

/-!
# B-splines: the polynomial pieces of the basis functions

`bpoly t l k i` is the polynomial that the B-spline number `i` of degree `k` with the knots `t` is between the knots number
`l` and `l + 1` (recursion of Cox and de Boor).
-/

namespace Patsy.BSpline

open Polynomial Finset

noncomputable def bpoly (t : ℕ → ℝ) (l : ℕ) : ℕ → ℕ → ℝ[X]
  | 0, i => if i = l then 1 else 0
  | k + 1, i => C (t (i + k + 1) - t i)⁻¹ * (X - C (t i)) * bpoly t l k i +
      C (t (i + k + 2) - t (i + 1))⁻¹ * (C (t (i + k + 2)) - X) * bpoly t l k (i + 1)

variable {t : ℕ → ℝ} {l : ℕ}

theorem bpoly_zero {k i : ℕ} (h : l < i ∨ i + k < l) : bpoly t l k i = 0 := by
  induction k generalizing i with
  | zero => rw [bpoly, if_neg (by omega)]
  | succ k ih => rw [bpoly, ih (by omega), ih (by omega)]; simp

theorem bpoly_degree (k i : ℕ) : (bpoly t l k i).natDegree ≤ k := by
  induction k generalizing i with
  | zero =>
    rw [bpoly]
    split <;> simp
  | succ k ih =>
    rw [bpoly]
    refine (natDegree_add_le _ _).trans (max_le ?_ ?_)
    · refine natDegree_mul_le.trans ?_
      have h1 : (C (t (i + k + 1) - t i)⁻¹ * (X - C (t i))).natDegree ≤ 1 :=
        (natDegree_C_mul_le _ _).trans (natDegree_X_sub_C_le _)
      have := ih i
      omega
    · refine natDegree_mul_le.trans ?_
      have h1 : (C (t (i + k + 2) - t (i + 1))⁻¹ * (C (t (i + k + 2)) - X)).natDegree ≤ 1 := by
        refine (natDegree_C_mul_le _ _).trans ?_
        rw [← neg_sub, natDegree_neg]
        exact natDegree_X_sub_C_le _
      have := ih (i + 1)
      omega

/-- If the piece is not zero, the interval is between the first and the last knot of the B-spline. -/
theorem knot_lt (hm : Monotone t) (hl : t l < t (l + 1)) {k i : ℕ} (h : bpoly t l k i ≠ 0) : t i < t (i + k + 1) := by
  have h1 : i ≤ l := by
    by_contra hno
    exact h (bpoly_zero (by omega))
  have h2 : l ≤ i + k := by
    by_contra hno
    exact h (bpoly_zero (by omega))
  exact (hm h1).trans_lt (hl.trans_le (hm (by omega)))

theorem bpoly_nonneg (hm : Monotone t) {x : ℝ} (h1 : t l ≤ x) (h2 : x ≤ t (l + 1)) (k i : ℕ) :
    0 ≤ (bpoly t l k i).eval x := by
  induction k generalizing i with
  | zero =>
    rw [bpoly]
    split <;> simp
  | succ k ih =>
    rw [bpoly]
    simp only [eval_add, eval_mul, eval_C, eval_sub, eval_X]
    refine add_nonneg ?_ ?_
    · by_cases hi : l < i ∨ i + k < l
      · rw [bpoly_zero hi]; simp
      · refine mul_nonneg (mul_nonneg (inv_nonneg.mpr (sub_nonneg.mpr (hm (by omega)))) ?_) (ih i)
        exact sub_nonneg.mpr ((hm (by omega)).trans h1)
    · by_cases hi : l < i + 1 ∨ i + 1 + k < l
      · rw [bpoly_zero hi]; simp
      · refine mul_nonneg (mul_nonneg (inv_nonneg.mpr (sub_nonneg.mpr (hm (by omega)))) ?_) (ih (i + 1))
        exact sub_nonneg.mpr (h2.trans (hm (by omega)))

/-- The dual polynomial in Marsden's identity. -/
noncomputable def dual (t : ℕ → ℝ) (k i : ℕ) : ℝ[X] := ∏ m ∈ range k, (C (t (i + 1 + m)) - X)

theorem dual_degree (k i : ℕ) : (dual t k i).natDegree ≤ k := by
  unfold dual
  refine (natDegree_prod_le _ _).trans ?_
  refine (sum_le_sum (g := fun _ => 1) fun m _ => ?_).trans (by simp)
  rw [← neg_sub, natDegree_neg]
  exact natDegree_X_sub_C_le _

/-- Marsden's identity: the powers of `x - y` are combinations of the B-splines in `x`, with coefficients that depend on
`y`. -/
theorem marsden (hm : Monotone t) (hl : t l < t (l + 1)) (x : ℝ) {k : ℕ} (hk : k ≤ l) :
    ∑ i ∈ range (l + 1), C ((bpoly t l k i).eval x) * dual t k i = (C x - X) ^ k := by
  induction k with
  | zero =>
    rw [sum_eq_single l]
    · simp [bpoly, dual]
    · intro i _ hi
      simp [bpoly, hi]
    · intro h
      exact absurd (mem_range.mpr (Nat.lt_succ_self l)) h
  | succ k ih =>
    have hsplit : ∀ i, C ((bpoly t l (k + 1) i).eval x) * dual t (k + 1) i =
        C ((t (i + k + 1) - t i)⁻¹ * (x - t i) * (bpoly t l k i).eval x) * dual t (k + 1) i +
        C ((t (i + 1 + k + 1) - t (i + 1))⁻¹ * (t (i + 1 + k + 1) - x) * (bpoly t l k (i + 1)).eval x) * dual t (k + 1) i := by
      intro i
      rw [bpoly]
      simp only [eval_add, eval_mul, eval_C, eval_sub, eval_X]
      rw [C_add, add_mul]
      have : i + k + 2 = i + 1 + k + 1 := by omega
      rw [this]
    rw [sum_congr rfl fun i _ => hsplit i, sum_add_distrib]
    -- the second sum, shifted
    have hshift : ∑ i ∈ range (l + 1), C ((t (i + 1 + k + 1) - t (i + 1))⁻¹ * (t (i + 1 + k + 1) - x) *
          (bpoly t l k (i + 1)).eval x) * dual t (k + 1) i =
        ∑ i ∈ range (l + 1), C ((t (i + k + 1) - t i)⁻¹ * (t (i + k + 1) - x) * (bpoly t l k i).eval x) *
          ((C (t i) - X) * dual t k i) := by
      rw [sum_range_succ, bpoly_zero (i := l + 1) (by omega)]
      conv_rhs => rw [sum_range_succ', bpoly_zero (i := 0) (by omega)]
      simp only [eval_zero, mul_zero, C_0, zero_mul, add_zero]
      refine sum_congr rfl fun i _ => ?_
      congr 1
      unfold dual
      rw [prod_range_succ', mul_comm]
      congr 1
      refine prod_congr rfl fun m _ => ?_
      congr 3
      omega
    rw [hshift, ← sum_add_distrib, pow_succ, ← ih (by omega), sum_mul]
    refine sum_congr rfl fun i _ => ?_
    by_cases hz : bpoly t l k i = 0
    · simp [hz]
    · have hne : t (i + k + 1) - t i ≠ 0 := (sub_pos.mpr (knot_lt hm hl hz)).ne'
      have hd : dual t (k + 1) i = dual t k i * (C (t (i + k + 1)) - X) := by
        unfold dual
        rw [prod_range_succ]
        congr 3
        rw [show i + 1 + k = i + k + 1 by omega]
      rw [hd]
      have hC : C (t (i + k + 1) - t i)⁻¹ * (C (t (i + k + 1)) - C (t i)) = (1 : ℝ[X]) := by
        rw [← C_sub, ← C_mul, inv_mul_cancel₀ hne, C_1]
      simp only [C_mul, C_sub]
      linear_combination (C (eval x (bpoly t l k i)) * dual t k i * (C x - X)) * hC

/-- The pieces add up to one. -/
theorem bpoly_sum (hm : Monotone t) (hl : t l < t (l + 1)) {k : ℕ} (hk : k ≤ l) :
    ∑ i ∈ range (l + 1), bpoly t l k i = 1 := by
  refine Polynomial.funext fun x => ?_
  have h := congrArg (fun p : ℝ[X] => p.coeff k) (marsden hm hl x hk)
  have hc : ∀ i, (dual t k i).coeff k = (-1) ^ k := by
    intro i
    unfold dual
    have := coeff_prod_of_natDegree_le (s := range k) (f := fun m => C (t (i + 1 + m)) - X) (n := 1) (by
      intro m _
      rw [← neg_sub, natDegree_neg]
      exact natDegree_X_sub_C_le _)
    simp only [card_range, mul_one] at this
    rw [this]
    simp
  have hx : ((C x - X) ^ k : ℝ[X]).coeff k = (-1) ^ k := by
    have := coeff_pow_of_natDegree_le (p := (C x - X : ℝ[X])) (m := k) (n := 1) (by
      rw [← neg_sub, natDegree_neg]
      exact natDegree_X_sub_C_le _)
    rw [mul_one] at this
    rw [this]
    simp
  simp only [finsetSum_coeff, coeff_C_mul, hc, hx, ← sum_mul] at h
  rw [eval_finsetSum, eval_one]
  exact mul_right_cancel₀ (pow_ne_zero k (by norm_num)) (h.trans (one_mul _).symm)

/-- The coefficient of the B-spline number `i` in the power number `r` of `X - τ`. -/
noncomputable def weight (t : ℕ → ℝ) (k : ℕ) (τ : ℝ) (r i : ℕ) : ℝ :=
  ((-1) ^ (k - r) * (k.choose (k - r) : ℝ))⁻¹ * (taylor τ (dual t k i)).coeff (k - r)

theorem pow_eq_sum (hm : Monotone t) (hl : t l < t (l + 1)) {k : ℕ} (hk : k ≤ l) (τ : ℝ) {r : ℕ} (hr : r ≤ k) :
    (X - C τ) ^ r = ∑ i ∈ range (l + 1), C (weight t k τ r i) * bpoly t l k i := by
  have hch : (-1 : ℝ) ^ (k - r) * (k.choose (k - r)) ≠ 0 :=
    mul_ne_zero (pow_ne_zero _ (by norm_num)) (Nat.cast_ne_zero.mpr (Nat.choose_pos (by omega)).ne')
  refine Polynomial.funext fun x => ?_
  have h := congrArg (fun p : ℝ[X] => (taylor τ p).coeff (k - r)) (marsden hm hl x hk)
  have hx : (taylor τ ((C x - X) ^ k : ℝ[X])).coeff (k - r) = (-1) ^ (k - r) * (k.choose (k - r)) * (x - τ) ^ r := by
    have : taylor τ ((C x - X) ^ k : ℝ[X]) = C ((-1) ^ k) * (X - C (x - τ)) ^ k := by
      rw [taylor_apply]
      simp only [pow_comp, sub_comp, C_comp, X_comp, C_pow, C_neg, C_1]
      rw [← mul_pow]
      congr 1
      rw [C_sub]
      ring
    rw [this, coeff_C_mul, sub_eq_add_neg, ← C_neg, coeff_X_add_C_pow, show k - (k - r) = r by omega, neg_pow (x - τ) r]
    have hs : (-1 : ℝ) ^ k * (-1) ^ r = (-1) ^ (k - r) := by
      rw [← pow_add, show k + r = (k - r) + 2 * r by omega, pow_add, pow_mul]
      simp
    rw [← hs]
    ring
  simp only [map_sum, finsetSum_coeff, taylor_mul, taylor_C, coeff_C_mul, hx] at h
  rw [eval_finsetSum]
  simp only [eval_mul, eval_C, eval_pow, eval_sub, eval_X, weight]
  refine mul_left_cancel₀ hch ?_
  rw [← h, mul_sum]
  refine sum_congr rfl fun i _ => ?_
  clear h hx
  generalize (-1 : ℝ) ^ (k - r) * (k.choose (k - r)) = z at hch ⊢
  field_simp

/-- The coefficient of the B-spline number `i` in `p`. -/
noncomputable def coefficient (t : ℕ → ℝ) (k : ℕ) (τ : ℝ) (i : ℕ) (p : ℝ[X]) : ℝ :=
  ∑ r ∈ range (k + 1), (taylor τ p).coeff r * weight t k τ r i

theorem coefficient_sub (k : ℕ) (τ : ℝ) (i : ℕ) (p q : ℝ[X]) :
    coefficient t k τ i (p - q) = coefficient t k τ i p - coefficient t k τ i q := by
  unfold coefficient
  rw [← sum_sub_distrib]
  refine sum_congr rfl fun r _ => ?_
  rw [map_sub, coeff_sub]
  ring

theorem eq_sum_pow (τ : ℝ) {k : ℕ} {p : ℝ[X]} (hp : p.natDegree ≤ k) :
    p = ∑ r ∈ range (k + 1), C ((taylor τ p).coeff r) * (X - C τ) ^ r := by
  conv_lhs => rw [← sum_taylor_eq p τ]
  exact sum_over_range' _ (fun n => by simp) _ (by rw [natDegree_taylor]; omega)

/-- Every polynomial of degree at most `k` is a combination of the pieces. -/
theorem eq_sum_pieces (hm : Monotone t) (hl : t l < t (l + 1)) {k : ℕ} (hk : k ≤ l) (τ : ℝ) {p : ℝ[X]}
    (hp : p.natDegree ≤ k) : p = ∑ i ∈ range (l + 1), C (coefficient t k τ i p) * bpoly t l k i := by
  conv_lhs => rw [eq_sum_pow τ hp]
  have : ∀ r ∈ range (k + 1), C ((taylor τ p).coeff r) * (X - C τ) ^ r =
      ∑ i ∈ range (l + 1), C ((taylor τ p).coeff r * weight t k τ r i) * bpoly t l k i := by
    intro r hr
    rw [pow_eq_sum hm hl hk τ (by have := mem_range.mp hr; omega), mul_sum]
    refine sum_congr rfl fun i _ => ?_
    rw [C_mul, mul_assoc]
  rw [sum_congr rfl this, sum_comm]
  refine sum_congr rfl fun i _ => ?_
  rw [← sum_mul, ← map_sum]
  rfl

/-- The same with the pieces that are not zero only. -/
theorem sum_pieces_eq {k : ℕ} (hk : k ≤ l) (c : ℕ → ℝ) :
    ∑ i ∈ range (l + 1), C (c i) * bpoly t l k i = ∑ s : Fin (k + 1), C (c (l - k + s)) * bpoly t l k (l - k + s) := by
  rw [Fin.sum_univ_eq_sum_range (fun s => C (c (l - k + s)) * bpoly t l k (l - k + s)) (k + 1)]
  obtain ⟨d, rfl⟩ := Nat.exists_eq_add_of_le hk
  rw [show k + d - k = d by omega, show k + d + 1 = d + (k + 1) by omega, sum_range_add]
  rw [sum_eq_zero, zero_add]
  intro i hi
  rw [bpoly_zero (by have := mem_range.mp hi; omega), mul_zero]

/-- The pieces on an interval are independent. -/
theorem pieces_independent (hm : Monotone t) (hl : t l < t (l + 1)) {k : ℕ} (hk : k ≤ l) {c : ℕ → ℝ}
    (h : ∑ i ∈ range (l + 1), C (c i) * bpoly t l k i = 0) {i : ℕ} (h1 : l ≤ i + k) (h2 : i ≤ l) : c i = 0 := by
  let v : Fin (k + 1) → degreeLT ℝ (k + 1) := fun s => ⟨bpoly t l k (l - k + s),
    mem_degreeLT.mpr ((degree_le_natDegree.trans_lt (by exact_mod_cast Nat.lt_succ_of_le (bpoly_degree k _))))⟩
  have hspan : ⊤ ≤ Submodule.span ℝ (Set.range v) := by
    rintro ⟨p, hp⟩ -
    have hdeg : p.natDegree ≤ k := by
      by_cases h0 : p = 0
      · simp [h0]
      · have := (natDegree_lt_iff_degree_lt h0).mpr (mem_degreeLT.mp hp)
        omega
    have hsum := eq_sum_pieces hm hl hk 0 hdeg
    rw [sum_pieces_eq hk] at hsum
    have : (⟨p, hp⟩ : degreeLT ℝ (k + 1)) = ∑ s : Fin (k + 1), coefficient t k 0 (l - k + s) p • v s := by
      apply Subtype.ext
      rw [Submodule.coe_sum]
      simp only [Submodule.coe_smul, v, smul_eq_C_mul]
      exact hsum
    rw [this]
    exact Submodule.sum_mem _ fun s _ => Submodule.smul_mem _ _ (Submodule.subset_span ⟨s, rfl⟩)
  have hfin : Module.finrank ℝ (degreeLT ℝ (k + 1)) = k + 1 := by
    rw [LinearEquiv.finrank_eq (degreeLTEquiv ℝ (k + 1))]
    simp
  have hind : LinearIndependent ℝ v := linearIndependent_of_top_le_span_of_card_eq_finrank hspan (by simp [hfin])
  rw [Fintype.linearIndependent_iff] at hind
  rw [sum_pieces_eq hk] at h
  have := hind (fun s => c (l - k + s)) (by
    apply Subtype.ext
    rw [Submodule.coe_sum]
    simp only [Submodule.coe_smul, v, smul_eq_C_mul]
    exact h) ⟨i - (l - k), by omega⟩
  simpa [show l - k + (i - (l - k)) = i by omega] using this

/-- Coefficients are unique. -/
theorem pieces_inj (hm : Monotone t) (hl : t l < t (l + 1)) {k : ℕ} (hk : k ≤ l) {c d : ℕ → ℝ}
    (h : ∑ i ∈ range (l + 1), C (c i) * bpoly t l k i = ∑ i ∈ range (l + 1), C (d i) * bpoly t l k i) {i : ℕ}
    (h1 : l ≤ i + k) (h2 : i ≤ l) : c i = d i := by
  refine sub_eq_zero.mp (pieces_independent (c := fun i => c i - d i) hm hl hk ?_ h1 h2)
  simp only [C_sub, sub_mul, sum_sub_distrib, h, sub_self]

theorem dvd_iff_taylor {τ : ℝ} {n : ℕ} {p : ℝ[X]} : (X - C τ) ^ n ∣ p ↔ ∀ r < n, (taylor τ p).coeff r = 0 := by
  rw [X_sub_C_pow_dvd_iff, X_pow_dvd_iff, taylor_apply]

/-- The dual polynomial has a root wherever knots are between the first and the last one. -/
theorem dual_dvd {τ : ℝ} {a m k i : ℕ} (ha : i ≤ a) (hb : a + m ≤ i + k) (hτ : ∀ j, a < j → j ≤ a + m → t j = τ) :
    (X - C τ) ^ m ∣ dual t k i := by
  unfold dual
  obtain ⟨d, rfl⟩ := Nat.exists_eq_add_of_le ha
  obtain ⟨e, he⟩ := Nat.exists_eq_add_of_le hb
  rw [show k = d + m + e by omega, prod_range_add, prod_range_add]
  refine Dvd.dvd.mul_right (Dvd.dvd.mul_left ?_ _) _
  have : ∏ x ∈ range m, (C (t (i + 1 + (d + x))) - X) = (C τ - X) ^ m := by
    rw [prod_congr rfl (g := fun _ => C τ - X)]
    · simp
    · intro x hx
      have := mem_range.mp hx
      rw [hτ _ (by omega) (by omega)]
  rw [this, ← neg_sub X, neg_pow]
  exact Dvd.intro_left _ rfl

/-- Two pieces that fit at a knot have the same coefficients for the B-splines that are not zero on both sides. -/
theorem coefficient_zero {τ : ℝ} {a m k i : ℕ} (ha : i ≤ a) (hb : a + m ≤ i + k) (hτ : ∀ j, a < j → j ≤ a + m → t j = τ)
    {p : ℝ[X]} (hp : (X - C τ) ^ (k + 1 - m) ∣ p) : coefficient t k τ i p = 0 := by
  refine sum_eq_zero fun r hr => ?_
  have hrk := mem_range.mp hr
  by_cases hrm : r < k + 1 - m
  · rw [dvd_iff_taylor.mp hp r hrm, zero_mul]
  · rw [weight, dvd_iff_taylor.mp (dual_dvd ha hb hτ) (k - r) (by omega), mul_zero, mul_zero]

/-- The first pieces of the B-splines that begin at a knot. -/
theorem bpoly_dvd {τ : ℝ} {a : ℕ} (hτ : ∀ j, a < j → j ≤ l → t j = τ) {k i : ℕ} (hi : a < i) :
    (X - C τ) ^ (k + i - l) ∣ bpoly t l k i := by
  induction k generalizing i with
  | zero =>
    rw [bpoly]
    split
    · rename_i h; subst h; simp
    · exact dvd_zero _
  | succ k ih =>
    by_cases hil : l < i
    · rw [bpoly_zero (Or.inl hil)]; exact dvd_zero _
    rw [bpoly, hτ i hi (by omega)]
    refine dvd_add ?_ ?_
    · rw [mul_assoc]
      refine Dvd.dvd.mul_left ?_ _
      refine (pow_dvd_pow _ (show k + 1 + i - l ≤ (k + i - l) + 1 by omega)).trans ?_
      rw [pow_succ']
      exact mul_dvd_mul_left _ (ih hi)
    · refine Dvd.dvd.mul_left ?_ _
      rw [show k + 1 + i - l = k + (i + 1) - l by omega]
      exact ih (by omega)

/-- A combination of B-splines is smooth at the knots. -/
theorem combination_smooth (hm : Monotone t) {a m k : ℕ} (hk : k ≤ a) (h1 : t a < t (a + 1)) (h2 : t (a + m) < t (a + m + 1))
    {τ : ℝ} (hτ : ∀ j, a < j → j ≤ a + m → t j = τ) (c : ℕ → ℝ) :
    (X - C τ) ^ (k + 1 - m) ∣ ∑ i ∈ range (a + m + 1), C (c i) * bpoly t (a + m) k i -
      ∑ i ∈ range (a + 1), C (c i) * bpoly t a k i := by
  set p := ∑ i ∈ range (a + 1), C (c i) * bpoly t a k i with hp
  set q := ∑ i ∈ range (a + m + 1), C (c i) * bpoly t (a + m) k i with hq
  have hdeg : ∀ (b : ℕ), (∑ i ∈ range (b + 1), C (c i) * bpoly t b k i).natDegree ≤ k := fun b =>
    natDegree_sum_le_of_forall_le _ _ fun i _ => (natDegree_C_mul_le _ _).trans (bpoly_degree k i)
  have hpd : p.natDegree ≤ k := hdeg a
  have hqd : q.natDegree ≤ k := hdeg (a + m)
  have hcp := fun i => pieces_inj (i := i) hm h1 hk (hp.symm.trans (eq_sum_pieces hm h1 hk τ hpd))
  have hcq := fun i => pieces_inj (i := i) hm h2 (by omega) (hq.symm.trans (eq_sum_pieces hm h2 (by omega) τ hqd))
  rw [eq_sum_pieces hm h2 (show k ≤ a + m by omega) τ ((natDegree_sub_le _ _).trans (max_le hqd hpd))]
  refine dvd_sum fun i hi => ?_
  have him := mem_range.mp hi
  by_cases hia : a < i
  · refine Dvd.dvd.mul_left ((pow_dvd_pow _ ?_).trans (bpoly_dvd hτ hia)) _
    omega
  · by_cases hlow : a + m ≤ i + k
    · rw [coefficient_sub, ← hcp i (by omega) (by omega), ← hcq i hlow (by omega), sub_self, C_0, zero_mul]
      exact dvd_zero _
    · rw [bpoly_zero (by omega), mul_zero]
      exact dvd_zero _

/-- Pieces that fit at the knots are a combination of B-splines. -/
theorem smooth_combination (hm : Monotone t) {k n : ℕ} (q : ℕ → ℝ[X]) (hdeg : ∀ l, (q l).natDegree ≤ k)
    (hfit : ∀ a m, k ≤ a → a + m < n → t a < t (a + 1) → t (a + m) < t (a + m + 1) → 0 < m →
      (∀ j, a < j → j ≤ a + m → t j = t (a + 1)) → (X - C (t (a + 1))) ^ (k + 1 - m) ∣ q (a + m) - q a) :
    ∃ c : ℕ → ℝ, ∀ l, k ≤ l → l < n → t l < t (l + 1) → q l = ∑ i ∈ range (l + 1), C (c i) * bpoly t l k i := by
  -- the coefficients on one interval
  have hsame : ∀ m a i, k ≤ a → a + m < n → t a < t (a + 1) → t (a + m) < t (a + m + 1) → i ≤ a → a + m ≤ i + k →
      coefficient t k 0 i (q (a + m)) = coefficient t k 0 i (q a) := by
    intro m
    induction m using Nat.strong_induction_on with
    | _ m ih =>
      intro a i hka hn h1 h2 hia hik
      by_cases hm0 : m = 0
      · subst hm0; rfl
      by_cases hmid : ∃ m' < m, 0 < m' ∧ t (a + m') < t (a + m' + 1)
      · obtain ⟨m', hm', hpos, hlt⟩ := hmid
        rw [← ih m' hm' a i hka (by omega) h1 hlt hia (by omega)]
        have := ih (m - m') (by omega) (a + m') i (by omega) (by omega) hlt
          (by rwa [show a + m' + (m - m') = a + m by omega]) (by omega) (by omega)
        rwa [show a + m' + (m - m') = a + m by omega] at this
      · push Not at hmid
        have hconst : ∀ j, a < j → j ≤ a + m → t j = t (a + 1) := by
          intro j
          induction j with
          | zero => intro h; omega
          | succ j ihj =>
            intro h3 h4
            by_cases hj : j = a
            · rw [hj]
            · have := hmid (j - a) (by omega) (by omega)
              rw [show a + (j - a) = j by omega] at this
              rw [← ihj (by omega) (by omega)]
              exact le_antisymm this (hm (Nat.le_succ j))
        have hd := hfit a m hka hn h1 h2 (by omega) hconst
        have hz := coefficient_zero hia hik hconst hd
        rw [coefficient_sub, sub_eq_zero] at hz
        -- the coefficient does not depend on the point
        have hindep : ∀ b, k ≤ b → t b < t (b + 1) → i ≤ b → b ≤ i + k →
            coefficient t k 0 i (q b) = coefficient t k (t (a + 1)) i (q b) := fun b hb1 hb2 hb3 hb4 =>
          pieces_inj hm hb2 hb1 ((eq_sum_pieces hm hb2 hb1 0 (hdeg b)).symm.trans
            (eq_sum_pieces hm hb2 hb1 (t (a + 1)) (hdeg b))) hb4 hb3
        rw [hindep (a + m) (by omega) h2 (by omega) hik, hindep a hka h1 hia (by omega), hz]
  classical
  refine ⟨fun i => if h : ∃ l, k ≤ l ∧ l < n ∧ t l < t (l + 1) ∧ i ≤ l ∧ l ≤ i + k then
    coefficient t k 0 i (q h.choose) else 0, fun l hk hn hl => ?_⟩
  conv_lhs => rw [eq_sum_pieces hm hl hk 0 (hdeg l)]
  refine sum_congr rfl fun i hi => ?_
  have hil := mem_range.mp hi
  by_cases hlow : l ≤ i + k
  · have hex : ∃ l, k ≤ l ∧ l < n ∧ t l < t (l + 1) ∧ i ≤ l ∧ l ≤ i + k := ⟨l, hk, hn, hl, by omega, hlow⟩
    beta_reduce
    rw [dif_pos hex]
    obtain ⟨g1, g2, g3, g4, g5⟩ := hex.choose_spec
    congr 2
    rcases le_total l hex.choose with hle | hle
    · obtain ⟨m, hm'⟩ := Nat.exists_eq_add_of_le hle
      rw [hm'] at g2 g3 g5 ⊢
      exact (hsame m l i hk g2 hl g3 (by omega) g5).symm
    · obtain ⟨m, hm'⟩ := Nat.exists_eq_add_of_le hle
      have := hsame m hex.choose i g1 (by omega) g3 (by rw [← hm']; exact hl) g4 (by omega)
      rwa [← hm'] at this
  · rw [bpoly_zero (by omega), mul_zero, mul_zero]

end Patsy.BSpline
