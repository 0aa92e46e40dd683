import Verif.Lemmas.CubicSpline
import Mathlib.Analysis.Calculus.ContDiff.Basic
import Mathlib.Analysis.Calculus.ContDiff.Operations
import Mathlib.Analysis.Calculus.Deriv.Pow
import Mathlib.Analysis.Calculus.ContDiff.Deriv

/-! # Natural cubic regression splines are twice continuously differentiable -/

namespace Patsy.CubicSpline

open Patsy.Spec

/-- Second derivatives at the knots. -/
noncomputable def curvature (n : Nat) (knots β : Nat → ℝ) (j : Nat) : ℝ := ∑ c : Fin (n + 2), naturalF n knots j c * β c

theorem curvature_zero (n : Nat) (knots β : Nat → ℝ) : curvature n knots β 0 = 0 := by
  simp [curvature, naturalF]

theorem curvature_last (n : Nat) (knots β : Nat → ℝ) : curvature n knots β (n + 1) = 0 := by
  simp [curvature, naturalF]

theorem natural_system {n : Nat} {knots : Nat → ℝ} (hk : KnotsIncrease (n + 2) knots) (β : Nat → ℝ) {i : Nat} (hi : i < n) :
    gap knots i / 6 * curvature n knots β i + (gap knots i + gap knots (i + 1)) / 3 * curvature n knots β (i + 1) +
      gap knots (i + 1) / 6 * curvature n knots β (i + 2) =
    (β (i + 2) - β (i + 1)) / gap knots (i + 1) - (β (i + 1) - β i) / gap knots i := by
  have hdet := natural_b_det hk
  have hB : bandedMatrix n (bandedB n knots) * ((bandedMatrix n (bandedB n knots))⁻¹ * naturalD n knots) =
      naturalD n knots := by
    rw [← Matrix.mul_assoc, Matrix.mul_nonsing_inv _ (isUnit_iff_ne_zero.mpr hdet), Matrix.one_mul]
  have hv : (bandedMatrix n (bandedB n knots)).mulVec
      (((bandedMatrix n (bandedB n knots))⁻¹ * naturalD n knots).mulVec fun c => β c) =
      (naturalD n knots).mulVec fun c => β c := by
    rw [Matrix.mulVec_mulVec, hB]
  have hrow := congrFun hv ⟨i, hi⟩
  have hcurv : ∀ j : Fin n, ((bandedMatrix n (bandedB n knots))⁻¹ * naturalD n knots).mulVec (fun c => β c) j =
      curvature n knots β (j + 1) := by
    intro j
    simp only [Matrix.mulVec, dotProduct, curvature]
    apply Finset.sum_congr rfl
    intro c _
    rw [naturalF, dif_pos ⟨by omega, by simp⟩]
    simp
  rw [Matrix.mulVec, Matrix.mulVec, dotProduct, dotProduct] at hrow
  have hl : ∑ j : Fin n, bandedMatrix n (bandedB n knots) ⟨i, hi⟩ j *
      ((bandedMatrix n (bandedB n knots))⁻¹ * naturalD n knots).mulVec (fun c => β c) j =
      ∑ j : Fin n, (fun j : Nat => (if j = i then (gap knots i + gap knots (i + 1)) / 3
        else if j = i + 1 then gap knots (i + 1) / 6 else if j + 1 = i then gap knots i / 6 else 0) *
        curvature n knots β (j + 1)) j := by
    apply Finset.sum_congr rfl
    intro j _
    rw [bandedMatrix_apply, hcurv j]
  rw [hl, sum_three (fun j : Nat => (if j = i then (gap knots i + gap knots (i + 1)) / 3
    else if j = i + 1 then gap knots (i + 1) / 6 else if j + 1 = i then gap knots i / 6 else 0) *
    curvature n knots β (j + 1)) i hi (by intro j _ h1 h2 h3; simp [h1, h2, h3])] at hrow
  have hr : ∑ c : Fin (n + 2), naturalD n knots ⟨i, hi⟩ c * β c =
      ∑ c : Fin (n + 2), (fun c : Nat => (if c = i then 1 / gap knots i else if c = i + 2 then 1 / gap knots (i + 1)
        else if c = i + 1 then -(1 / gap knots i) - 1 / gap knots (i + 1) else 0) * β c) c := by
    apply Finset.sum_congr rfl
    intro c _
    rfl
  rw [hr, sum_three (fun c : Nat => (if c = i then 1 / gap knots i else if c = i + 2 then 1 / gap knots (i + 1)
    else if c = i + 1 then -(1 / gap knots i) - 1 / gap knots (i + 1) else 0) * β c) (i + 1) (by omega) (by
    intro j _ h1 h2 h3
    have h3 : j ≠ i := by omega
    have h2 : j ≠ i + 2 := by omega
    simp [h1, h2, h3])] at hrow
  simp only [if_true, show ¬ (i + 1 = i) by omega, if_false, show i + 1 + 1 < n + 2 by omega,
    show 1 ≤ i + 1 by omega, show i + 1 - 1 = i by omega, show ¬ (i + 1 + 1 = i) by omega,
    show i + 1 + 1 = i + 2 by omega, show ¬ (i + 1 = i + 2) by omega] at hrow
  have hup : (if i + 1 < n then gap knots (i + 1) / 6 * curvature n knots β (i + 2) else 0) =
      gap knots (i + 1) / 6 * curvature n knots β (i + 2) := by
    split
    · rfl
    · rw [show i + 2 = n + 1 by omega, curvature_last, mul_zero]
  have hdown : (if 1 ≤ i then (if i - 1 = i then (gap knots i + gap knots (i + 1)) / 3
        else if i - 1 = i + 1 then gap knots (i + 1) / 6 else if i - 1 + 1 = i then gap knots i / 6 else 0) *
        curvature n knots β (i - 1 + 1) else 0) = gap knots i / 6 * curvature n knots β i := by
    split
    · rw [if_neg (by omega), if_neg (by omega), if_pos (by omega), show i - 1 + 1 = i by omega]
    · rw [show i = 0 by omega, curvature_zero, mul_zero]
  rw [hup, hdown] at hrow
  have g0 : gap knots i ≠ 0 := (gap_pos hk (by omega)).ne'
  have g1 : gap knots (i + 1) ≠ 0 := (gap_pos hk (by omega)).ne'
  linear_combination hrow

/-- The value of the spline with given coefficients. -/
noncomputable def naturalValue (n : Nat) (knots β : Nat → ℝ) (x : ℝ) : ℝ :=
  let b := baseFunctions (n + 2) knots x
  b.ajm * β b.j + b.ajp * β (b.j + 1) + b.cjm * curvature n knots β b.j + b.cjp * curvature n knots β (b.j + 1)

theorem sum_unit (N : Nat) (β : Nat → ℝ) (j : Nat) (hj : j < N) :
    ∑ c : Fin N, (if j = (c : Nat) then (1 : ℝ) else 0) * β c = β j := by
  rw [Finset.sum_eq_single (⟨j, hj⟩ : Fin N)]
  · simp
  · intro b _ hb
    rw [if_neg fun h => hb (Fin.ext h.symm), zero_mul]
  · simp

theorem base_j {size : Nat} (hs : 2 ≤ size) {knots : Nat → ℝ} (hk : KnotsIncrease size knots) (x : ℝ) :
    (baseFunctions size knots x).j + 2 ≤ size ∧ (x ≤ knots 0 → (baseFunctions size knots x).j = 0) ∧
      (knots (size - 1) < x → (baseFunctions size knots x).j + 2 = size) ∧
      (knots 0 < x → knots (baseFunctions size knots x).j < x) ∧
      (x ≤ knots (size - 1) → x ≤ knots ((baseFunctions size knots x).j + 1)) := by
  obtain ⟨j, h1, h2⟩ := lowerBound_spec hs hk x
  simp only [baseFunctions, h1, Int.toNat_natCast]
  exact h2

/-- A combination of the basis functions. -/
theorem naturalRow_sum {n : Nat} (hn : n ≠ 0) {knots : Nat → ℝ} (hk : KnotsIncrease (n + 2) knots) (β : Nat → ℝ) (x : ℝ) :
    ∃ row, naturalRow n knots x = .ok row ∧ ∑ c, row c * β c = naturalValue n knots β x := by
  refine ⟨_, by rw [naturalRow, if_neg hn], ?_⟩
  have hj := (base_j (by omega) hk x).1
  simp only [naturalValue, add_mul, Finset.sum_add_distrib]
  congr 1
  · congr 1
    · congr 1
      · rw [← sum_unit (n + 2) β _ (show (baseFunctions (n + 2) knots x).j < n + 2 by omega), Finset.mul_sum]
        exact Finset.sum_congr rfl fun c _ => mul_assoc _ _ _
      · rw [← sum_unit (n + 2) β _ (show (baseFunctions (n + 2) knots x).j + 1 < n + 2 by omega), Finset.mul_sum]
        exact Finset.sum_congr rfl fun c _ => mul_assoc _ _ _
    · rw [curvature, Finset.mul_sum]
      exact Finset.sum_congr rfl fun c _ => mul_assoc _ _ _
  · rw [curvature, Finset.mul_sum]
    exact Finset.sum_congr rfl fun c _ => mul_assoc _ _ _

theorem curvature_one (n : Nat) (knots : Nat → ℝ) (j : Nat) : curvature n knots (fun _ => 1) j = 0 := by
  by_cases h : 1 ≤ j ∧ j - 1 < n
  · have hD : (naturalD n knots).mulVec (fun _ => (1 : ℝ)) = 0 := by
      funext i
      simp only [Matrix.mulVec, dotProduct, Pi.zero_apply]
      have hr : ∑ c : Fin (n + 2), naturalD n knots i c * 1 =
          ∑ c : Fin (n + 2), (fun c : Nat => if c = i then 1 / gap knots i else if c = i + 2 then 1 / gap knots (i + 1)
            else if c = i + 1 then -(1 / gap knots i) - 1 / gap knots (i + 1) else 0) c := by
        apply Finset.sum_congr rfl
        intro c _
        rw [mul_one]
        rfl
      rw [hr, sum_three (fun c : Nat => if c = i then 1 / gap knots i else if c = i + 2 then 1 / gap knots (i + 1)
        else if c = i + 1 then -(1 / gap knots i) - 1 / gap knots (i + 1) else 0) ((i : Nat) + 1) (by omega) (by
        intro j _ h1 h2 h3
        have h3 : j ≠ i := by omega
        have h2 : j ≠ i + 2 := by omega
        simp [h1, h2, h3])]
      simp only [if_true, show ¬ ((i : Nat) + 1 = i) by omega, if_false, show (i : Nat) + 1 + 1 < n + 2 by omega,
        show 1 ≤ (i : Nat) + 1 by omega, show (i : Nat) + 1 - 1 = i by omega, show ¬ ((i : Nat) + 1 + 1 = i) by omega,
        show (i : Nat) + 1 + 1 = i + 2 by omega, show ¬ ((i : Nat) + 1 = i + 2) by omega]
      ring
    have e : curvature n knots (fun _ => 1) j =
        (((bandedMatrix n (bandedB n knots))⁻¹ * naturalD n knots).mulVec fun _ => (1 : ℝ)) ⟨j - 1, h.2⟩ := by
      simp only [curvature, Matrix.mulVec, dotProduct]
      apply Finset.sum_congr rfl
      intro c _
      rw [naturalF, dif_pos h]
    rw [e, ← Matrix.mulVec_mulVec, hD, Matrix.mulVec_zero]
    rfl
  · simp [curvature, naturalF, h]

/-! ### Truncated powers -/

/-- The line to the left. -/
noncomputable def leftLine (knots β δ : Nat → ℝ) (x : ℝ) : ℝ :=
  β 0 * (knots 1 - x) / gap knots 0 + β 1 * (x - knots 0) / gap knots 0 - gap knots 0 * (x - knots 0) / 6 * δ 1

/-- The change of the third derivative (divided by six) at a knot; `n + 1` intervals. -/
noncomputable def jump (n : Nat) (knots δ : Nat → ℝ) (k : Nat) : ℝ :=
  (if k < n + 1 then (δ (k + 1) - δ k) / (6 * gap knots k) else 0) -
    if 1 ≤ k then (δ k - δ (k - 1)) / (6 * gap knots (k - 1)) else 0

/-- The cubic between the knots `j` and `j + 1`. -/
noncomputable def piece (knots β δ : Nat → ℝ) (j : Nat) (x : ℝ) : ℝ :=
  (knots (j + 1) - x) / gap knots j * β j + (x - knots j) / gap knots j * β (j + 1) +
    ((knots (j + 1) - x) ^ 3 / (6 * gap knots j) - gap knots j * (knots (j + 1) - x) / 6) * δ j +
    ((x - knots j) ^ 3 / (6 * gap knots j) - gap knots j * (x - knots j) / 6) * δ (j + 1)

/-- Adjacent pieces agree up to the second derivative. -/
theorem piece_succ {knots β δ : Nat → ℝ} {j : Nat} (g0 : gap knots j ≠ 0) (g1 : gap knots (j + 1) ≠ 0)
    (h : gap knots j / 6 * δ j + (gap knots j + gap knots (j + 1)) / 3 * δ (j + 1) + gap knots (j + 1) / 6 * δ (j + 2) =
      (β (j + 2) - β (j + 1)) / gap knots (j + 1) - (β (j + 1) - β j) / gap knots j) (x : ℝ) :
    piece knots β δ (j + 1) x = piece knots β δ j x +
      ((δ (j + 2) - δ (j + 1)) / (6 * gap knots (j + 1)) - (δ (j + 1) - δ j) / (6 * gap knots j)) *
        (x - knots (j + 1)) ^ 3 := by
  have e1 : knots (j + 2) = knots (j + 1) + gap knots (j + 1) := by simp [gap]
  have e0 : knots j = knots (j + 1) - gap knots j := by simp [gap]
  simp only [piece, show j + 1 + 1 = j + 2 from rfl]
  rw [e1, e0]
  generalize knots (j + 1) = κ at *
  generalize gap knots j = a at *
  generalize gap knots (j + 1) = b at *
  have key := congrArg (fun z => z * (x - κ)) h
  field_simp at key ⊢
  linear_combination (-1 / 3 : ℝ) * key

theorem piece_zero {knots β δ : Nat → ℝ} (hδ : δ 0 = 0) (x : ℝ) :
    piece knots β δ 0 x = leftLine knots β δ x + (δ 1 - δ 0) / (6 * gap knots 0) * (x - knots 0) ^ 3 := by
  simp only [piece, leftLine, hδ]
  ring

theorem piece_eq {n : Nat} {knots β δ : Nat → ℝ} (hk : KnotsIncrease (n + 2) knots) (hδ : δ 0 = 0)
    (hs : ∀ i, i < n → gap knots i / 6 * δ i + (gap knots i + gap knots (i + 1)) / 3 * δ (i + 1) +
      gap knots (i + 1) / 6 * δ (i + 2) = (β (i + 2) - β (i + 1)) / gap knots (i + 1) - (β (i + 1) - β i) / gap knots i)
    (j : Nat) (hj : j < n + 1) (x : ℝ) :
    piece knots β δ j x = leftLine knots β δ x + ∑ k ∈ Finset.range (j + 1), jump n knots δ k * (x - knots k) ^ 3 := by
  induction j with
  | zero =>
    rw [piece_zero hδ]
    simp [jump]
  | succ j ih =>
    rw [piece_succ (gap_pos hk (by omega)).ne' (gap_pos hk (by omega)).ne' (hs j (by omega)), ih (by omega),
      Finset.sum_range_succ _ (j + 1)]
    have : jump n knots δ (j + 1) =
        (δ (j + 2) - δ (j + 1)) / (6 * gap knots (j + 1)) - (δ (j + 1) - δ j) / (6 * gap knots j) := by
      simp [jump, hj]
    rw [this]
    ring

/-- The spline as a line and truncated cubes. -/
theorem naturalValue_eq {n : Nat} {knots : Nat → ℝ} (hk : KnotsIncrease (n + 2) knots) (β : Nat → ℝ) (x : ℝ) :
    naturalValue n knots β x = leftLine knots β (curvature n knots β) x +
      ∑ k ∈ Finset.range (n + 2), jump n knots (curvature n knots β) k * max (x - knots k) 0 ^ 3 := by
  obtain ⟨h1, h2, h3, h4, h5⟩ := base_j (by omega) hk x
  have hval : naturalValue n knots β x =
      let j := (baseFunctions (n + 2) knots x).j
      (knots (j + 1) - x) / gap knots j * β j + (x - knots j) / gap knots j * β (j + 1) +
        ((if x > knots (n + 1) then 0 else (knots (j + 1) - x) ^ 3 / (6 * gap knots j)) -
          gap knots j * (knots (j + 1) - x) / 6) * curvature n knots β j +
        ((if x < knots 0 then 0 else (x - knots j) ^ 3 / (6 * gap knots j)) - gap knots j * (x - knots j) / 6) *
          curvature n knots β (j + 1) := by
    simp only [naturalValue, baseFunctions, gap, show n + 2 - 1 = n + 1 from rfl, pow_succ, pow_zero, one_mul]
  rw [hval]
  clear hval
  generalize (baseFunctions (n + 2) knots x).j = j at *
  dsimp only
  have hδ0 := curvature_zero n knots β
  have hδl := curvature_last n knots β
  have hsys : ∀ i, i < n → _ := fun i hi => natural_system hk β hi
  generalize curvature n knots β = δ at *
  have hp := fun j hj => piece_eq (β := β) hk hδ0 hsys j hj x
  by_cases hx0 : x < knots 0
  · -- left of all knots
    have hj : j = 0 := h2 hx0.le
    subst hj
    have hmax : ∀ k ∈ Finset.range (n + 2), jump n knots δ k * max (x - knots k) 0 ^ 3 = 0 := by
      intro k hk'
      have hle : knots 0 ≤ knots k := by
        rcases Nat.eq_zero_or_pos k with rfl | hpos
        · exact le_rfl
        · exact (hk 0 k hpos (Finset.mem_range.mp hk')).le
      rw [max_eq_right (by linarith)]
      simp
    rw [Finset.sum_eq_zero hmax, if_pos hx0, hδ0, leftLine]
    ring
  · rw [if_neg hx0]
    by_cases hx1 : x > knots (n + 1)
    · have hj : j = n := by
        have := h3 hx1
        omega
      subst hj
      rw [if_pos hx1]
      have hmax : ∀ k ∈ Finset.range (j + 2), jump j knots δ k * max (x - knots k) 0 ^ 3 =
          jump j knots δ k * (x - knots k) ^ 3 := by
        intro k hk'
        have hle : knots k ≤ knots (j + 1) := by
          rcases Nat.lt_or_ge k (j + 1) with hlt | hge
          · exact (hk k (j + 1) hlt (by omega)).le
          · rw [show k = j + 1 by have := Finset.mem_range.mp hk'; omega]
        rw [max_eq_left (by linarith)]
      rw [Finset.sum_congr rfl hmax, Finset.sum_range_succ, ← add_assoc, ← hp j (by omega)]
      have : jump j knots δ (j + 1) = -((δ (j + 1) - δ j) / (6 * gap knots j)) := by simp [jump]
      rw [this, hδl, piece, hδl]
      ring
    · rw [if_neg hx1]
      have hle : x ≤ knots (j + 1) := h5 (not_lt.mp hx1)
      have hlow : knots j ≤ x := by
        rcases eq_or_lt_of_le (not_lt.mp hx0) with h | h
        · rw [h2 h.symm.le, h]
        · exact (h4 h).le
      have hsum : ∑ k ∈ Finset.range (n + 2), jump n knots δ k * max (x - knots k) 0 ^ 3 =
          ∑ k ∈ Finset.range (j + 1), jump n knots δ k * (x - knots k) ^ 3 := by
        rw [← Finset.sum_range_add_sum_Ico _ (show j + 1 ≤ n + 2 by omega)]
        rw [Finset.sum_eq_zero (s := Finset.Ico (j + 1) (n + 2)), add_zero]
        · apply Finset.sum_congr rfl
          intro k hk'
          have : knots k ≤ knots j := by
            rcases Nat.lt_or_ge k j with h | h
            · exact (hk k j h (by omega)).le
            · rw [show k = j by have := Finset.mem_range.mp hk'; omega]
          rw [max_eq_left (by linarith)]
        · intro k hk'
          rw [Finset.mem_Ico] at hk'
          have : knots (j + 1) ≤ knots k := by
            rcases Nat.lt_or_ge (j + 1) k with h | h
            · exact (hk (j + 1) k h hk'.2).le
            · rw [show k = j + 1 by omega]
          rw [max_eq_right (by linarith)]
          simp
      rw [hsum, ← hp j (by omega), piece]

/-! ### Smoothness -/

theorem hasDerivAt_trunc (m : Nat) (x : ℝ) :
    HasDerivAt (fun y : ℝ => max y 0 ^ (m + 2)) ((m + 2 : ℕ) * max x 0 ^ (m + 1)) x := by
  rcases lt_trichotomy x 0 with h | h | h
  · have e : (fun y : ℝ => max y 0 ^ (m + 2)) =ᶠ[nhds x] fun _ => 0 := by
      filter_upwards [Iio_mem_nhds h] with y hy
      rw [max_eq_right (le_of_lt hy)]
      simp
    rw [max_eq_right h.le]
    simpa using (hasDerivAt_const x (0 : ℝ)).congr_of_eventuallyEq e
  · subst h
    have : HasDerivAt (fun y : ℝ => max y 0 ^ (m + 2)) 0 0 := by
      rw [hasDerivAt_iff_isLittleO]
      simp only [max_self, sub_zero, smul_zero, ne_eq, Nat.add_eq_zero_iff, OfNat.ofNat_ne_zero, and_false,
        not_false_eq_true, zero_pow]
      have hb : (fun y : ℝ => max y 0 ^ (m + 2)) =O[nhds 0] fun y : ℝ => y ^ (m + 2) := by
        apply Asymptotics.IsBigO.of_bound 1
        filter_upwards with y
        rw [one_mul, norm_pow, norm_pow]
        apply pow_le_pow_left₀ (norm_nonneg _)
        rw [Real.norm_eq_abs, Real.norm_eq_abs, abs_of_nonneg (le_max_right _ _)]
        exact max_le (le_abs_self y) (abs_nonneg y)
      refine hb.trans_isLittleO ?_
      have := Asymptotics.isLittleO_pow_pow (𝕜 := ℝ) (show 1 < m + 2 by omega)
      simpa using this
    simpa using this
  · have e : (fun y : ℝ => max y 0 ^ (m + 2)) =ᶠ[nhds x] fun y => y ^ (m + 2) := by
      filter_upwards [Ioi_mem_nhds h] with y hy
      rw [max_eq_left (le_of_lt hy)]
    rw [max_eq_left h.le]
    simpa using (hasDerivAt_pow (m + 2) x).congr_of_eventuallyEq e

theorem contDiff_trunc : ContDiff ℝ 2 fun y : ℝ => max y 0 ^ 3 := by
  have h1 : deriv (fun y : ℝ => max y 0 ^ 3) = fun x => 3 * max x 0 ^ 2 := by
    funext x
    simpa using (hasDerivAt_trunc 1 x).deriv
  have h2 : deriv (fun y : ℝ => max y 0 ^ 2) = fun x => 2 * max x 0 := by
    funext x
    simpa using (hasDerivAt_trunc 0 x).deriv
  rw [show (2 : WithTop ℕ∞) = 1 + 1 by norm_num, contDiff_succ_iff_deriv]
  refine ⟨fun x => (hasDerivAt_trunc 1 x).differentiableAt, by simp, ?_⟩
  rw [h1]
  refine contDiff_const.mul ?_
  rw [show (1 : WithTop ℕ∞) = 0 + 1 by norm_num, contDiff_succ_iff_deriv]
  refine ⟨fun x => (hasDerivAt_trunc 0 x).differentiableAt, by simp, ?_⟩
  rw [h2]
  exact contDiff_zero.mpr (continuous_const.mul (continuous_id.max continuous_const))

theorem naturalValue_contDiff {n : Nat} {knots : Nat → ℝ} (hk : KnotsIncrease (n + 2) knots) (β : Nat → ℝ) :
    ContDiff ℝ 2 (naturalValue n knots β) := by
  rw [show naturalValue n knots β = _ from funext fun x => naturalValue_eq hk β x]
  refine ContDiff.add ?_ ?_
  · unfold leftLine
    fun_prop
  · apply ContDiff.sum
    intro k _
    refine contDiff_const.mul ?_
    exact contDiff_trunc.comp (contDiff_id.sub contDiff_const)

end Patsy.CubicSpline
