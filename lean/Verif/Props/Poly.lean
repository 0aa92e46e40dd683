import Mathlib.LinearAlgebra.Matrix.Block
import Mathlib.LinearAlgebra.Matrix.NonsingularInverse
import Mathlib.LinearAlgebra.Vandermonde
import Verif.Props.Contrasts

/-!
# C27 for polynomial contrasts
-/

namespace Patsy.Props

open Patsy.Cat (PyVal)
open Patsy.Build (ContrastMatrix)
open Patsy.Contrast
open Finset (range sum_range_succ sum_range_succ')

/-- The contract of `np.linalg.qr` for an `n × n` array: `a = q r`, the columns of `q` are orthonormal and `r`
is upper triangular. -/
structure IsQR (n : Nat) (a q r : Nat → Nat → ℝ) : Prop where
  product : ∀ i < n, ∀ j < n, a i j = ∑ k ∈ range n, q i k * r k j
  orthonormal : ∀ j < n, ∀ k < n, ∑ i ∈ range n, q i j * q i k = if j = k then 1 else 0
  triangular : ∀ i < n, ∀ j < i, r i j = 0

/-- An array as a matrix. -/
def asMatrix (n : Nat) (a : Nat → Nat → ℝ) : Matrix (Fin n) (Fin n) ℝ := fun i j => a i j

theorem qr_mul {n : Nat} {a q r : Nat → Nat → ℝ} (h : IsQR n a q r) :
    asMatrix n a = asMatrix n q * asMatrix n r := by
  ext i j
  rw [Matrix.mul_apply]
  simp only [asMatrix]
  rw [h.product i i.2 j j.2, Finset.sum_range]

theorem qr_orth {n : Nat} {a q r : Nat → Nat → ℝ} (h : IsQR n a q r) :
    (asMatrix n q).transpose * asMatrix n q = 1 := by
  ext j k
  rw [Matrix.mul_apply, Matrix.one_apply]
  simp only [asMatrix, Matrix.transpose_apply]
  have := h.orthonormal j j.2 k k.2
  rw [Finset.sum_range] at this
  rw [this]
  simp [Fin.ext_iff]

theorem qr_orth' {n : Nat} {a q r : Nat → Nat → ℝ} (h : IsQR n a q r) {i l : Nat} (hi : i < n) (hl : l < n) :
    ∑ k ∈ range n, q i k * q l k = if i = l then 1 else 0 := by
  have h1 := mul_eq_one_comm.mp (qr_orth h)
  have h2 := congrFun (congrFun h1 ⟨i, hi⟩) ⟨l, hl⟩
  rw [Matrix.mul_apply, Matrix.one_apply] at h2
  simp only [asMatrix, Matrix.transpose_apply, Fin.mk.injEq] at h2
  rw [Finset.sum_range]
  exact h2

theorem qr_tri {n : Nat} {a q r : Nat → Nat → ℝ} (h : IsQR n a q r) :
    (asMatrix n r).BlockTriangular id := by
  intro i j hij
  exact h.triangular i i.2 j hij

theorem qr_det {n : Nat} {a q r : Nat → Nat → ℝ} (h : IsQR n a q r) (ha : (asMatrix n a).det ≠ 0) :
    (asMatrix n r).det ≠ 0 := by
  rw [qr_mul h, Matrix.det_mul] at ha
  exact right_ne_zero_of_mul ha

theorem qr_diag {n : Nat} {a q r : Nat → Nat → ℝ} (h : IsQR n a q r) (ha : (asMatrix n a).det ≠ 0) {j : Nat}
    (hj : j < n) : r j j ≠ 0 := by
  have hd := qr_det h ha
  rw [Matrix.det_of_isUpperTriangular (qr_tri h), Finset.prod_ne_zero_iff] at hd
  exact hd ⟨j, hj⟩ (Finset.mem_univ _)

theorem sign_sq {x : ℝ} (hx : x ≠ 0) : Real.sign x * Real.sign x = 1 := by
  rcases lt_or_gt_of_ne hx with h | h
  · rw [Real.sign_of_neg h]; norm_num
  · rw [Real.sign_of_pos h]; norm_num

/-- The determinant of the raw polynomials does not vanish when the scores are distinct. -/
theorem raw_det {scores : List ℝ} (h : scores.Nodup) :
    (asMatrix scores.length (rawPoly scores)).det ≠ 0 := by
  have he : asMatrix scores.length (rawPoly scores) =
      Matrix.vandermonde fun i : Fin scores.length => scores[i] - scores.sum / scores.length := by
    ext i j
    rw [Matrix.vandermonde_apply]
    simp [asMatrix, rawPoly]
  rw [he, Matrix.det_vandermonde_ne_zero_iff]
  intro i j hij
  have : scores[i] = scores[j] := by
    simp only at hij
    linarith
  exact Fin.ext ((List.Nodup.getElem_inj_iff h).mp this)

theorem polyMatrix_eq {qr : Nat → (Nat → Nat → ℝ) → (Nat → Nat → ℝ) × (Nat → Nat → ℝ)}
    {scores : List ℝ}
    (hqr : IsQR scores.length (rawPoly scores) (qr scores.length (rawPoly scores)).1
      (qr scores.length (rawPoly scores)).2) (hd : scores.Nodup) {i j : Nat}
    (hj : j < scores.length) (hj0 : j ≠ 0) :
    polyMatrix qr scores i j = (qr scores.length (rawPoly scores)).1 i j *
      Real.sign ((qr scores.length (rawPoly scores)).2 j j) := by
  have h := hqr
  simp only [polyMatrix, hj0, if_false]
  have h1 : ∑ k ∈ range scores.length, ((qr scores.length (rawPoly scores)).1 j k *
      Real.sign ((qr scores.length (rawPoly scores)).2 k k)) ^ 2 = 1 := by
    have := qr_orth' h hj hj
    rw [if_pos rfl] at this
    rw [← this]
    apply Finset.sum_congr rfl
    intro k hk
    have hs := sign_sq (qr_diag h (raw_det hd) (Finset.mem_range.mp hk))
    rw [mul_pow, sq, sq, hs, mul_one]
  rw [h1, Real.sqrt_one, div_one]

/-- The columns of a polynomial contrast for the given scores: each has length one, they are orthogonal to each
other and to the constant, and column `j` is a polynomial of degree `j + 1` in the scores with a positive
leading coefficient. -/
structure IsPolynomial (scores : List ℝ) (m : List (List ℝ)) : Prop where
  orthonormal : ∀ j < scores.length - 1, ∀ k < scores.length - 1,
    ∑ i ∈ range scores.length, entry m i j * entry m i k = if j = k then 1 else 0
  zeroSum : ∀ j < scores.length - 1, ∑ i ∈ range scores.length, entry m i j = 0
  polynomial : ∀ j < scores.length - 1, ∃ c : Nat → ℝ, 0 < c (j + 1) ∧
    ∀ (i : Nat) (s : ℝ), scores[i]? = some s →
      entry m i j = ∑ k ∈ range (j + 2), c k * (s - scores.sum / scores.length) ^ k

theorem poly_columns {qr : Nat → (Nat → Nat → ℝ) → (Nat → Nat → ℝ) × (Nat → Nat → ℝ)}
    {scores : List ℝ}
    (hqr : IsQR scores.length (rawPoly scores) (qr scores.length (rawPoly scores)).1
      (qr scores.length (rawPoly scores)).2) (hd : scores.Nodup) :
    IsPolynomial scores (matOf scores.length (scores.length - 1) fun i j => polyMatrix qr scores i (j + 1)) := by
  have h := hqr
  set q := (qr scores.length (rawPoly scores)).1 with hq
  set r := (qr scores.length (rawPoly scores)).2 with hr
  set n := scores.length with hn
  have hdiag : ∀ j < n, r j j ≠ 0 := fun j hj => qr_diag h (raw_det hd) hj
  have hent : ∀ i < n, ∀ j < n - 1, entry (matOf n (n - 1) fun i j => polyMatrix qr scores i (j + 1)) i j =
      q i (j + 1) * Real.sign (r (j + 1) (j + 1)) := by
    intro i hi j hj
    rw [entry_matOf, if_pos ⟨hi, hj⟩, polyMatrix_eq hqr hd (by omega) (by omega)]
  refine ⟨?_, ?_, ?_⟩
  · intro j hj k hk
    have h1 : ∑ i ∈ range n, entry (matOf n (n - 1) fun i j => polyMatrix qr scores i (j + 1)) i j *
        entry (matOf n (n - 1) fun i j => polyMatrix qr scores i (j + 1)) i k =
        (∑ i ∈ range n, q i (j + 1) * q i (k + 1)) *
          (Real.sign (r (j + 1) (j + 1)) * Real.sign (r (k + 1) (k + 1))) := by
      rw [Finset.sum_mul]
      apply Finset.sum_congr rfl
      intro i hi
      rw [hent i (Finset.mem_range.mp hi) j hj, hent i (Finset.mem_range.mp hi) k hk]
      ring
    rw [h1, h.orthonormal (j + 1) (by omega) (k + 1) (by omega)]
    by_cases hjk : j = k
    · subst hjk
      simp [sign_sq (hdiag (j + 1) (by omega))]
    · rw [if_neg (by omega), if_neg hjk, zero_mul]
  · intro j hj
    have h0 : ∀ i < n, 1 = q i 0 * r 0 0 := by
      intro i hi
      have := h.product i hi 0 (by omega)
      rw [Finset.sum_eq_single_of_mem 0 (Finset.mem_range.mpr (by omega))] at this
      · simpa [rawPoly] using this
      · intro k hk hk0
        rw [h.triangular k (Finset.mem_range.mp hk) 0 (by omega), mul_zero]
    have h1 : ∑ i ∈ range n, entry (matOf n (n - 1) fun i j => polyMatrix qr scores i (j + 1)) i j =
        (∑ i ∈ range n, q i (j + 1) * q i 0) * (r 0 0 * Real.sign (r (j + 1) (j + 1))) := by
      rw [Finset.sum_mul]
      apply Finset.sum_congr rfl
      intro i hi
      rw [hent i (Finset.mem_range.mp hi) j hj]
      linear_combination (q i (j + 1) * Real.sign (r (j + 1) (j + 1))) * h0 i (Finset.mem_range.mp hi)
    rw [h1, h.orthonormal (j + 1) (by omega) 0 (by omega), if_neg (by omega), zero_mul]
  · intro j hj
    have hR : IsUnit (asMatrix n r).det := isUnit_iff_ne_zero.mpr (qr_det h (raw_det hd))
    let _ : Invertible (asMatrix n r) := Matrix.invertibleOfIsUnitDet _ hR
    have htri : ((asMatrix n r)⁻¹).BlockTriangular id := Matrix.blockTriangular_inv_of_blockTriangular (qr_tri h)
    have hQ : asMatrix n q = asMatrix n (rawPoly scores) * (asMatrix n r)⁻¹ := by
      rw [qr_mul h, Matrix.mul_assoc, Matrix.mul_nonsing_inv _ hR, Matrix.mul_one]
    let J : Fin n := ⟨j + 1, by omega⟩
    have hdiaginv : r (j + 1) (j + 1) * (asMatrix n r)⁻¹ J J = 1 := by
      have h1 := congrFun (congrFun (Matrix.mul_nonsing_inv _ hR) J) J
      rw [Matrix.mul_apply, Matrix.one_apply_eq, Finset.sum_eq_single_of_mem J (Finset.mem_univ _)] at h1
      · exact h1
      · intro k _ hk
        rcases lt_or_gt_of_ne hk with hlt | hgt
        · rw [qr_tri h hlt, zero_mul]
        · rw [htri hgt, mul_zero]
    refine ⟨fun k => if hk : k < n then (asMatrix n r)⁻¹ ⟨k, hk⟩ J * Real.sign (r (j + 1) (j + 1)) else 0, ?_, ?_⟩
    · have : j + 1 < n := by omega
      simp only [this, dif_pos]
      change 0 < (asMatrix n r)⁻¹ J J * _
      rcases lt_or_gt_of_ne (hdiag (j + 1) this) with hneg | hpos
      · rw [Real.sign_of_neg hneg]
        have : (asMatrix n r)⁻¹ J J < 0 := by
          by_contra hc
          rw [not_lt] at hc
          have := mul_nonpos_of_nonpos_of_nonneg hneg.le hc
          linarith
        linarith
      · rw [Real.sign_of_pos hpos]
        have : 0 < (asMatrix n r)⁻¹ J J := by
          by_contra hc
          rw [not_lt] at hc
          have := mul_nonpos_of_nonneg_of_nonpos hpos.le hc
          linarith
        linarith
    · intro i s hs
      have hi : i < n := (List.getElem?_eq_some_iff.mp hs).1
      rw [hent i hi j hj]
      have h1 := congrFun (congrFun hQ ⟨i, hi⟩) J
      rw [Matrix.mul_apply] at h1
      have h2 : q i (j + 1) = ∑ k : Fin n, rawPoly scores i k * (asMatrix n r)⁻¹ k J := h1
      have h3 : ∑ k : Fin n, rawPoly scores i k * (asMatrix n r)⁻¹ k J =
          ∑ k ∈ range n, rawPoly scores i k * (if hk : k < n then (asMatrix n r)⁻¹ ⟨k, hk⟩ J else 0) := by
        rw [Finset.sum_range]
        simp
      have h4 : ∑ k ∈ range n, rawPoly scores i k * (if hk : k < n then (asMatrix n r)⁻¹ ⟨k, hk⟩ J else 0) =
          ∑ k ∈ range (j + 2), rawPoly scores i k * (if hk : k < n then (asMatrix n r)⁻¹ ⟨k, hk⟩ J else 0) := by
        symm
        apply Finset.sum_subset
        · intro k hk
          rw [Finset.mem_range] at hk ⊢
          omega
        · intro k hk hk'
          rw [Finset.mem_range] at hk hk'
          have : J < ⟨k, hk⟩ := by
            change j + 1 < k
            omega
          rw [dif_pos hk, htri this, mul_zero]
      rw [h2, h3, h4, Finset.sum_mul]
      apply Finset.sum_congr rfl
      intro k hk
      rw [Finset.mem_range] at hk
      have hkn : k < n := by omega
      simp only [hkn, dif_pos, rawPoly, hs, Option.getD_some]
      ring

/-- C27: whichever QR factorisation is used, the result is the same. -/
theorem poly_qr_irrelevant {qr qr' : Nat → (Nat → Nat → ℝ) → (Nat → Nat → ℝ) × (Nat → Nat → ℝ)}
    {scores : List ℝ}
    (hqr : IsQR scores.length (rawPoly scores) (qr scores.length (rawPoly scores)).1
      (qr scores.length (rawPoly scores)).2)
    (hqr' : IsQR scores.length (rawPoly scores) (qr' scores.length (rawPoly scores)).1
      (qr' scores.length (rawPoly scores)).2) (hd : scores.Nodup) {i j : Nat} (hi : i < scores.length) (hj : j < scores.length) :
    polyMatrix qr scores i j = polyMatrix qr' scores i j := by
  by_cases hj0 : j = 0
  · simp [polyMatrix, hj0]
  rw [polyMatrix_eq hqr hd hj hj0, polyMatrix_eq hqr' hd hj hj0]
  have h := hqr
  have h' := hqr'
  set q := (qr scores.length (rawPoly scores)).1
  set r := (qr scores.length (rawPoly scores)).2
  set q' := (qr' scores.length (rawPoly scores)).1
  set r' := (qr' scores.length (rawPoly scores)).2
  set n := scores.length
  have hR : IsUnit (asMatrix n r).det := isUnit_iff_ne_zero.mpr (qr_det h (raw_det hd))
  have hR' : IsUnit (asMatrix n r').det := isUnit_iff_ne_zero.mpr (qr_det h' (raw_det hd))
  let _ : Invertible (asMatrix n r) := Matrix.invertibleOfIsUnitDet _ hR
  let _ : Invertible (asMatrix n r') := Matrix.invertibleOfIsUnitDet _ hR'
  have htri : ((asMatrix n r)⁻¹).BlockTriangular id := Matrix.blockTriangular_inv_of_blockTriangular (qr_tri h)
  have htri' : ((asMatrix n r')⁻¹).BlockTriangular id := Matrix.blockTriangular_inv_of_blockTriangular (qr_tri h')
  have hA : asMatrix n q * asMatrix n r = asMatrix n q' * asMatrix n r' := by rw [← qr_mul h, ← qr_mul h']
  -- the matrix that relates the two factorisations
  let T := (asMatrix n q).transpose * asMatrix n q'
  have hQQ := mul_eq_one_comm.mp (qr_orth h)
  have hQ' : asMatrix n q' = asMatrix n q * T := by
    change _ = _ * ((asMatrix n q).transpose * asMatrix n q')
    rw [← Matrix.mul_assoc, hQQ, Matrix.one_mul]
  have hTr : T * asMatrix n r' = asMatrix n r := by
    change ((asMatrix n q).transpose * asMatrix n q') * asMatrix n r' = _
    rw [Matrix.mul_assoc, ← hA, ← Matrix.mul_assoc, qr_orth h, Matrix.one_mul]
  have hT : T = asMatrix n r * (asMatrix n r')⁻¹ := by
    rw [← hTr, Matrix.mul_assoc, Matrix.mul_nonsing_inv _ hR', Matrix.mul_one]
  have hTt : T.transpose = asMatrix n r' * (asMatrix n r)⁻¹ := by
    have h1 : T.transpose = (asMatrix n q').transpose * asMatrix n q := by
      change ((asMatrix n q).transpose * asMatrix n q').transpose = _
      rw [Matrix.transpose_mul, Matrix.transpose_transpose]
    have h2 : T.transpose * asMatrix n r = asMatrix n r' := by
      rw [h1, Matrix.mul_assoc, hA, ← Matrix.mul_assoc, qr_orth h', Matrix.one_mul]
    rw [← h2, Matrix.mul_assoc, Matrix.mul_nonsing_inv _ hR, Matrix.mul_one]
  have hTtri : T.BlockTriangular id := by
    rw [hT]
    exact (qr_tri h).mul htri'
  have hTtri' : T.transpose.BlockTriangular id := by
    rw [hTt]
    exact (qr_tri h').mul htri
  have hdiagonal : ∀ a b : Fin n, a ≠ b → T a b = 0 := by
    intro a b hab
    rcases lt_or_gt_of_ne hab with hlt | hgt
    · exact hTtri' hlt
    · exact hTtri hgt
  let J : Fin n := ⟨j, hj⟩
  have hq' : q' i j = q i j * T J J := by
    have h1 := congrFun (congrFun hQ' ⟨i, hi⟩) J
    rw [Matrix.mul_apply, Finset.sum_eq_single_of_mem J (Finset.mem_univ _)] at h1
    · exact h1
    · intro k _ hk
      rw [hdiagonal k J hk, mul_zero]
  have hr' : T J J * r' j j = r j j := by
    have h1 := congrFun (congrFun hTr J) J
    rw [Matrix.mul_apply, Finset.sum_eq_single_of_mem J (Finset.mem_univ _)] at h1
    · exact h1
    · intro k _ hk
      rw [hdiagonal J k hk.symm, zero_mul]
  have hunit : T J J * T J J = 1 := by
    have h1 : T.transpose * T = 1 := by
      rw [hTt, hT, Matrix.mul_assoc, ← Matrix.mul_assoc (asMatrix n r)⁻¹, Matrix.nonsing_inv_mul _ hR,
        Matrix.one_mul, Matrix.mul_nonsing_inv _ hR']
    have h2 := congrFun (congrFun h1 J) J
    rw [Matrix.mul_apply, Matrix.one_apply_eq, Finset.sum_eq_single_of_mem J (Finset.mem_univ _)] at h2
    · exact h2
    · intro k _ hk
      rw [hdiagonal k J hk, mul_zero]
  have hsign : Real.sign (r j j) = T J J * Real.sign (r' j j) := by
    rw [← hr']
    rcases mul_self_eq_one_iff.mp hunit with h1 | h1
    · rw [h1, one_mul, one_mul]
    · rw [h1, neg_one_mul, Real.sign_neg, neg_one_mul]
  rw [hq', hsign]
  ring

theorem polyNames_length (n : Nat) : (polyNames n).length = n := by
  rw [polyNames, List.length_take]
  simp only [List.length_append, List.length_map, List.length_range, List.length_cons, List.length_nil]
  omega

/-- C26/C27 for the reduced polynomial coding: the columns are orthonormal polynomials, the intercept is the mean
of the cell means and the coefficients are the scalar products with the columns. -/
theorem poly_meaning {qr : Nat → (Nat → Nat → ℝ) → (Nat → Nat → ℝ) × (Nat → Nat → ℝ)}
    {scores : Option (List ℝ)} {levels : List PyVal} {s : List ℝ}
    (hqr : IsQR s.length (rawPoly s) (qr s.length (rawPoly s)).1 (qr s.length (rawPoly s)).2)
    (hs : scores.getD ((List.range levels.length).map fun (i : Nat) => (i : ℝ)) = s)
    (hlen : s.length = levels.length) (hd : s.Nodup) (hne : levels ≠ []) :
    (∃ c : ContrastMatrix ℝ, poly qr scores false levels = .ok c ∧ IsPolynomial s c.matrix ∧
      IsReduced c levels.length (meanOf levels.length)
        (fun v j => ∑ i ∈ range levels.length, entry c.matrix i j * v i)) ∧
    ∃ c c' : ContrastMatrix ℝ, poly qr scores true levels = .ok c ∧ poly qr scores false levels = .ok c' ∧
      IsFull c levels.length fun v j =>
        if j = 0 then meanOf levels.length v
        else ∑ i ∈ range levels.length, entry c'.matrix i (j - 1) * v i := by
  have hpos : 0 < levels.length := List.length_pos_iff.mpr hne
  have h := hqr
  have hdiag : ∀ j < s.length, (qr s.length (rawPoly s)).2 j j ≠ 0 := fun j hj => qr_diag h (raw_det hd) hj
  have hp := poly_columns hqr hd
  rw [hlen] at hp
  have hnames : ((polyNames levels.length).drop 1).length = levels.length - 1 := by
    rw [List.length_drop, polyNames_length]
  have e1 : poly qr scores false levels = .ok ⟨matOf levels.length (levels.length - 1)
      fun i j => polyMatrix qr s i (j + 1), levels.length - 1, (polyNames levels.length).drop 1⟩ := by
    simp only [poly, hs, hlen, ne_eq, not_true_eq_false, if_false, Bool.false_eq_true]
    exact make_ok hnames
  have e2 : poly qr scores true levels = .ok ⟨matOf levels.length levels.length (polyMatrix qr s),
      levels.length, polyNames levels.length⟩ := by
    simp only [poly, hs, hlen, ne_eq, not_true_eq_false, if_false, if_true]
    exact make_ok (polyNames_length _)
  have hred : IsReduced (⟨matOf levels.length (levels.length - 1)
      fun i j => polyMatrix qr s i (j + 1), levels.length - 1, (polyNames levels.length).drop 1⟩ : ContrastMatrix ℝ)
      levels.length (meanOf levels.length) (fun v j => ∑ i ∈ range levels.length,
        entry (matOf levels.length (levels.length - 1) fun i j => polyMatrix qr s i (j + 1)) i j * v i) := by
    refine ⟨matOf_length _ _ _, matOf_cols _ _ _, rfl, hnames, ?_⟩
    intro v a b
    simp only
    have horth := hp.orthonormal
    have hzero := hp.zeroSum
    rw [hlen] at horth hzero
    set C := matOf levels.length (levels.length - 1) fun i j => polyMatrix qr s i (j + 1) with hC
    set n := levels.length with hn
    have hnn : (n : ℝ) ≠ 0 := Nat.cast_ne_zero.mpr (by omega)
    -- every vector is the sum of its projections
    have hcomplete : ∀ i < n, v i = meanOf n v + ∑ j ∈ range (n - 1), entry C i j * ∑ l ∈ range n, entry C l j * v l := by
      intro i hi
      rw [hlen] at h hdiag
      set q := (qr n (rawPoly s)).1 with hq
      set r := (qr n (rawPoly s)).2 with hr
      have hent : ∀ i < n, ∀ j < n - 1, entry C i j = q i (j + 1) * Real.sign (r (j + 1) (j + 1)) := by
        intro i hi j hj
        have := polyMatrix_eq hqr hd (i := i) (j := j + 1) (by omega) (by omega)
        rw [hlen] at this
        rw [hC, entry_matOf, if_pos ⟨hi, hj⟩, this]
      have h0 : ∀ i < n, 1 = q i 0 * r 0 0 := by
        intro i hi
        have := h.product i hi 0 (by omega)
        rw [Finset.sum_eq_single_of_mem 0 (Finset.mem_range.mpr (by omega))] at this
        · simpa [rawPoly] using this
        · intro k hk hk0
          rw [h.triangular k (Finset.mem_range.mp hk) 0 (by omega), mul_zero]
      have hr0 := hdiag 0 (by omega)
      have hq0 : ∀ i < n, q i 0 = 1 / r 0 0 := by
        intro i hi
        have := h0 i hi
        field_simp
        linarith
      have hnr : (n : ℝ) = r 0 0 * r 0 0 := by
        have := h.orthonormal 0 (by omega) 0 (by omega)
        rw [if_pos rfl, Finset.sum_congr rfl fun i hi => by
          rw [hq0 i (Finset.mem_range.mp hi)], Finset.sum_const, Finset.card_range, nsmul_eq_mul] at this
        field_simp at this
        linarith
      have hdelta : ∀ l < n, ∑ j ∈ range (n - 1), entry C i j * entry C l j = (if i = l then 1 else 0) - 1 / n := by
        intro l hl
        have h1 := qr_orth' h hi hl
        have h2 : n = (n - 1) + 1 := by omega
        rw [h2, sum_range_succ', hq0 i hi, hq0 l hl] at h1
        rw [← h1, hnr]
        have h3 : ∑ j ∈ range (n - 1), entry C i j * entry C l j = ∑ j ∈ range (n - 1), q i (j + 1) * q l (j + 1) := by
          apply Finset.sum_congr rfl
          intro j hj
          rw [Finset.mem_range] at hj
          rw [hent i hi j hj, hent l hl j hj]
          linear_combination (q i (j + 1) * q l (j + 1)) * sign_sq (hdiag (j + 1) (by omega))
        rw [h3]
        field_simp
        ring
      have hswap : ∑ j ∈ range (n - 1), entry C i j * ∑ l ∈ range n, entry C l j * v l =
          ∑ l ∈ range n, ((if i = l then 1 else 0) - 1 / n) * v l := by
        simp only [Finset.mul_sum]
        rw [Finset.sum_comm]
        apply Finset.sum_congr rfl
        intro l hl
        rw [← hdelta l (Finset.mem_range.mp hl), Finset.sum_mul]
        apply Finset.sum_congr rfl
        intro j _
        ring
      rw [hswap]
      have h5 : ∑ l ∈ range n, ((if i = l then (1 : ℝ) else 0) - 1 / n) * v l = v i - meanOf n v := by
        simp only [sub_mul, Finset.sum_sub_distrib]
        rw [sum_indicator hi (fun l => i = l) (fun l _ => eq_comm), meanOf, Finset.sum_div]
        congr 1
        apply Finset.sum_congr rfl
        intro l _
        ring
      rw [h5]
      ring
    constructor
    · intro hv
      constructor
      · have h1 : ∑ i ∈ range n, v i = n * a := by
          rw [Finset.sum_congr rfl fun i hi => hv i (Finset.mem_range.mp hi), Finset.sum_add_distrib,
            Finset.sum_comm]
          have : ∑ j ∈ range (n - 1), ∑ i ∈ range n, entry C i j * b j = 0 := by
            apply Finset.sum_eq_zero
            intro j hj
            rw [← Finset.sum_mul, hzero j (Finset.mem_range.mp hj), zero_mul]
          rw [this]
          simp
        rw [meanOf, h1]
        field_simp
      · intro j hj
        have h1 : ∑ i ∈ range n, entry C i j * v i = ∑ i ∈ range n, (a * entry C i j +
            ∑ k ∈ range (n - 1), entry C i j * entry C i k * b k) := by
          apply Finset.sum_congr rfl
          intro i hi
          rw [hv i (Finset.mem_range.mp hi), mul_add, Finset.mul_sum, mul_comm]
          congr 1
          apply Finset.sum_congr rfl
          intro k _
          ring
        rw [h1, Finset.sum_add_distrib, ← Finset.mul_sum, hzero j hj, mul_zero, zero_add, Finset.sum_comm]
        have h2 : ∑ k ∈ range (n - 1), ∑ i ∈ range n, entry C i j * entry C i k * b k =
            ∑ k ∈ range (n - 1), (if j = k then 1 else 0) * b k := by
          apply Finset.sum_congr rfl
          intro k hk
          rw [← Finset.sum_mul, horth j hj k (Finset.mem_range.mp hk)]
        rw [h2, sum_indicator hj (fun k => j = k) (fun k _ => eq_comm)]
    · rintro ⟨rfl, hb⟩ i hi
      rw [Finset.sum_congr rfl fun j hj => by rw [hb j (Finset.mem_range.mp hj)]]
      exact hcomplete i hi
  refine ⟨⟨_, e1, hp, hred⟩, ⟨_, _, e2, e1, ?_⟩⟩
  have hones : matOf levels.length levels.length (polyMatrix qr s) =
      withOnes (matOf levels.length (levels.length - 1) fun i j => polyMatrix qr s i (j + 1)) := by
    rw [matOf, withOnes, matOf, List.map_map]
    congr 1
    funext i
    obtain ⟨m, hm⟩ : ∃ m, levels.length = m + 1 := ⟨levels.length - 1, by omega⟩
    rw [hm]
    simp only [Function.comp_apply, Nat.add_sub_cancel]
    rw [List.range_succ_eq_map, List.map_cons, List.map_map]
    congr 1
  rw [hones]
  exact isFull_withOnes hpos hred (polyNames_length _)

/-- The columns are named after their degrees. -/
theorem poly_names (qr : Nat → (Nat → Nat → ℝ) → (Nat → Nat → ℝ) × (Nat → Nat → ℝ)) {scores : Option (List ℝ)}
    {levels : List PyVal} {intercept : Bool} {c : ContrastMatrix ℝ} (h : poly qr scores intercept levels = .ok c) :
    c.suffixes = ((List.range levels.length).drop (if intercept then 0 else 1)).map degreeName := by
  have key : ∀ n, polyNames n = (List.range n).map degreeName := by
    intro n
    refine List.ext_getElem (by rw [polyNames_length]; simp) ?_
    intro i h1 h2
    rw [polyNames_length] at h1
    simp only [polyNames, List.getElem_take, List.getElem_map, List.getElem_range]
    by_cases hi : i < 4
    · rw [List.getElem_append_left (by simpa using hi)]
      have : i = 0 ∨ i = 1 ∨ i = 2 ∨ i = 3 := by omega
      rcases this with rfl | rfl | rfl | rfl <;> rfl
    · rw [List.getElem_append_right (by simpa using hi)]
      obtain ⟨k, rfl⟩ : ∃ k, i = k + 4 := ⟨i - 4, by omega⟩
      simp [degreeName]
  unfold poly at h
  simp only at h
  split at h
  · simp at h
  · split at h
    · rename_i hi
      rw [make_ok (polyNames_length _)] at h
      simp only [Except.ok.injEq] at h
      subst h
      simp [hi, key]
    · rename_i hi
      rw [make_ok (by rw [List.length_drop, polyNames_length])] at h
      simp only [Except.ok.injEq] at h
      subst h
      show (polyNames _).drop 1 = _
      rw [key, if_neg hi, List.map_drop]

/-- A wrong number of scores is rejected with a `PatsyError`. -/
theorem poly_scores_mismatch (qr : Nat → (Nat → Nat → ℝ) → (Nat → Nat → ℝ) × (Nat → Nat → ℝ)) {s : List ℝ}
    {levels : List PyVal} {intercept : Bool} (h : s.length ≠ levels.length) :
    poly qr (some s) intercept levels = .error .patsyError := by
  simp [poly, h]

/-- Five levels: `.Linear`, `.Quadratic`, `.Cubic`, `^4`. -/
example : ((List.range 5).drop 1).map degreeName = [".Linear", ".Quadratic", ".Cubic", "^4"] := by decide

example : ∃ c, poly (fun _ a => (a, a)) none false (List.replicate 5 .none) = .ok c := by
  simp only [poly, Option.getD_none, List.length_map, List.length_range, List.length_replicate, ne_eq, not_true_eq_false,
    if_false, Bool.false_eq_true]
  exact ⟨_, make_ok (by rw [List.length_drop, polyNames_length])⟩

/-- A QR factorisation for two levels with the scores 0 and 1. -/
noncomputable def sampleQR : Nat → (Nat → Nat → ℝ) → (Nat → Nat → ℝ) × (Nat → Nat → ℝ) := fun _ _ =>
  (fun i j => if j = 0 then 1 / Real.sqrt 2 else if i = 0 then -1 / Real.sqrt 2 else 1 / Real.sqrt 2,
   fun i j => if i = 0 ∧ j = 0 then Real.sqrt 2 else if i = 1 ∧ j = 1 then 1 / Real.sqrt 2 else 0)

theorem sampleQR_isQR : IsQR 2 (rawPoly [0, 1]) (sampleQR 2 (rawPoly [0, 1])).1 (sampleQR 2 (rawPoly [0, 1])).2 := by
  have h2 : Real.sqrt 2 * Real.sqrt 2 = 2 := Real.mul_self_sqrt (by norm_num)
  have hs : Real.sqrt 2 ≠ 0 := by
    intro h
    rw [h] at h2
    norm_num at h2
  have hd : ∀ x : ℝ, x / Real.sqrt 2 * (1 / Real.sqrt 2) = x / 2 := by
    intro x
    rw [div_mul_div_comm, mul_one, h2]
  have hd' : ∀ x : ℝ, x / Real.sqrt 2 * (-1 / Real.sqrt 2) = -x / 2 := by
    intro x
    rw [div_mul_div_comm, h2]
    ring
  refine ⟨?_, ?_, ?_⟩
  · intro i hi j hj
    have : i = 0 ∨ i = 1 := by omega
    have : j = 0 ∨ j = 1 := by omega
    rcases ‹i = 0 ∨ i = 1› with rfl | rfl <;> rcases ‹j = 0 ∨ j = 1› with rfl | rfl <;>
      simp [sampleQR, rawPoly, sum_range_succ, hs] <;> field_simp <;> linarith [Real.sq_sqrt (show (0 : ℝ) ≤ 2 by norm_num)]
  · intro j hj k hk
    have : j = 0 ∨ j = 1 := by omega
    have : k = 0 ∨ k = 1 := by omega
    rcases ‹j = 0 ∨ j = 1› with rfl | rfl <;> rcases ‹k = 0 ∨ k = 1› with rfl | rfl <;>
      simp only [sampleQR, sum_range_succ, Finset.sum_range_zero, hd, hd', if_true, if_false, one_ne_zero,
        zero_ne_one] <;> norm_num
  · intro i hi j hj
    have h1 : i = 1 := by omega
    have h0 : j = 0 := by omega
    subst h1; subst h0
    simp [sampleQR]

example : ∃ c : ContrastMatrix ℝ, poly sampleQR none false [.str "a", .str "b"] = .ok c ∧
    IsPolynomial [0, 1] c.matrix ∧ IsReduced c 2 (meanOf 2) (fun v j => ∑ i ∈ range 2, entry c.matrix i j * v i) :=
  (poly_meaning (s := [0, 1]) (levels := [.str "a", .str "b"]) (scores := none) sampleQR_isQR
    (by simp [List.range_succ]) rfl (by simp) (by simp)).1

end Patsy.Props
