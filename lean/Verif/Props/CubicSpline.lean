import Verif.Lemmas.SplineSpace
import Verif.Lemmas.Desc

/-! # C31, C32, C41, C42, C43: cubic regression splines -/

namespace Patsy.Props

open Patsy.CubicSpline Patsy.Spec

/-- Knots for the examples: 0, 1, 2, … -/
theorem natural_knots_increase (size : Nat) : KnotsIncrease size fun i => (i : ℝ) := by
  intro i j hij _
  simpa using hij

/-! ### C31 -/

/-- Cyclic mapping fails exactly when the bounds are not in order; otherwise the result is within the bounds,
differs from the argument by a multiple of the period, and is the argument itself if that is within the bounds. -/
theorem cyclic_map (x l u : ℝ) :
    (u ≤ l → mapCyclic x l u = .error .valueError) ∧
    (l < u → ∃ y, mapCyclic x l u = .ok y ∧ l ≤ y ∧ y ≤ u ∧ (∃ k : Int, y = x + k * (u - l)) ∧
      (l ≤ x → x ≤ u → y = x)) :=
  ⟨fun h => by rw [mapCyclic, if_pos h], fun h => mapCyclic_spec h x⟩

example : mapCyclic 7 0 3 = .ok 1 := by
  obtain ⟨y, h, h1, h2, ⟨k, hk⟩, _⟩ := (cyclic_map 7 0 3).2 (by norm_num)
  have a : (-3 : ℝ) < k := by linarith
  have b : (k : ℝ) < -1 := by linarith
  have a' : -3 < k := by exact_mod_cast a
  have b' : k < -1 := by exact_mod_cast b
  obtain rfl : k = -2 := by omega
  rw [h, hk]
  norm_num

/-- The interval search returns an interval: the one whose left knot is before the value and whose right knot is
not, the first for values up to the first knot and the last for values after the last knot. -/
theorem interval_search {size : Nat} (hs : 2 ≤ size) {knots : Nat → ℝ} (hk : KnotsIncrease size knots) (x : ℝ) (j : Nat) :
    lowerBound size knots x = j ↔ j + 2 ≤ size ∧ (j = 0 ∨ knots j < x) ∧ (j + 2 = size ∨ x ≤ knots (j + 1)) := by
  obtain ⟨i, h0, h1, h2, h3, h4, h5⟩ := lowerBound_spec hs hk x
  have hi : (i = 0 ∨ knots i < x) ∧ (i + 2 = size ∨ x ≤ knots (i + 1)) := by
    constructor
    · rcases le_or_gt x (knots 0) with h | h
      · exact Or.inl (h2 h)
      · exact Or.inr (h4 h)
    · rcases le_or_gt x (knots (size - 1)) with h | h
      · exact Or.inr (h5 h)
      · exact Or.inl (h3 h)
  constructor
  · intro h
    obtain rfl : i = j := by have := h0.symm.trans h; exact_mod_cast this
    exact ⟨h1, hi⟩
  · rintro ⟨g1, g2, g3⟩
    rw [h0]
    have : i = j := by
      rcases Nat.lt_trichotomy i j with h | h | h
      · have a : knots j < x := by
          rcases g2 with g | g
          · omega
          · exact g
        have b : x ≤ knots (i + 1) := by
          rcases hi.2 with g | g
          · omega
          · exact g
        have := knots_le hk (show i + 1 ≤ j by omega) (by omega)
        linarith
      · exact h
      · have a : knots i < x := by
          rcases hi.1 with g | g
          · omega
          · exact g
        have b : x ≤ knots (j + 1) := by
          rcases g3 with g | g
          · omega
          · exact g
        have := knots_le hk (show j + 1 ≤ i by omega) (by omega)
        linarith
    rw [this]

example : lowerBound 4 (fun i => (i : ℝ)) 2 = (1 : Nat) := by
  rw [interval_search (by omega) (natural_knots_increase 4)]
  norm_num

/-! ### C32 -/

/-- Rows are determined by their products with coefficients. -/
theorem row_eq_single {n : Nat} {row : Fin n → ℝ} {k : Fin n} (h : ∀ β : Nat → ℝ, ∑ c, row c * β c = β k) :
    row = fun c => if c = k then 1 else 0 := by
  funext c
  have := h fun i => if i = (c : Nat) then 1 else 0
  rw [Finset.sum_eq_single c] at this
  · simp only [if_true, mul_one] at this
    rw [this]
    by_cases hc : c = k
    · simp [hc]
    · rw [if_neg hc, if_neg fun h => hc (Fin.ext h.symm)]
  · intro b _ hb
    rw [if_neg fun h => hb (Fin.ext h), mul_zero]
  · simp

/-- At the `k`-th knot the row of a natural spline is the `k`-th unit vector. -/
theorem natural_row_at_knot {n : Nat} (hn : n ≠ 0) {knots : Nat → ℝ} (hk : KnotsIncrease (n + 2) knots) (k : Fin (n + 2)) :
    naturalRow n knots (knots k) = .ok fun c => if c = k then 1 else 0 := by
  obtain ⟨row, h, _⟩ := naturalRow_sum hn hk (fun _ => 0) (knots k)
  rw [h]
  congr 1
  apply row_eq_single
  intro β
  obtain ⟨row', h', hs⟩ := naturalRow_sum hn hk β (knots k)
  rw [h] at h'
  cases h'
  rw [hs, naturalValue_knot hk β k.2]

example : naturalRow 2 (fun i => (i : ℝ)) 3 = .ok fun c => if c = 3 then 1 else 0 := by
  have := natural_row_at_knot (by omega) (natural_knots_increase (2 + 2)) 3
  simpa using this

/-- The columns of a natural spline sum to one, within and outside of the knots. -/
theorem natural_row_sums_to_one {n : Nat} (hn : n ≠ 0) {knots : Nat → ℝ} (hk : KnotsIncrease (n + 2) knots) (x : ℝ) :
    ∃ row, naturalRow n knots x = .ok row ∧ ∑ c, row c = 1 := by
  obtain ⟨row, h, hs⟩ := naturalRow_sum hn hk (fun _ => 1) x
  refine ⟨row, h, ?_⟩
  simp only [mul_one] at hs
  rw [hs, naturalValue]
  simp only [curvature_one, mul_zero, add_zero, mul_one]
  obtain ⟨h1, -⟩ := base_j (show 2 ≤ n + 2 by omega) hk x
  have hg := (gap_pos hk (i := (baseFunctions (n + 2) knots x).j) (by omega)).ne'
  have ham : (baseFunctions (n + 2) knots x).ajm = (knots ((baseFunctions (n + 2) knots x).j + 1) - x) /
    gap knots (baseFunctions (n + 2) knots x).j := rfl
  have hap : (baseFunctions (n + 2) knots x).ajp = (x - knots (baseFunctions (n + 2) knots x).j) /
    gap knots (baseFunctions (n + 2) knots x).j := rfl
  rw [ham, hap, ← add_div, div_eq_one_iff_eq hg, gap]
  ring

example : ∃ row, naturalRow 1 (fun i => (i : ℝ)) (-5) = .ok row ∧ ∑ c, row c = 1 :=
  natural_row_sums_to_one (by omega) (natural_knots_increase 3) _

/-- A natural spline with two knots (`cr(x, df=2)`) is accepted when its knots are computed, but it cannot be
evaluated: the list of diagonals is ragged. -/
theorem natural_two_knots_crash (knots : Nat → ℝ) (x : ℝ) : naturalRow 0 knots x = .error .valueError := rfl

/-- At the `k`-th knot the row of a cyclic spline is the `k`-th unit vector; at the last knot it is the first. -/
theorem cyclic_row_at_knot {n : Nat} (hn : 0 < n) {knots : Nat → ℝ} (hk : KnotsIncrease (n + 1) knots) {k : Nat}
    (hkn : k ≤ n) : cyclicRow n knots (knots k) = .ok fun c => if c = ⟨k % n, Nat.mod_lt k hn⟩ then 1 else 0 := by
  obtain ⟨row, h, _⟩ := cyclicRow_sum hn hk (fun _ => 0) (knots k)
  rw [h]
  congr 1
  apply row_eq_single
  intro β
  obtain ⟨row', h', y, m, hm, h1, h2, h3, j, hj, hl, hr, hsum⟩ := cyclicRow_sum hn hk β (knots k)
  rw [h] at h'
  cases h'
  have hy : y = knots k := h3 (knots_le hk (Nat.zero_le k) (by omega)) (knots_le hk hkn (by omega))
  subst hy
  have hjk : k = j ∨ k = j + 1 := by
    by_contra hne
    rcases Nat.lt_or_ge k j with h | h
    · have := hk k j h (by omega); linarith
    · have := hk (j + 1) k (by omega) (by omega); linarith
  rw [hsum]
  have hg := (long_gap_pos hn hk j).ne'
  rw [← longKnots_of_le hn knots hkn]
  rcases hjk with rfl | rfl
  · rw [piece_left hg]; rfl
  · rw [piece_right hg]; rfl

example : cyclicRow 3 (fun i => (i : ℝ)) 3 = .ok fun c => if c = 0 then 1 else 0 := by
  have := cyclic_row_at_knot (by omega) (natural_knots_increase (3 + 1)) (k := 3) (by omega)
  simpa using this

/-- With at least three free knots the columns of a cyclic spline sum to one. -/
theorem cyclic_row_sums_to_one_partial {n : Nat} (hn : 3 ≤ n) {knots : Nat → ℝ} (hk : KnotsIncrease (n + 1) knots) (x : ℝ) :
    ∃ row, cyclicRow n knots x = .ok row ∧ ∑ c, row c = 1 := by
  obtain ⟨row, h, _⟩ := cyclicRow_sum (by omega) hk (fun _ => 1) x
  refine ⟨row, h, ?_⟩
  have := cyclicValue_one hn hk x
  rw [cyclicValue, h] at this
  simpa using this

example : ∃ row, cyclicRow 3 (fun i => (i : ℝ)) (-5) = .ok row ∧ ∑ c, row c = 1 :=
  cyclic_row_sums_to_one_partial (by omega) (natural_knots_increase 4) _

/-- The value of a spline all of whose coefficients are one and whose second derivatives at the knots are equal. -/
theorem piece_const {knots : Nat → ℝ} {j : Nat} (hg : gap knots j ≠ 0) (c x : ℝ) :
    piece knots (fun _ => 1) (fun _ => c) j x = 1 - c * (knots (j + 1) - x) * (x - knots j) / 2 := by
  have e : knots (j + 1) = knots j + gap knots j := by simp [gap]
  rw [piece, e]
  field_simp
  ring

theorem curvature_of_solution {n : Nat} {knots : Nat → ℝ}
    (hdet : (Matrix.of fun (i j : Fin n) => cyclicB n knots i j).det ≠ 0) {c : ℝ}
    (h : (Matrix.of fun (i j : Fin n) => cyclicB n knots i j).mulVec (fun _ => c) =
      (Matrix.of fun (i j : Fin n) => cyclicD n knots i j).mulVec fun _ => 1) {j : Nat} (hj : j < n) :
    cyclicCurvature n knots (fun _ => 1) j = c := by
  have e : cyclicCurvature n knots (fun _ => 1) j = ((cyclicF n knots).mulVec fun _ => (1 : ℝ)) ⟨j, hj⟩ := by
    simp only [cyclicCurvature, Matrix.mulVec, dotProduct]
    exact Finset.sum_congr rfl fun c _ => by rw [rowAt, dif_pos hj]
  rw [e, cyclicF, ← Matrix.mulVec_mulVec, ← h, Matrix.mulVec_mulVec,
    Matrix.nonsing_inv_mul _ (isUnit_iff_ne_zero.mpr hdet), Matrix.one_mulVec]

theorem cyclic_curvature_small {n : Nat} (hn : n = 1 ∨ n = 2) {knots : Nat → ℝ} (hk : KnotsIncrease (n + 1) knots) :
    ∃ c, c ≠ 0 ∧ ∀ j, j < n → cyclicCurvature n knots (fun _ => 1) j = c := by
  rcases hn with rfl | rfl
  · have g0 := gap_pos hk (i := 0) (by omega)
    refine ⟨6 / gap knots 0 ^ 2, by positivity, fun j hj => curvature_of_solution ?_ ?_ hj⟩
    · rw [Matrix.det_fin_one]
      simp [cyclicB, put, g0.ne']
    · funext i
      fin_cases i
      simp [Matrix.mulVec, dotProduct, cyclicB, cyclicD, put]
      field_simp
  · have g0 := gap_pos hk (i := 0) (by omega)
    have g1 := gap_pos hk (i := 1) (by omega)
    refine ⟨-(1 / gap knots 1) / ((gap knots 0 + gap knots 1) / 3 + gap knots 0 / 6), ?_, fun j hj => curvature_of_solution ?_ ?_ hj⟩
    · apply ne_of_lt
      apply div_neg_of_neg_of_pos
      · have : 0 < 1 / gap knots 1 := by positivity
        linarith
      · positivity
    · rw [Matrix.det_fin_two]
      simp [cyclicB, put]
      have : 0 < (gap knots 0 + gap knots 1) / 3 * ((gap knots 1 + gap knots 0) / 3) - gap knots 0 / 6 * (gap knots 0 / 6) := by
        nlinarith [mul_pos g0 g1, mul_pos g0 g0, mul_pos g1 g1]
      intro h
      linarith
    · funext i
      fin_cases i
      · simp [Matrix.mulVec, dotProduct, Fin.sum_univ_two, cyclicB, cyclicD, put]
        field_simp
        ring
      · simp [Matrix.mulVec, dotProduct, Fin.sum_univ_two, cyclicB, cyclicD, put]
        field_simp
        ring

/-- With one or two free knots the columns of a cyclic spline do not sum to one, except at the knots: assignments
to the corners of the matrices are overwritten. -/
theorem cyclic_few_knots_sum {n : Nat} (hn : n = 1 ∨ n = 2) {knots : Nat → ℝ} (hk : KnotsIncrease (n + 1) knots) {j : Nat}
    (hj : j < n) {x : ℝ} (h1 : knots j < x) (h2 : x < knots (j + 1)) :
    ∃ row, cyclicRow n knots x = .ok row ∧ ∑ c, row c ≠ 1 := by
  have hn0 : 0 < n := by omega
  obtain ⟨c, hc, hcurv⟩ := cyclic_curvature_small hn hk
  obtain ⟨row, h, y, m, hm, g1, g2, g3, i, hi, hl, hr, hsum⟩ := cyclicRow_sum hn0 hk (fun _ => 1) x
  refine ⟨row, h, ?_⟩
  obtain rfl : y = x := g3 ((knots_le hk (Nat.zero_le j) (by omega)).trans h1.le)
    (h2.le.trans (knots_le hk (show j + 1 ≤ n by omega) (by omega)))
  obtain rfl : i = j := by
    by_contra hne
    rcases Nat.lt_or_ge i j with h | h
    · have := knots_le hk (show i + 1 ≤ j by omega) (by omega); linarith
    · have := knots_le hk (show j + 1 ≤ i by omega) (by omega); linarith
  simp only [mul_one] at hsum
  have e1 : longSeq n (fun _ => (1 : ℝ)) = fun _ => 1 := rfl
  have e2 : longSeq n (cyclicCurvature n knots fun _ => 1) = fun _ => c := by
    funext k
    exact hcurv _ (Nat.mod_lt k hn0)
  rw [hsum, e1, e2, piece_const (long_gap_pos hn0 hk i).ne', longKnots_of_le hn0 knots (by omega),
    longKnots_of_le hn0 knots (by omega)]
  intro h0
  have : c * (knots (i + 1) - y) * (y - knots i) = 0 := by linarith
  rcases mul_eq_zero.mp this with h | h
  · rcases mul_eq_zero.mp h with h | h
    · exact hc h
    · linarith
  · linarith

example : ∃ row, cyclicRow 2 (fun i => (i : ℝ)) (3 / 2) = .ok row ∧ ∑ c, row c ≠ 1 :=
  cyclic_few_knots_sum (Or.inr rfl) (natural_knots_increase 3) (j := 1) (by omega) (by norm_num) (by norm_num)

/-! ### C41 -/

/-- The functions that are linear combinations of the columns of a natural spline are exactly the natural cubic
splines with these knots, and the coefficients are the values at the knots. -/
theorem natural_spline_space {n : Nat} (hn : n ≠ 0) {knots : Nat → ℝ} (hk : KnotsIncrease (n + 2) knots) (s : ℝ → ℝ)
    (β : Fin (n + 2) → ℝ) :
    (∀ x, ∃ row, naturalRow n knots x = .ok row ∧ s x = ∑ c, row c * β c) ↔
      IsNaturalSpline (n + 2) knots s ∧ ∀ k : Fin (n + 2), s (knots k) = β k := by
  let β' : Nat → ℝ := fun i => if h : i < n + 2 then β ⟨i, h⟩ else 0
  have hβ : ∀ c : Fin (n + 2), β' c = β c := fun c => by simp [β']
  constructor
  · intro h
    have hs : s = naturalValue n knots β' := by
      funext x
      obtain ⟨row, h1, h2⟩ := h x
      obtain ⟨row', h1', h2'⟩ := naturalRow_sum hn hk β' x
      rw [h1] at h1'
      cases h1'
      rw [h2, ← h2']
      exact Finset.sum_congr rfl fun c _ => by rw [hβ]
    rw [hs]
    exact ⟨naturalValue_isNatural hk β', fun k => by rw [naturalValue_knot hk β' k.2, hβ]⟩
  · rintro ⟨h1, h2⟩ x
    obtain ⟨row, g1, g2⟩ := naturalRow_sum hn hk (fun k => s (knots k)) x
    refine ⟨row, g1, ?_⟩
    rw [natural_eq_value hk h1 x, ← g2]
    exact Finset.sum_congr rfl fun c _ => by rw [h2]

/-- Every choice of coefficients gives a natural spline. -/
example (β : Fin 3 → ℝ) : ∃ s : ℝ → ℝ, IsNaturalSpline 3 (fun i => (i : ℝ)) s ∧ ∀ k : Fin 3, s (k : Nat) = β k := by
  choose row hrow using fun x => natural_row_sums_to_one (n := 1) (by omega) (natural_knots_increase 3) x
  exact ⟨_, (natural_spline_space (by omega) (natural_knots_increase 3) (fun x => ∑ c, row x c * β c) β).mp
    fun x => ⟨row x, (hrow x).1, rfl⟩⟩

/-! ### C43 -/

/-- With at least three free knots the functions that are linear combinations of the columns of a cyclic spline are
exactly the cyclic cubic splines with these knots, and the coefficients are the values at the knots. -/
theorem cyclic_spline_space_partial {n : Nat} (hn : 3 ≤ n) {knots : Nat → ℝ} (hk : KnotsIncrease (n + 1) knots) (s : ℝ → ℝ)
    (β : Fin n → ℝ) :
    (∀ x, ∃ row, cyclicRow n knots x = .ok row ∧ s x = ∑ c, row c * β c) ↔
      IsCyclicSpline (n + 1) knots s ∧ ∀ k : Fin n, s (knots k) = β k := by
  let β' : Nat → ℝ := fun i => if h : i < n then β ⟨i, h⟩ else 0
  have hβ : ∀ c : Fin n, β' c = β c := fun c => by simp [β']
  have val : ∀ (γ : Nat → ℝ) (x : ℝ), ∃ row, cyclicRow n knots x = .ok row ∧
      ∑ c, row c * γ c = cyclicValue n knots γ x := by
    intro γ x
    obtain ⟨row, h, -⟩ := cyclicRow_sum (by omega) hk γ x
    exact ⟨row, h, by rw [cyclicValue, h]⟩
  constructor
  · intro h
    have hs : s = cyclicValue n knots β' := by
      funext x
      obtain ⟨row, h1, h2⟩ := h x
      obtain ⟨row', h1', h2'⟩ := val β' x
      rw [h1] at h1'
      cases h1'
      rw [h2, ← h2']
      exact Finset.sum_congr rfl fun c _ => by rw [hβ]
    rw [hs]
    exact ⟨cyclicValue_isCyclic hn hk β', fun k => by rw [cyclicValue_knot hn hk β' k.2, hβ]⟩
  · rintro ⟨h1, h2⟩ x
    obtain ⟨row, g1, g2⟩ := val (fun k => s (knots k)) x
    refine ⟨row, g1, ?_⟩
    rw [cyclic_eq_value hn hk h1 x, ← g2]
    exact Finset.sum_congr rfl fun c _ => by rw [h2]

example (β : Fin 3 → ℝ) : ∃ s : ℝ → ℝ, IsCyclicSpline 4 (fun i => (i : ℝ)) s ∧ ∀ k : Fin 3, s (k : Nat) = β k := by
  choose row hrow using fun x => cyclic_row_sums_to_one_partial (n := 3) (by omega) (natural_knots_increase 4) x
  exact ⟨_, (cyclic_spline_space_partial (by omega) (natural_knots_increase 4) (fun x => ∑ c, row x c * β c) β).mp
    fun x => ⟨row x, (hrow x).1, rfl⟩⟩

/-- With one or two free knots the columns of a cyclic spline do not even span the constant functions, which are
cyclic splines. -/
theorem cyclic_few_knots_miss_constants {n : Nat} (hn : n = 1 ∨ n = 2) {knots : Nat → ℝ}
    (hk : KnotsIncrease (n + 1) knots) :
    IsCyclicSpline (n + 1) knots (fun _ => 1) ∧
      ¬ ∃ β : Fin n → ℝ, ∀ x, ∃ row, cyclicRow n knots x = .ok row ∧ 1 = ∑ c, row c * β c := by
  have hn0 : 0 < n := by omega
  refine ⟨⟨contDiff_const, fun _ => rfl, fun j _ => ⟨1, 0, 0, 0, fun x _ _ => by ring⟩⟩, ?_⟩
  rintro ⟨β, hβ⟩
  have hone : ∀ k : Fin n, β k = 1 := by
    intro k
    obtain ⟨row, h1, h2⟩ := hβ (knots k)
    have := cyclic_row_at_knot hn0 hk (k := k) (by omega)
    rw [h1] at this
    cases this
    rw [h2]
    simp [Nat.mod_eq_of_lt k.2]
  have hlt := hk 0 1 (by omega) (by omega)
  obtain ⟨row, h1, h2⟩ := cyclic_few_knots_sum hn hk (j := 0) hn0 (x := (knots 0 + knots 1) / 2)
    (by linarith) (by rw [zero_add]; linarith)
  obtain ⟨row', g1, g2⟩ := hβ ((knots 0 + knots 1) / 2)
  rw [h1] at g1
  cases g1
  apply h2
  rw [g2]
  exact Finset.sum_congr rfl fun c _ => by rw [hone, mul_one]

example : ¬ ∃ β : Fin 2 → ℝ, ∀ x, ∃ row, cyclicRow 2 (fun i => (i : ℝ)) x = .ok row ∧ 1 = ∑ c, row c * β c :=
  (cyclic_few_knots_miss_constants (Or.inr rfl) (natural_knots_increase 3)).2

/-! ### C42 -/

theorem truncate_int (k : Int) : truncate (k : ℝ) = k := by simp [truncate]

theorem pymod_int (a b : Int) : ∃ k : Int, pymod a b = (k : ℝ) :=
  ⟨a - ⌊(a : ℝ) / b⌋ * b, by simp [pymod]⟩

/-- If the first and last knots are integers, a cyclic spline has the same rows for integers as for the equal
floating-point numbers. -/
theorem cyclic_row_of_integers_partial {n : Nat} {knots : Nat → ℝ} {l u : Int} (hl : knots 0 = l) (hu : knots n = u)
    (x : Int) : cyclicRowInt n knots x = cyclicRow n knots x := by
  have key : mapCyclic x l u = (mapCyclicInt x l u).map fun y : Int => (y : ℝ) := by
    rw [mapCyclic, mapCyclicInt]
    split
    · rfl
    · obtain ⟨k1, h1⟩ := pymod_int (x - u) (u - l)
      push_cast at h1
      have e1 : (if (x : ℝ) > u then (l : ℝ) + pymod (x - u) (u - l) else x) =
          ((if (x : ℝ) > u then truncate ((l : ℝ) + pymod (x - u) (u - l)) else x : Int) : ℝ) := by
        split
        · rw [h1, ← Int.cast_add, truncate_int]
        · rfl
      simp only [e1]
      generalize (if (x : ℝ) > u then truncate ((l : ℝ) + pymod (x - u) (u - l)) else x : Int) = y
      obtain ⟨k2, h2⟩ := pymod_int (l - y) (u - l)
      push_cast at h2
      simp only [Except.map]
      congr 1
      split
      · rw [h2, ← Int.cast_sub, truncate_int]
      · rfl
  rw [cyclicRowInt, cyclicRow, hl, hu, key]
  cases mapCyclicInt x l u <;> rfl

/-- Within the knots it does not matter either. -/
theorem cyclic_row_of_integers_inside_partial {n : Nat} {knots : Nat → ℝ} (h : knots 0 < knots n) {x : Int} (h1 : knots 0 ≤ x)
    (h2 : x ≤ knots n) : cyclicRowInt n knots x = cyclicRow n knots x := by
  have e1 : mapCyclic x (knots 0) (knots n) = .ok (x : ℝ) := by
    rw [mapCyclic, if_neg (not_le.mpr h)]
    simp only [if_neg (not_lt.mpr h2), if_neg (not_lt.mpr h1), gt_iff_lt]
  have e2 : mapCyclicInt x (knots 0) (knots n) = .ok x := by
    rw [mapCyclicInt, if_neg (not_le.mpr h)]
    simp only [if_neg (not_lt.mpr h2), if_neg (not_lt.mpr h1), gt_iff_lt]
  rw [cyclicRowInt, cyclicRow, e1, e2]
  rfl

/-- C42, exactly: an integer is mapped to the same place of the period as the equal floating-point number if and only if
that place is an integer. -/
theorem cyclic_place_of_integers_iff {l u : ℝ} (h : l < u) (x : Int) {y : ℝ} (hy : mapCyclic x l u = .ok y) :
    (∃ k : Int, mapCyclicInt x l u = .ok k ∧ (k : ℝ) = y) ↔ ∃ k : Int, y = k := by
  refine ⟨fun ⟨k, _, hk⟩ => ⟨k, hk.symm⟩, ?_⟩
  rintro ⟨k, rfl⟩
  refine ⟨k, ?_, rfl⟩
  have hp : 0 < u - l := sub_pos.mpr h
  rw [mapCyclic, if_neg (not_le.mpr h)] at hy
  rw [mapCyclicInt, if_neg (not_le.mpr h)]
  have hy := Except.ok.inj hy
  simp only at hy ⊢
  congr 1
  by_cases hx : (x : ℝ) > u
  · have h0 := pymod_nonneg (a := (x : ℝ) - u) hp
    simp only [if_pos hx] at hy ⊢
    rw [if_neg (by linarith)] at hy
    rw [hy, truncate_int]
    rw [if_neg (by linarith)]
  · simp only [if_neg hx] at hy ⊢
    split at hy
    · rename_i hlt
      rw [if_pos hlt, hy, truncate_int]
    · rename_i hlt
      rw [if_neg hlt]
      exact_mod_cast hy

/-- C42: then the rows are the same. -/
theorem cyclic_row_of_integers_at_integers_partial {n : Nat} {knots : Nat → ℝ} (h : knots 0 < knots n) {x k : Int}
    (hk : mapCyclic x (knots 0) (knots n) = .ok (k : ℝ)) : cyclicRowInt n knots x = cyclicRow n knots x := by
  obtain ⟨k', h1, h2⟩ := (cyclic_place_of_integers_iff h x hk).mpr ⟨k, rfl⟩
  obtain rfl : k' = k := by exact_mod_cast h2
  rw [cyclicRowInt, cyclicRow, h1, hk]
  rfl

/-- With the bounds 0 and 5/2, the integer 6 is at place 1, which is an integer. -/
example : mapCyclic (6 : Int) 0 (5 / 2) = .ok ((1 : Int) : ℝ) := by
  obtain ⟨y, h, h1, h2, ⟨k, hk⟩, _⟩ := (cyclic_map ((6 : Int) : ℝ) 0 (5 / 2)).2 (by norm_num)
  push_cast at hk
  have a : (-3 : ℝ) < k := by linarith
  have b : (k : ℝ) < -1 := by linarith
  have a' : -3 < k := by exact_mod_cast a
  have b' : k < -1 := by exact_mod_cast b
  obtain rfl : k = -2 := by omega
  rw [h, hk]
  norm_num

/-- C42 is false in general: with the knots 0, 1/2, 1 and 5/2 the number 3 is mapped to 1/2, but the integer 3 is mapped
to 0. -/
theorem cyclic_row_of_integers_differs :
    ∃ knots : Nat → ℝ, KnotsIncrease 4 knots ∧ ∃ row row' : Fin 3 → ℝ,
      cyclicRow 3 knots (3 : Int) = .ok row ∧ cyclicRowInt 3 knots 3 = .ok row' ∧ row 1 = 1 ∧ row' 1 = 0 := by
  let knots : Nat → ℝ := fun i => if i = 0 then 0 else if i = 1 then 1 / 2 else if i = 2 then 1 else 5 / 2
  have hk : KnotsIncrease 4 knots := by
    intro i j hij hj
    have hi : i = 0 ∨ i = 1 ∨ i = 2 := by omega
    have : j = 1 ∨ j = 2 ∨ j = 3 := by omega
    rcases hi with rfl | rfl | rfl <;> rcases this with rfl | rfl | rfl <;>
      first | omega | (simp only [knots]; norm_num)
  have hpm : pymod ((3 : Int) - 5 / 2) (5 / 2 - 0) = 1 / 2 := by
    simp only [pymod]
    rw [show (((3 : Int) : ℝ) - 5 / 2) / (5 / 2 - 0) = 1 / 5 by norm_num, show ⌊(1 / 5 : ℝ)⌋ = 0 by
      rw [Int.floor_eq_zero_iff]; constructor <;> norm_num]
    norm_num
  have e1 : mapCyclic (3 : Int) (knots 0) (knots 3) = .ok (knots 1) := by
    rw [mapCyclic, show knots 0 = 0 from rfl, show knots 3 = 5 / 2 from rfl, show knots 1 = 1 / 2 from rfl,
      if_neg (by norm_num), if_pos (by norm_num), hpm]
    norm_num
  have e2 : mapCyclicInt 3 (knots 0) (knots 3) = .ok 0 := by
    rw [mapCyclicInt, show knots 0 = 0 from rfl, show knots 3 = 5 / 2 from rfl, if_neg (by norm_num),
      if_pos (by norm_num), hpm]
    have : truncate (0 + 1 / 2) = 0 := by
      rw [truncate, if_pos (by norm_num), Int.floor_eq_zero_iff]
      constructor <;> norm_num
    rw [this]
    norm_num
  have r1 := cyclic_row_at_knot (n := 3) (by omega) hk (k := 1) (by omega)
  have r0 := cyclic_row_at_knot (n := 3) (by omega) hk (k := 0) (by omega)
  have m1 : mapCyclic (knots 1) (knots 0) (knots 3) = .ok (knots 1) := by
    obtain ⟨y, h, _, _, _, h5⟩ := (cyclic_map (knots 1) (knots 0) (knots 3)).2 (hk 0 3 (by omega) (by omega))
    rw [h, h5 (hk 0 1 (by omega) (by omega)).le (hk 1 3 (by omega) (by omega)).le]
  have m0 : mapCyclic (knots 0) (knots 0) (knots 3) = .ok (knots 0) := by
    obtain ⟨y, h, _, _, _, h5⟩ := (cyclic_map (knots 0) (knots 0) (knots 3)).2 (hk 0 3 (by omega) (by omega))
    rw [h, h5 le_rfl (hk 0 3 (by omega) (by omega)).le]
  rw [cyclicRow, m1] at r1
  rw [cyclicRow, m0] at r0
  refine ⟨knots, hk, fun c => if c = 1 then 1 else 0, fun c => if c = 0 then 1 else 0, ?_, ?_, by simp, by simp⟩
  · rw [cyclicRow, e1]
    exact r1
  · rw [cyclicRowInt, e2]
    have : ((0 : Int) : ℝ) = knots 0 := by simp [knots]
    simp only [bind, Except.bind, pure, Except.pure] at r0 ⊢
    rw [this]
    exact r0

end Patsy.Props
