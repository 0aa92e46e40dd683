import Verif.Lemmas.CubicCyclic
import Verif.Spec.Spline

/-! # The columns of a cubic regression spline are a basis of the space of splines -/

namespace Patsy.CubicSpline

open Patsy.Spec

/-! ### Cubics on an interval -/

/-- Functions that agree on an interval have the same derivatives there, at the ends as well. -/
theorem deriv_eqOn {f g : ℝ → ℝ} (hf : Differentiable ℝ f) (hg : Differentiable ℝ g) {a b : ℝ} (hab : a < b)
    (h : ∀ x, a ≤ x → x ≤ b → f x = g x) {x : ℝ} (h1 : a ≤ x) (h2 : x ≤ b) : deriv f x = deriv g x := by
  have hu : UniqueDiffWithinAt ℝ (Set.Icc a b) x := uniqueDiffOn_Icc hab x ⟨h1, h2⟩
  rw [← (hf x).derivWithin hu, ← (hg x).derivWithin hu]
  exact derivWithin_congr (fun y hy => h y hy.1 hy.2) (h x h1 h2)

theorem deriv_cubic (c0 c1 c2 c3 : ℝ) :
    deriv (fun x : ℝ => c0 + c1 * x + c2 * x ^ 2 + c3 * x ^ 3) = fun x => c1 + 2 * c2 * x + 3 * c3 * x ^ 2 := by
  funext x
  have h : HasDerivAt (fun x : ℝ => c0 + c1 * x + c2 * x ^ 2 + c3 * x ^ 3)
      (0 + c1 * 1 + c2 * ((2 : ℕ) * x ^ (2 - 1) * 1) + c3 * ((3 : ℕ) * x ^ (3 - 1) * 1)) x :=
    (((hasDerivAt_const x c0).add ((hasDerivAt_id' x).const_mul c1)).add
      (((hasDerivAt_id' x).pow 2).const_mul c2)).add (((hasDerivAt_id' x).pow 3).const_mul c3)
  rw [h.deriv]
  push_cast
  ring

theorem deriv_quadratic (c1 c2 c3 : ℝ) :
    deriv (fun x : ℝ => c1 + 2 * c2 * x + 3 * c3 * x ^ 2) = fun x => 2 * c2 + 6 * c3 * x := by
  have := deriv_cubic c1 (2 * c2) (3 * c3) 0
  simp only [zero_mul, add_zero] at this
  rw [this]
  funext x
  ring

theorem smooth_diff {s : ℝ → ℝ} (h : ContDiff ℝ 2 s) : Differentiable ℝ s ∧ Differentiable ℝ (deriv s) := by
  refine ⟨h.differentiable (by norm_num), ?_⟩
  have : ContDiff ℝ 1 (deriv s) := by
    rw [show (2 : WithTop ℕ∞) = 1 + 1 by norm_num, contDiff_succ_iff_deriv] at h
    exact h.2.2
  exact this.differentiable (by norm_num)

/-- A cubic is determined by its values and second derivatives at two points. -/
theorem cubic_facts {s : ℝ → ℝ} (hs : ContDiff ℝ 2 s) {a b : ℝ} (hab : a < b) (hc : CubicOn s a b) :
    (∀ x, a ≤ x → x ≤ b → s x = (b - x) / (b - a) * s a + (x - a) / (b - a) * s b +
      ((b - x) ^ 3 / (6 * (b - a)) - (b - a) * (b - x) / 6) * deriv (deriv s) a +
      ((x - a) ^ 3 / (6 * (b - a)) - (b - a) * (x - a) / 6) * deriv (deriv s) b) ∧
    deriv s a = (s b - s a) / (b - a) - (b - a) / 3 * deriv (deriv s) a - (b - a) / 6 * deriv (deriv s) b ∧
    deriv s b = (s b - s a) / (b - a) + (b - a) / 6 * deriv (deriv s) a + (b - a) / 3 * deriv (deriv s) b := by
  obtain ⟨c0, c1, c2, c3, h⟩ := hc
  obtain ⟨hd, hd2⟩ := smooth_diff hs
  have g1 : Differentiable ℝ (fun x : ℝ => c0 + c1 * x + c2 * x ^ 2 + c3 * x ^ 3) := by fun_prop
  have g2 : Differentiable ℝ (fun x : ℝ => c1 + 2 * c2 * x + 3 * c3 * x ^ 2) := by fun_prop
  have d1 : ∀ x, a ≤ x → x ≤ b → deriv s x = c1 + 2 * c2 * x + 3 * c3 * x ^ 2 := by
    intro x h1 h2
    rw [deriv_eqOn hd g1 hab h h1 h2, deriv_cubic]
  have d2 : ∀ x, a ≤ x → x ≤ b → deriv (deriv s) x = 2 * c2 + 6 * c3 * x := by
    intro x h1 h2
    rw [deriv_eqOn hd2 g2 hab d1 h1 h2, deriv_quadratic]
  have hne : b - a ≠ 0 := by linarith
  have l := le_refl a
  have r := le_refl b
  refine ⟨?_, ?_, ?_⟩
  · intro x h1 h2
    rw [h x h1 h2, h a l hab.le, h b hab.le r, d2 a l hab.le, d2 b hab.le r]
    field_simp
    ring
  · rw [d1 a l hab.le, h a l hab.le, h b hab.le r, d2 a l hab.le, d2 b hab.le r]
    field_simp
    ring
  · rw [d1 b hab.le r, h a l hab.le, h b hab.le r, d2 a l hab.le, d2 b hab.le r]
    field_simp
    ring

/-- The converse: pieces are cubic. -/
theorem piece_cubic (knots β δ : Nat → ℝ) (j : Nat) {s : ℝ → ℝ} {a b : ℝ}
    (h : ∀ x, a ≤ x → x ≤ b → s x = piece knots β δ j x) : CubicOn s a b := by
  refine ⟨piece knots β δ j 0,
    -(β j / gap knots j) + β (j + 1) / gap knots j +
      (-(3 * knots (j + 1) ^ 2 / (6 * gap knots j)) + gap knots j / 6) * δ j +
      (3 * knots j ^ 2 / (6 * gap knots j) - gap knots j / 6) * δ (j + 1),
    3 * knots (j + 1) / (6 * gap knots j) * δ j - 3 * knots j / (6 * gap knots j) * δ (j + 1),
    -(δ j / (6 * gap knots j)) + δ (j + 1) / (6 * gap knots j), ?_⟩
  intro x h1 h2
  rw [h x h1 h2, piece, piece]
  ring

/-! ### Uniqueness of second derivatives -/

/-- Where a value of largest size is at most half of a weighted mean of its neighbours, it is zero. -/
theorem dominated_zero {g0 g1 e0 e1 e2 : ℝ} (h0 : 0 < g0) (h1 : 0 < g1)
    (h : g0 / 6 * e0 + (g0 + g1) / 3 * e1 + g1 / 6 * e2 = 0) (a0 : |e0| ≤ |e1|) (a2 : |e2| ≤ |e1|) : e1 = 0 := by
  have e : (g0 + g1) / 3 * e1 = -(g0 / 6 * e0) - g1 / 6 * e2 := by linarith
  have b : |(g0 + g1) / 3 * e1| ≤ g0 / 6 * |e0| + g1 / 6 * |e2| := by
    rw [e]
    refine (abs_sub _ _).trans ?_
    rw [abs_neg, abs_mul, abs_mul, abs_of_pos (show 0 < g0 / 6 by positivity), abs_of_pos (show 0 < g1 / 6 by positivity)]
  rw [abs_mul, abs_of_pos (show 0 < (g0 + g1) / 3 by positivity)] at b
  have c0 : g0 / 6 * |e0| ≤ g0 / 6 * |e1| := mul_le_mul_of_nonneg_left a0 (by positivity)
  have c1 : g1 / 6 * |e2| ≤ g1 / 6 * |e1| := mul_le_mul_of_nonneg_left a2 (by positivity)
  have p : 0 < (g0 + g1) / 6 := by positivity
  have q : (g0 + g1) / 6 * |e1| ≤ 0 := by linarith
  have r : |e1| ≤ 0 := by
    by_contra hne
    have := mul_pos p (not_le.mp hne)
    linarith
  exact abs_eq_zero.mp (le_antisymm r (abs_nonneg _))

theorem natural_unique {n : Nat} {knots : Nat → ℝ} (hk : KnotsIncrease (n + 2) knots) {e : Nat → ℝ} (h0 : e 0 = 0)
    (hl : e (n + 1) = 0)
    (hs : ∀ i, i < n → gap knots i / 6 * e i + (gap knots i + gap knots (i + 1)) / 3 * e (i + 1) +
      gap knots (i + 1) / 6 * e (i + 2) = 0) {i : Nat} (hi : i < n + 2) : e i = 0 := by
  obtain ⟨m, hm, hmax⟩ := Finset.exists_max_image (Finset.range (n + 2)) (fun i => |e i|) ⟨0, by simp⟩
  have hz : e m = 0 := by
    rcases Nat.eq_zero_or_pos m with h | h
    · rw [h, h0]
    · have hm' := Finset.mem_range.mp hm
      rcases Nat.lt_or_ge m (n + 1) with hlt | hge
      · obtain ⟨k, rfl⟩ : ∃ k, m = k + 1 := ⟨m - 1, by omega⟩
        exact dominated_zero (gap_pos hk (i := k) (by omega)) (gap_pos hk (i := k + 1) (by omega)) (hs k (by omega))
          (hmax k (Finset.mem_range.mpr (by omega))) (hmax (k + 2) (Finset.mem_range.mpr (by omega)))
      · rw [show m = n + 1 by omega, hl]
  have := hmax i (Finset.mem_range.mpr hi)
  simp only [hz, abs_zero] at this
  exact abs_eq_zero.mp (le_antisymm this (abs_nonneg _))

theorem cyclic_unique {n : Nat} (hn : 0 < n) {knots : Nat → ℝ} (hk : KnotsIncrease (n + 1) knots) {e : Nat → ℝ}
    (hs : ∀ i, i < n → gap knots (prev n i) / 6 * e (prev n i) + (gap knots (prev n i) + gap knots i) / 3 * e i +
      gap knots i / 6 * e (next n i) = 0) {i : Nat} (hi : i < n) : e i = 0 := by
  obtain ⟨m, hm, hmax⟩ := Finset.exists_max_image (Finset.range n) (fun i => |e i|) ⟨0, by simpa using hn⟩
  have hm' := Finset.mem_range.mp hm
  have hz : e m = 0 := by
    exact dominated_zero (gap_pos hk (i := prev n m) (by have := prev_lt hm'; omega)) (gap_pos hk (i := m) (by omega))
      (hs m hm') (hmax _ (Finset.mem_range.mpr (prev_lt hm'))) (hmax _ (Finset.mem_range.mpr (next_lt hm')))
  have := hmax i (Finset.mem_range.mpr hi)
  simp only [hz, abs_zero] at this
  exact abs_eq_zero.mp (le_antisymm this (abs_nonneg _))

/-! ### Natural splines -/

theorem knots_le {size : Nat} {knots : Nat → ℝ} (hk : KnotsIncrease size knots) {i j : Nat} (hij : i ≤ j)
    (hj : j < size) : knots i ≤ knots j := by
  rcases Nat.lt_or_eq_of_le hij with h | h
  · exact (hk i j h hj).le
  · rw [h]

section
variable {n : Nat} {knots : Nat → ℝ} (hk : KnotsIncrease (n + 2) knots) (β : Nat → ℝ)
include hk

theorem naturalValue_between {j : Nat} (hj : j < n + 1) {x : ℝ} (h1 : knots j ≤ x) (h2 : x ≤ knots (j + 1)) :
    naturalValue n knots β x = piece knots β (curvature n knots β) j x := by
  rw [naturalValue_eq hk, piece_eq hk (curvature_zero n knots β) (fun i hi => natural_system hk β hi) j hj,
    ← Finset.sum_range_add_sum_Ico _ (show j + 1 ≤ n + 2 by omega)]
  rw [Finset.sum_eq_zero (s := Finset.Ico (j + 1) (n + 2)), add_zero]
  · congr 1
    apply Finset.sum_congr rfl
    intro k hk'
    have := knots_le hk (show k ≤ j by have := Finset.mem_range.mp hk'; omega) (by omega)
    rw [max_eq_left (by linarith)]
  · intro k hk'
    rw [Finset.mem_Ico] at hk'
    have := knots_le hk hk'.1 hk'.2
    rw [max_eq_right (by linarith)]
    simp

theorem naturalValue_left {x : ℝ} (h : x ≤ knots 0) :
    naturalValue n knots β x = leftLine knots β (curvature n knots β) x := by
  rw [naturalValue_eq hk, Finset.sum_eq_zero, add_zero]
  intro k hk'
  have := knots_le hk (Nat.zero_le k) (Finset.mem_range.mp hk')
  rw [max_eq_right (by linarith)]
  simp

theorem naturalValue_right {x : ℝ} (h : knots (n + 1) ≤ x) :
    naturalValue n knots β x = β (n + 1) + (x - knots (n + 1)) *
      ((β (n + 1) - β n) / gap knots n + gap knots n / 6 * curvature n knots β n) := by
  rw [naturalValue_eq hk, Finset.sum_congr rfl (g := fun k => jump n knots (curvature n knots β) k * (x - knots k) ^ 3)]
  · rw [Finset.sum_range_succ, ← add_assoc,
      ← piece_eq hk (curvature_zero n knots β) (fun i hi => natural_system hk β hi) n (by omega)]
    have hg := (gap_pos hk (i := n) (by omega)).ne'
    have e : knots n = knots (n + 1) - gap knots n := by simp [gap]
    have hj : jump n knots (curvature n knots β) (n + 1) = curvature n knots β n / (6 * gap knots n) := by
      simp [jump, curvature_last]
      ring
    rw [hj, piece, curvature_last, e]
    field_simp
    ring
  · intro k hk'
    have := knots_le hk (show k ≤ n + 1 by have := Finset.mem_range.mp hk'; omega) (by omega)
    rw [max_eq_left (by linarith)]

theorem naturalValue_knot {k : Nat} (h : k < n + 2) : naturalValue n knots β (knots k) = β k := by
  rcases Nat.lt_or_ge k (n + 1) with h1 | h1
  · rw [naturalValue_between hk β h1 le_rfl (knots_le hk (by omega) (by omega)),
      piece_left (gap_pos hk (by omega)).ne']
  · rw [show k = n + 1 by omega, naturalValue_right hk β le_rfl]
    ring

theorem naturalValue_isNatural : IsNaturalSpline (n + 2) knots (naturalValue n knots β) where
  smooth := naturalValue_contDiff hk β
  cubic j hj := piece_cubic knots β (curvature n knots β) j fun x h1 h2 => naturalValue_between hk β (by omega) h1 h2
  left := by
    refine ⟨leftLine knots β (curvature n knots β) 0,
      -(β 0 / gap knots 0) + β 1 / gap knots 0 - gap knots 0 / 6 * curvature n knots β 1, fun x hx => ?_⟩
    rw [naturalValue_left hk β hx, leftLine, leftLine]
    ring
  right := by
    refine ⟨β (n + 1) - knots (n + 1) * ((β (n + 1) - β n) / gap knots n + gap knots n / 6 * curvature n knots β n),
      (β (n + 1) - β n) / gap knots n + gap knots n / 6 * curvature n knots β n, fun x hx => ?_⟩
    rw [naturalValue_right hk β hx]
    ring

/-- Every natural spline is the one with its own values as coefficients. -/
theorem natural_eq_value {s : ℝ → ℝ} (hs : IsNaturalSpline (n + 2) knots s) (x : ℝ) :
    s x = naturalValue n knots (fun k => s (knots k)) x := by
  obtain ⟨hd, hd2⟩ := smooth_diff hs.smooth
  have hlt : ∀ j, j + 1 < n + 2 → knots j < knots (j + 1) := fun j hj => hk j (j + 1) (by omega) hj
  have facts := fun j (hj : j + 1 < n + 2) => cubic_facts hs.smooth (hlt j hj) (hs.cubic j hj)
  obtain ⟨a, b, hl⟩ := hs.left
  obtain ⟨a', b', hr⟩ := hs.right
  rw [show n + 2 - 1 = n + 1 from rfl] at hr
  have line : ∀ a b : ℝ, Differentiable ℝ (fun x : ℝ => a + b * x) := fun a b => by fun_prop
  have dline : ∀ a b : ℝ, deriv (fun x : ℝ => a + b * x) = fun _ => b := by
    intro a b
    simp
  have dl : ∀ x, x ≤ knots 0 → deriv s x = b := by
    intro x hx
    rw [deriv_eqOn hd (line a b) (show x - 1 < x by linarith) (fun y _ h2 => hl y (h2.trans hx)) (by linarith) le_rfl,
      dline]
  have dr : ∀ x, knots (n + 1) ≤ x → deriv s x = b' := by
    intro x hx
    rw [deriv_eqOn hd (line a' b') (show x < x + 1 by linarith) (fun y h1 _ => hr y (hx.trans h1)) le_rfl (by linarith),
      dline]
  have d0 : deriv (deriv s) (knots 0) = 0 := by
    rw [deriv_eqOn hd2 (differentiable_const b) (show knots 0 - 1 < knots 0 by linarith)
      (fun y _ h2 => dl y h2) (by linarith) le_rfl]
    simp
  have d1 : deriv (deriv s) (knots (n + 1)) = 0 := by
    rw [deriv_eqOn hd2 (differentiable_const b') (show knots (n + 1) < knots (n + 1) + 1 by linarith)
      (fun y h1 _ => dr y h1) le_rfl (by linarith)]
    simp
  have hcurv : ∀ i, i < n + 2 → deriv (deriv s) (knots i) = curvature n knots (fun k => s (knots k)) i := by
    intro i hi
    have := natural_unique hk (e := fun i => deriv (deriv s) (knots i) - curvature n knots (fun k => s (knots k)) i)
      (by simp [d0, curvature_zero]) (by simp [d1, curvature_last]) (fun i hi => by
        have h1 := (facts i (by omega)).2.2
        have h2 := (facts (i + 1) (by omega)).2.1
        have h3 := natural_system hk (fun k => s (knots k)) hi
        simp only [gap, show i + 1 + 1 = i + 2 from rfl] at h1 h2 h3 ⊢
        linear_combination h2 - h1 - h3) hi
    linarith
  by_cases hx0 : x ≤ knots 0
  · rw [naturalValue_left hk _ hx0]
    have h1 := (facts 0 (by omega)).2.1
    rw [dl _ le_rfl, d0, hcurv (0 + 1) (by omega)] at h1
    have hg := (gap_pos hk (i := 0) (by omega)).ne'
    have e1 : knots 1 = knots 0 + gap knots 0 := by simp [gap]
    have e2 := hl (knots 0) le_rfl
    simp only [leftLine]
    rw [show knots (0 + 1) - knots 0 = gap knots 0 from rfl, zero_add] at h1
    have e3 : s x = s (knots 0) + b * (x - knots 0) := by rw [hl x hx0, e2]; ring
    rw [e3, h1]
    have e4 : (knots 1 - x) = gap knots 0 - (x - knots 0) := by rw [e1]; ring
    rw [e4]
    field_simp
    ring
  · by_cases hx1 : knots (n + 1) ≤ x
    · rw [naturalValue_right hk _ hx1]
      have h1 := (facts n (by omega)).2.2
      rw [dr _ le_rfl, d1, hcurv n (by omega)] at h1
      rw [show knots (n + 1) - knots n = gap knots n from rfl] at h1
      have e2 := hr (knots (n + 1)) le_rfl
      have e3 : s x = s (knots (n + 1)) + b' * (x - knots (n + 1)) := by rw [hr x hx1, e2]; ring
      rw [e3, h1]
      ring
    · obtain ⟨h1, h2, h3, h4, h5⟩ := base_j (show 2 ≤ n + 2 by omega) hk x
      have hj1 := h4 (not_le.mp hx0)
      have hj2 := h5 (not_le.mp hx1).le
      generalize (baseFunctions (n + 2) knots x).j = j at *
      rw [naturalValue_between hk _ (show j < n + 1 by omega) hj1.le hj2, (facts j (by omega)).1 x hj1.le hj2, piece,
        hcurv j (by omega), hcurv (j + 1) (by omega)]
      rfl

end

/-! ### Cyclic splines -/

section
variable {n : Nat} (hn : 3 ≤ n) {knots : Nat → ℝ} (hk : KnotsIncrease (n + 1) knots) (β : Nat → ℝ)
include hn hk

theorem cyclicValue_between {j : Nat} (hj : j < n) {x : ℝ} (h1 : knots j ≤ x) (h2 : x ≤ knots (j + 1)) :
    cyclicValue n knots β x =
      piece (longKnots n knots) (longSeq n β) (longSeq n (cyclicCurvature n knots β)) j x := by
  have hn0 : 0 < n := by omega
  have a := knots_le hk (Nat.zero_le j) (by omega)
  have b := knots_le hk (show j + 1 ≤ n by omega) (by omega)
  obtain ⟨y, m, hm, g1, g2, g3, g4, g5⟩ := cyclicValue_eq hn hk β (x := x)
  rw [g4, g3 (by linarith) (by linarith), longSpline_eq (longKnots_mono hn0 hk)
    (fun i => (long_gap_pos hn0 hk i).ne') (long_system hn hk β) (show j ≤ 2 * n by omega)]
  · rw [longKnots_of_le hn0 knots (by omega)]; exact h1
  · rw [longKnots_of_le hn0 knots (by omega)]; exact h2

theorem cyclicValue_isCyclic : IsCyclicSpline (n + 1) knots (cyclicValue n knots β) where
  smooth := cyclicValue_contDiff hn hk β
  periodic := cyclicValue_periodic hn hk β
  cubic j hj := piece_cubic _ _ _ j fun x h1 h2 => cyclicValue_between hn hk β (by omega) h1 h2

/-- Every cyclic spline is the one with its own values as coefficients. -/
theorem cyclic_eq_value {s : ℝ → ℝ} (hs : IsCyclicSpline (n + 1) knots s) (x : ℝ) :
    s x = cyclicValue n knots (fun k => s (knots k)) x := by
  have hn0 : 0 < n := by omega
  obtain ⟨hd, hd2⟩ := smooth_diff hs.smooth
  have hper := hs.periodic
  rw [show n + 1 - 1 = n from rfl] at hper
  have hlt : ∀ j, j + 1 < n + 1 → knots j < knots (j + 1) := fun j hj => hk j (j + 1) (by omega) hj
  have facts := fun j (hj : j + 1 < n + 1) => cubic_facts hs.smooth (hlt j hj) (hs.cubic j hj)
  have pder : ∀ {f : ℝ → ℝ} {p : ℝ}, Function.Periodic f p → Function.Periodic (deriv f) p := by
    intro f p hf y
    have : deriv (fun t => f (t + p)) y = deriv f (y + p) := deriv_comp_add_const f p y
    rw [← this]
    congr 1
    funext t
    exact hf t
  have per1 := pder hper
  have per2 := pder per1
  have wrap : ∀ {f : ℝ → ℝ}, Function.Periodic f (knots n - knots 0) → f (knots n) = f (knots 0) := by
    intro f hf
    have := hf (knots 0)
    rwa [show knots 0 + (knots n - knots 0) = knots n by ring] at this
  -- the value of a periodic function at the knot after another
  have nxt : ∀ {f : ℝ → ℝ}, Function.Periodic f (knots n - knots 0) → ∀ i, i < n →
      f (knots (i + 1)) = f (knots (next n i)) := by
    intro f hf i hi
    simp only [next]
    split
    · rename_i h; rw [h, wrap hf]
    · rfl
  have nxt_prev : ∀ i, i < n → next n (prev n i) = i := by
    intro i hi
    simp only [next, prev]
    split <;> split <;> omega
  have hcurv : ∀ i, i < n → deriv (deriv s) (knots i) = cyclicCurvature n knots (fun k => s (knots k)) i := by
    intro i hi
    have := cyclic_unique hn0 hk
      (e := fun i => deriv (deriv s) (knots i) - cyclicCurvature n knots (fun k => s (knots k)) i)
      (fun i hi => by
        have hp := prev_lt hi
        have h1 := (facts (prev n i) (by omega)).2.2
        have h2 := (facts i (by omega)).2.1
        have h3 := cyclic_system hn hk (fun k => s (knots k)) hi
        rw [nxt per1 _ hp, nxt per2 _ hp, nxt hper _ hp, nxt_prev i hi] at h1
        rw [nxt per2 _ hi, nxt hper _ hi] at h2
        rw [show knots (prev n i + 1) - knots (prev n i) = gap knots (prev n i) from rfl] at h1
        rw [show knots (i + 1) - knots i = gap knots i from rfl] at h2
        linear_combination h2 - h1 - h3) hi
    linarith
  -- within the knots
  have inside : ∀ y, knots 0 ≤ y → y ≤ knots n → s y = cyclicValue n knots (fun k => s (knots k)) y := by
    intro y h1 h2
    obtain ⟨b1, b2, b3, b4, b5⟩ := base_j (show 2 ≤ n + 1 by omega) hk y
    simp only [Nat.add_sub_cancel] at b3 b5
    have hjl : knots (baseFunctions (n + 1) knots y).j ≤ y := by
      rcases lt_or_eq_of_le h1 with h | h
      · exact (b4 h).le
      · rw [b2 h.ge]; exact h1
    have hju := b5 h2
    generalize (baseFunctions (n + 1) knots y).j = j at *
    have hjn : j < n := by omega
    have em : j % n = j := Nat.mod_eq_of_lt hjn
    have em1 : (j + 1) % n = next n j := by rw [succ_mod hn0, em]
    rw [cyclicValue_between hn hk _ hjn hjl hju, (facts j (by omega)).1 y hjl hju, piece]
    simp only [longSeq, em, em1, gap_longKnots hn0, longKnots_of_le hn0 knots (show j ≤ n by omega),
      longKnots_of_le hn0 knots (show j + 1 ≤ n by omega)]
    rw [nxt hper j hjn, nxt per2 j hjn, hcurv j hjn, hcurv _ (next_lt hjn)]
    rfl
  have hp : 0 < knots n - knots 0 := by have := hk 0 n hn0 (by omega); linarith
  obtain ⟨k, hk1, hk2⟩ : ∃ k : Int, knots 0 ≤ x + k * (knots n - knots 0) ∧
      x + k * (knots n - knots 0) ≤ knots n := by
    refine ⟨-⌊(x - knots 0) / (knots n - knots 0)⌋, ?_, ?_⟩
    · have := pymod_nonneg (a := x - knots 0) hp
      simp only [pymod] at this
      push_cast
      linarith
    · have := pymod_lt (a := x - knots 0) hp
      simp only [pymod] at this
      push_cast
      linarith
  have e1 : s (x + k * (knots n - knots 0)) = s x := (hper.int_mul k) x
  have e2 := ((cyclicValue_periodic hn hk (fun k => s (knots k))).int_mul k) x
  rw [← e1, ← e2]
  exact inside _ hk1 hk2

end

end Patsy.CubicSpline
