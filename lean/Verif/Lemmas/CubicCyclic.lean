import Verif.Lemmas.CubicSmooth
import Mathlib.Algebra.Ring.Periodic

/-! # Cyclic cubic regression splines are periodic and twice continuously differentiable -/

namespace Patsy.CubicSpline

open Patsy.Spec

/-! ### The cyclic system -/

/-- The loops that fill the matrices. -/
theorem loop_apply (P Q : Nat → ℝ) (b : Nat → Nat → ℝ) (k : Nat) (r c : Nat) :
    (List.range' 1 k).foldl (fun b i => put (put (put b i i (P i)) i (i - 1) (Q i)) (i - 1) i (Q i)) b r c =
      if r = c ∧ 1 ≤ r ∧ r ≤ k then P r
      else if c + 1 = r ∧ r ≤ k then Q r
      else if r + 1 = c ∧ c ≤ k then Q c
      else b r c := by
  induction k with
  | zero => rw [if_neg (by omega), if_neg (by omega), if_neg (by omega)]; rfl
  | succ k ih =>
    rw [List.range'_1_concat, List.foldl_append, List.foldl_cons, List.foldl_nil, put]
    by_cases h1 : r = 1 + k - 1 ∧ c = 1 + k
    · rw [if_pos h1, if_neg (by omega), if_neg (by omega), if_pos (by omega), h1.2]
    · rw [if_neg h1, put]
      by_cases h2 : r = 1 + k ∧ c = 1 + k - 1
      · rw [if_pos h2, if_neg (by omega), if_pos (by omega), h2.1]
      · rw [if_neg h2, put]
        by_cases h3 : r = 1 + k ∧ c = 1 + k
        · rw [if_pos h3, if_pos (by omega), h3.1]
        · rw [if_neg h3, ih]
          split_ifs <;> first | rfl | omega

/-- The position before and after, cyclically. -/
def prev (n r : Nat) : Nat := if r = 0 then n - 1 else r - 1
/-- See `prev`. -/
def next (n r : Nat) : Nat := if r + 1 = n then 0 else r + 1

theorem cyclicB_apply {n : Nat} (hn : 3 ≤ n) (knots : Nat → ℝ) {r c : Nat} (hr : r < n) (hc : c < n) :
    cyclicB n knots r c =
      if c = r then (gap knots (prev n r) + gap knots r) / 3
      else if c = next n r then gap knots r / 6
      else if c = prev n r then gap knots (prev n r) / 6
      else 0 := by
  simp only [cyclicB]
  rw [loop_apply (fun i => (gap knots (i - 1) + gap knots i) / 3) (fun i => gap knots (i - 1) / 6)]
  simp only [put]
  by_cases h1 : c = r
  · subst h1
    rw [if_pos rfl]
    by_cases h2 : 1 ≤ c
    · rw [if_pos ⟨rfl, h2, by omega⟩, prev, if_neg (by omega)]
    · obtain rfl : c = 0 := by omega
      rw [if_neg (by omega), if_neg (by omega), if_neg (by omega), if_neg (by omega), if_neg (by omega),
        if_pos (by omega), prev, if_pos rfl]
  · rw [if_neg (by omega), if_neg h1]
    by_cases h2 : c = next n r
    · rw [if_pos h2]
      simp only [next] at h2
      split at h2
      · subst h2
        rw [if_neg (by omega), if_neg (by omega), if_pos (by omega)]
        rw [show n - 1 = r by omega]
      · subst h2
        rw [if_neg (by omega), if_pos (by omega), show r + 1 - 1 = r by omega]
    · rw [if_neg h2]
      by_cases h3 : c = prev n r
      · rw [if_pos h3]
        simp only [prev] at h3 ⊢
        split at h3
        · rename_i h0
          subst h0 h3
          rw [if_neg (by omega), if_neg (by omega), if_neg (by omega), if_pos (by omega), if_pos rfl]
        · rename_i h0
          subst h3
          rw [if_pos (by omega), if_neg h0]
      · rw [if_neg h3]
        simp only [prev, next] at h2 h3
        split at h2 <;> split at h3
        · omega
        · rw [if_neg (by omega), if_neg (by omega), if_neg (by omega), if_neg (by omega), if_neg (by omega)]
        · rw [if_neg (by omega), if_neg (by omega), if_neg (by omega), if_neg (by omega), if_neg (by omega)]
        · rw [if_neg (by omega), if_neg (by omega), if_neg (by omega), if_neg (by omega), if_neg (by omega)]

theorem cyclicD_apply {n : Nat} (hn : 3 ≤ n) (knots : Nat → ℝ) {r c : Nat} (hr : r < n) (hc : c < n) :
    cyclicD n knots r c =
      if c = r then -1 / gap knots (prev n r) - 1 / gap knots r
      else if c = next n r then 1 / gap knots r
      else if c = prev n r then 1 / gap knots (prev n r)
      else 0 := by
  simp only [cyclicD]
  rw [loop_apply (fun i => -1 / gap knots (i - 1) - 1 / gap knots i) (fun i => 1 / gap knots (i - 1))]
  simp only [put]
  by_cases h1 : c = r
  · subst h1
    rw [if_pos rfl]
    by_cases h2 : 1 ≤ c
    · rw [if_pos ⟨rfl, h2, by omega⟩, prev, if_neg (by omega)]
    · obtain rfl : c = 0 := by omega
      rw [if_neg (by omega), if_neg (by omega), if_neg (by omega), if_neg (by omega), if_neg (by omega),
        if_pos (by omega), prev, if_pos rfl]
      ring
  · rw [if_neg (by omega), if_neg h1]
    by_cases h2 : c = next n r
    · rw [if_pos h2]
      simp only [next] at h2
      split at h2
      · subst h2
        rw [if_neg (by omega), if_neg (by omega), if_pos (by omega)]
        rw [show n - 1 = r by omega]
      · subst h2
        rw [if_neg (by omega), if_pos (by omega), show r + 1 - 1 = r by omega]
    · rw [if_neg h2]
      by_cases h3 : c = prev n r
      · rw [if_pos h3]
        simp only [prev] at h3 ⊢
        split at h3
        · rename_i h0
          subst h0 h3
          rw [if_neg (by omega), if_neg (by omega), if_neg (by omega), if_pos (by omega), if_pos rfl]
        · rename_i h0
          subst h3
          rw [if_pos (by omega), if_neg h0]
      · rw [if_neg h3]
        simp only [prev, next] at h2 h3
        split at h2 <;> split at h3
        · omega
        · rw [if_neg (by omega), if_neg (by omega), if_neg (by omega), if_neg (by omega), if_neg (by omega)]
        · rw [if_neg (by omega), if_neg (by omega), if_neg (by omega), if_neg (by omega), if_neg (by omega)]
        · rw [if_neg (by omega), if_neg (by omega), if_neg (by omega), if_neg (by omega), if_neg (by omega)]

theorem prev_lt {n r : Nat} (hr : r < n) : prev n r < n := by simp only [prev]; split <;> omega
theorem next_lt {n r : Nat} (hr : r < n) : next n r < n := by simp only [next]; split <;> omega
theorem prev_ne {n r : Nat} (hn : 3 ≤ n) (_hr : r < n) : prev n r ≠ r := by simp only [prev]; split <;> omega
theorem next_ne {n r : Nat} (hn : 3 ≤ n) (_hr : r < n) : next n r ≠ r := by simp only [next]; split <;> omega
theorem prev_ne_next {n r : Nat} (hn : 3 ≤ n) (_hr : r < n) : prev n r ≠ next n r := by
  simp only [prev, next]; split <;> split <;> omega

/-- A sum over positions of a function that vanishes except at a position and its neighbours. -/
theorem sum_cyclic {n : Nat} (hn : 3 ≤ n) (f : Nat → ℝ) {r : Nat} (hr : r < n)
    (hf : ∀ j, j < n → j ≠ r → j ≠ next n r → j ≠ prev n r → f j = 0) :
    ∑ j : Fin n, f j = f r + f (next n r) + f (prev n r) := by
  classical
  have h1 : (⟨r, hr⟩ : Fin n) ∉ ({⟨next n r, next_lt hr⟩, ⟨prev n r, prev_lt hr⟩} : Finset (Fin n)) := by
    simp only [Finset.mem_insert, Finset.mem_singleton, Fin.mk.injEq, not_or]
    exact ⟨(next_ne hn hr).symm, (prev_ne hn hr).symm⟩
  have h2 : (⟨next n r, next_lt hr⟩ : Fin n) ∉ ({⟨prev n r, prev_lt hr⟩} : Finset (Fin n)) := by
    simp only [Finset.mem_singleton, Fin.mk.injEq]
    exact (prev_ne_next hn hr).symm
  rw [← Finset.sum_subset (Finset.subset_univ
    ({⟨r, hr⟩, ⟨next n r, next_lt hr⟩, ⟨prev n r, prev_lt hr⟩} : Finset (Fin n)))]
  · rw [Finset.sum_insert h1, Finset.sum_insert h2, Finset.sum_singleton]
    ring
  · intro j _ hj
    simp only [Finset.mem_insert, Finset.mem_singleton, not_or] at hj
    exact hf j j.2 (fun h => hj.1 (Fin.ext h)) (fun h => hj.2.1 (Fin.ext h)) (fun h => hj.2.2 (Fin.ext h))

theorem cyclic_b_det {n : Nat} (hn : 3 ≤ n) {knots : Nat → ℝ} (hk : KnotsIncrease (n + 1) knots) :
    (Matrix.of fun (i j : Fin n) => cyclicB n knots i j).det ≠ 0 := by
  apply det_ne_zero_of_sum_row_lt_diag
  intro i
  have hi := i.2
  have g0 : 0 < gap knots (prev n i) := gap_pos hk (by have := prev_lt hi; omega)
  have g1 : 0 < gap knots i := gap_pos hk (by omega)
  let f : Nat → ℝ := fun j => if j = (i : Nat) then 0 else if j = next n i then gap knots i / 6
    else if j = prev n i then gap knots (prev n i) / 6 else 0
  have e : ∑ j ∈ Finset.univ.erase i, ‖Matrix.of (fun (i j : Fin n) => cyclicB n knots i j) i j‖ ≤ ∑ j : Fin n, f j := by
    rw [← Finset.sum_erase_add _ _ (Finset.mem_univ i)]
    have : 0 ≤ f i := by simp [f]
    refine le_add_of_le_of_nonneg (Finset.sum_le_sum ?_) this
    intro j hj
    have hne : (j : Nat) ≠ i := fun h => (Finset.mem_erase.mp hj).1 (Fin.ext h)
    rw [Matrix.of_apply, cyclicB_apply hn knots hi j.2, if_neg hne]
    simp only [f]
    rw [if_neg hne]
    split
    · rw [Real.norm_eq_abs, abs_of_pos (by positivity)]
    · split
      · rw [Real.norm_eq_abs, abs_of_pos (by positivity)]
      · simp
  refine lt_of_le_of_lt e ?_
  rw [sum_cyclic hn f hi (by
    intro j _ h1 h2 h3
    simp [f, h1, h2, h3]), Matrix.of_apply, cyclicB_apply hn knots hi hi, if_pos rfl, Real.norm_eq_abs,
    abs_of_pos (by positivity)]
  simp only [f, if_true, next_ne hn hi, prev_ne hn hi, prev_ne_next hn hi, if_false]
  linarith

/-- Second derivatives at the knots of a cyclic spline. -/
noncomputable def cyclicCurvature (n : Nat) (knots β : Nat → ℝ) (j : Nat) : ℝ :=
  ∑ c : Fin n, rowAt (cyclicF n knots) j c * β c

theorem cyclic_system {n : Nat} (hn : 3 ≤ n) {knots : Nat → ℝ} (hk : KnotsIncrease (n + 1) knots) (β : Nat → ℝ)
    {r : Nat} (hr : r < n) :
    gap knots (prev n r) / 6 * cyclicCurvature n knots β (prev n r) +
      (gap knots (prev n r) + gap knots r) / 3 * cyclicCurvature n knots β r +
      gap knots r / 6 * cyclicCurvature n knots β (next n r) =
    (β (next n r) - β r) / gap knots r - (β r - β (prev n r)) / gap knots (prev n r) := by
  have hdet := cyclic_b_det hn hk
  have hB : Matrix.of (fun (i j : Fin n) => cyclicB n knots i j) * cyclicF n knots =
      Matrix.of fun (i j : Fin n) => cyclicD n knots i j := by
    rw [cyclicF, ← Matrix.mul_assoc, Matrix.mul_nonsing_inv _ (isUnit_iff_ne_zero.mpr hdet), Matrix.one_mul]
  have hv : (Matrix.of (fun (i j : Fin n) => cyclicB n knots i j)).mulVec
      ((cyclicF n knots).mulVec fun c => β c) =
      (Matrix.of fun (i j : Fin n) => cyclicD n knots i j).mulVec fun c => β c := by
    rw [Matrix.mulVec_mulVec, hB]
  have hrow := congrFun hv ⟨r, hr⟩
  have hcurv : ∀ j : Fin n, (cyclicF n knots).mulVec (fun c => β c) j = cyclicCurvature n knots β j := by
    intro j
    simp only [Matrix.mulVec, dotProduct, cyclicCurvature]
    apply Finset.sum_congr rfl
    intro c _
    rw [rowAt, dif_pos j.2]
  rw [Matrix.mulVec, Matrix.mulVec, dotProduct, dotProduct] at hrow
  have hl : ∑ j : Fin n, Matrix.of (fun (i j : Fin n) => cyclicB n knots i j) ⟨r, hr⟩ j *
      (cyclicF n knots).mulVec (fun c => β c) j =
      ∑ j : Fin n, (fun j : Nat => (if j = r then (gap knots (prev n r) + gap knots r) / 3
        else if j = next n r then gap knots r / 6
        else if j = prev n r then gap knots (prev n r) / 6
        else 0) * cyclicCurvature n knots β j) j := by
    apply Finset.sum_congr rfl
    intro j _
    rw [Matrix.of_apply, cyclicB_apply hn knots hr j.2, hcurv j]
  rw [hl, sum_cyclic hn (fun j : Nat => (if j = r then (gap knots (prev n r) + gap knots r) / 3
        else if j = next n r then gap knots r / 6
        else if j = prev n r then gap knots (prev n r) / 6
        else 0) * cyclicCurvature n knots β j) hr (by intro j _ h1 h2 h3; simp [h1, h2, h3])] at hrow
  have hr' : ∑ j : Fin n, Matrix.of (fun (i j : Fin n) => cyclicD n knots i j) ⟨r, hr⟩ j * β j =
      ∑ j : Fin n, (fun j : Nat => (if j = r then -1 / gap knots (prev n r) - 1 / gap knots r
        else if j = next n r then 1 / gap knots r
        else if j = prev n r then 1 / gap knots (prev n r)
        else 0) * β j) j := by
    apply Finset.sum_congr rfl
    intro j _
    rw [Matrix.of_apply, cyclicD_apply hn knots hr j.2]
  rw [hr', sum_cyclic hn (fun j : Nat => (if j = r then -1 / gap knots (prev n r) - 1 / gap knots r
        else if j = next n r then 1 / gap knots r
        else if j = prev n r then 1 / gap knots (prev n r)
        else 0) * β j) hr (by intro j _ h1 h2 h3; simp [h1, h2, h3])] at hrow
  simp only [if_true, next_ne hn hr, prev_ne hn hr, prev_ne_next hn hr, if_false] at hrow
  linear_combination hrow

theorem cyclicCurvature_one {n : Nat} (hn : 3 ≤ n) (knots : Nat → ℝ) (j : Nat) :
    cyclicCurvature n knots (fun _ => 1) j = 0 := by
  by_cases h : j < n
  · have hD : (Matrix.of fun (i j : Fin n) => cyclicD n knots i j).mulVec (fun _ => (1 : ℝ)) = 0 := by
      funext i
      simp only [Matrix.mulVec, dotProduct, Pi.zero_apply]
      have hr : ∑ c : Fin n, Matrix.of (fun (i j : Fin n) => cyclicD n knots i j) i c * 1 =
          ∑ c : Fin n, (fun c : Nat => if c = i then -1 / gap knots (prev n i) - 1 / gap knots i
            else if c = next n i then 1 / gap knots i
            else if c = prev n i then 1 / gap knots (prev n i)
            else 0) c := by
        apply Finset.sum_congr rfl
        intro c _
        rw [mul_one, Matrix.of_apply, cyclicD_apply hn knots i.2 c.2]
      rw [hr, sum_cyclic hn (fun c : Nat => if c = i then -1 / gap knots (prev n i) - 1 / gap knots i
            else if c = next n i then 1 / gap knots i
            else if c = prev n i then 1 / gap knots (prev n i)
            else 0) i.2 (by intro j _ h1 h2 h3; simp [h1, h2, h3])]
      simp only [if_true, next_ne hn i.2, prev_ne hn i.2, prev_ne_next hn i.2, if_false]
      ring
    have e : cyclicCurvature n knots (fun _ => 1) j = ((cyclicF n knots).mulVec fun _ => (1 : ℝ)) ⟨j, h⟩ := by
      simp only [cyclicCurvature, Matrix.mulVec, dotProduct]
      apply Finset.sum_congr rfl
      intro c _
      rw [rowAt, dif_pos h]
    rw [e, cyclicF, ← Matrix.mulVec_mulVec, hD, Matrix.mulVec_zero]
    rfl
  · simp [cyclicCurvature, rowAt, h]

/-! ### Continuing the knots periodically -/

/-- The knots, continued periodically. -/
noncomputable def longKnots (n : Nat) (knots : Nat → ℝ) (i : Nat) : ℝ :=
  knots (i % n) + (i / n : Nat) * (knots n - knots 0)

/-- A sequence of `n` values, continued periodically. -/
def longSeq (n : Nat) (β : Nat → ℝ) (i : Nat) : ℝ := β (i % n)

theorem longKnots_add {n : Nat} (hn : 0 < n) (knots : Nat → ℝ) (i : Nat) :
    longKnots n knots (i + n) = longKnots n knots i + (knots n - knots 0) := by
  simp only [longKnots, Nat.add_mod_right, Nat.add_div_right _ hn]
  push_cast
  ring

theorem longSeq_add {n : Nat} (β : Nat → ℝ) (i : Nat) : longSeq n β (i + n) = longSeq n β i := by
  simp [longSeq]

theorem longKnots_of_le {n : Nat} (hn : 0 < n) (knots : Nat → ℝ) {i : Nat} (hi : i ≤ n) :
    longKnots n knots i = knots i := by
  rcases Nat.lt_or_eq_of_le hi with h | h
  · simp [longKnots, Nat.mod_eq_of_lt h, Nat.div_eq_of_lt h]
  · subst h
    simp [longKnots, Nat.div_self hn]

theorem succ_mod {n : Nat} (hn : 0 < n) (i : Nat) : (i + 1) % n = next n (i % n) := by
  have hlt := Nat.mod_lt i hn
  simp only [next]
  split
  · rename_i h
    rw [Nat.add_mod, ← Nat.add_mod_mod, Nat.mod_mod]
    have : i % n + 1 % n = i % n + 1 ∨ n = 1 := by
      rcases Nat.lt_or_ge 1 n with h1 | h1
      · rw [Nat.mod_eq_of_lt h1]; exact Or.inl rfl
      · right; omega
    rcases this with h2 | h2
    · rw [Nat.add_mod_mod, h]
      simp
    · subst h2
      exact Nat.mod_one _
  · rename_i h
    rw [← Nat.mod_add_mod]
    exact Nat.mod_eq_of_lt (by omega)

theorem prev_next {n r : Nat} (hr : r < n) : prev n (next n r) = r := by
  simp only [prev, next]
  split <;> split <;> omega

theorem gap_longKnots {n : Nat} (hn : 0 < n) (knots : Nat → ℝ) (i : Nat) :
    gap (longKnots n knots) i = gap knots (i % n) := by
  have hlt := Nat.mod_lt i hn
  have e : i = i % n + (i / n) * n := by rw [Nat.mul_comm]; exact (Nat.mod_add_div i n).symm
  have hadd : ∀ (q r : Nat), longKnots n knots (r + q * n) = longKnots n knots r + q * (knots n - knots 0) := by
    intro q r
    induction q with
    | zero => simp
    | succ q ih =>
      rw [show r + (q + 1) * n = r + q * n + n by ring, longKnots_add hn, ih]
      push_cast
      ring
  rw [gap, gap]
  have e1 : longKnots n knots i = knots (i % n) + (i / n : Nat) * (knots n - knots 0) := rfl
  have e2 : longKnots n knots (i + 1) = knots (i % n + 1) + (i / n : Nat) * (knots n - knots 0) := by
    conv_lhs => rw [e, show i % n + i / n * n + 1 = (i % n + 1) + i / n * n by ring, hadd]
    rw [longKnots_of_le hn knots (by omega)]
  rw [e1, e2]
  ring

theorem long_gap_pos {n : Nat} (hn : 0 < n) {knots : Nat → ℝ} (hk : KnotsIncrease (n + 1) knots) (i : Nat) :
    0 < gap (longKnots n knots) i := by
  rw [gap_longKnots hn]
  exact gap_pos hk (by have := Nat.mod_lt i hn; omega)

theorem longKnots_mono {n : Nat} (hn : 0 < n) {knots : Nat → ℝ} (hk : KnotsIncrease (n + 1) knots) :
    Monotone (longKnots n knots) := by
  apply monotone_nat_of_le_succ
  intro i
  have := long_gap_pos hn hk i
  simp only [gap] at this
  linarith

/-- The cyclic system, for the continued sequences. -/
theorem long_system {n : Nat} (hn : 3 ≤ n) {knots : Nat → ℝ} (hk : KnotsIncrease (n + 1) knots) (β : Nat → ℝ) (i : Nat) :
    gap (longKnots n knots) i / 6 * longSeq n (cyclicCurvature n knots β) i +
      (gap (longKnots n knots) i + gap (longKnots n knots) (i + 1)) / 3 * longSeq n (cyclicCurvature n knots β) (i + 1) +
      gap (longKnots n knots) (i + 1) / 6 * longSeq n (cyclicCurvature n knots β) (i + 2) =
    (longSeq n β (i + 2) - longSeq n β (i + 1)) / gap (longKnots n knots) (i + 1) -
      (longSeq n β (i + 1) - longSeq n β i) / gap (longKnots n knots) i := by
  have hn0 : 0 < n := by omega
  have h := cyclic_system hn hk β (Nat.mod_lt (i + 1) hn0)
  have e1 : prev n ((i + 1) % n) = i % n := by rw [succ_mod hn0, prev_next (Nat.mod_lt _ hn0)]
  have e2 : next n ((i + 1) % n) = (i + 2) % n := (succ_mod hn0 (i + 1)).symm
  rw [e1, e2] at h
  simp only [gap_longKnots hn0, longSeq]
  exact h

/-- Pieces and truncated cubes, for infinitely many knots. -/
noncomputable def longJump (knots δ : Nat → ℝ) (k : Nat) : ℝ :=
  (δ (k + 2) - δ (k + 1)) / (6 * gap knots (k + 1)) - (δ (k + 1) - δ k) / (6 * gap knots k)

theorem piece_long {knots β δ : Nat → ℝ} (hg : ∀ i, gap knots i ≠ 0)
    (hs : ∀ i, gap knots i / 6 * δ i + (gap knots i + gap knots (i + 1)) / 3 * δ (i + 1) +
      gap knots (i + 1) / 6 * δ (i + 2) = (β (i + 2) - β (i + 1)) / gap knots (i + 1) - (β (i + 1) - β i) / gap knots i)
    (j : Nat) (x : ℝ) :
    piece knots β δ j x =
      piece knots β δ 0 x + ∑ k ∈ Finset.range j, longJump knots δ k * (x - knots (k + 1)) ^ 3 := by
  induction j with
  | zero => simp
  | succ j ih =>
    rw [Finset.sum_range_succ, piece_succ (hg j) (hg (j + 1)) (hs j), ih, longJump]
    ring

/-- A smooth function that agrees with the pieces on the first `N + 1` intervals. -/
noncomputable def longSpline (knots β δ : Nat → ℝ) (N : Nat) (x : ℝ) : ℝ :=
  piece knots β δ 0 x + ∑ k ∈ Finset.range N, longJump knots δ k * max (x - knots (k + 1)) 0 ^ 3

theorem longSpline_eq {knots β δ : Nat → ℝ} (hm : Monotone knots) (hg : ∀ i, gap knots i ≠ 0)
    (hs : ∀ i, gap knots i / 6 * δ i + (gap knots i + gap knots (i + 1)) / 3 * δ (i + 1) +
      gap knots (i + 1) / 6 * δ (i + 2) = (β (i + 2) - β (i + 1)) / gap knots (i + 1) - (β (i + 1) - β i) / gap knots i)
    {N j : Nat} (hj : j ≤ N) {x : ℝ} (h1 : knots j ≤ x) (h2 : x ≤ knots (j + 1)) :
    longSpline knots β δ N x = piece knots β δ j x := by
  rw [piece_long hg hs j, longSpline, ← Finset.sum_range_add_sum_Ico _ hj]
  have a : ∑ k ∈ Finset.Ico j N, longJump knots δ k * max (x - knots (k + 1)) 0 ^ 3 = 0 := by
    apply Finset.sum_eq_zero
    intro k hk
    have := hm (show j + 1 ≤ k + 1 by have := (Finset.mem_Ico.mp hk).1; omega)
    rw [max_eq_right (by linarith)]
    simp
  have b : ∑ k ∈ Finset.range j, longJump knots δ k * max (x - knots (k + 1)) 0 ^ 3 =
      ∑ k ∈ Finset.range j, longJump knots δ k * (x - knots (k + 1)) ^ 3 := by
    apply Finset.sum_congr rfl
    intro k hk
    have := hm (show k + 1 ≤ j by have := Finset.mem_range.mp hk; omega)
    rw [max_eq_left (by linarith)]
  rw [a, b]
  ring

theorem longSpline_contDiff (knots β δ : Nat → ℝ) (N : Nat) : ContDiff ℝ 2 (longSpline knots β δ N) := by
  unfold longSpline
  refine ContDiff.add ?_ ?_
  · unfold piece
    fun_prop
  · apply ContDiff.sum
    intro k _
    refine contDiff_const.mul ?_
    exact contDiff_trunc.comp (contDiff_id.sub contDiff_const)

theorem piece_add {n : Nat} {knots β δ : Nat → ℝ} {p : ℝ} (hk : ∀ i, knots (i + n) = knots i + p)
    (hβ : ∀ i, β (i + n) = β i) (hδ : ∀ i, δ (i + n) = δ i) (j : Nat) (x : ℝ) :
    piece knots β δ (j + n) (x + p) = piece knots β δ j x := by
  have g : gap knots (j + n) = gap knots j := by
    rw [gap, gap, show j + n + 1 = j + 1 + n by omega, hk, hk]
    ring
  simp only [piece, g, show j + n + 1 = j + 1 + n by omega, hk, hβ, hδ]
  ring

/-! ### The value of a cyclic spline -/

/-- The value of the spline with given coefficients. -/
noncomputable def cyclicValue (n : Nat) (knots β : Nat → ℝ) (x : ℝ) : ℝ :=
  match cyclicRow n knots x with
  | .ok row => ∑ c, row c * β c
  | .error _ => 0

theorem sum_rowAt {n : Nat} (F : Matrix (Fin n) (Fin n) ℝ) (j : Nat) (a : ℝ) (β : Nat → ℝ) :
    ∑ c : Fin n, a * rowAt F j c * β c = a * ∑ c : Fin n, rowAt F j c * β c := by
  rw [Finset.mul_sum]
  exact Finset.sum_congr rfl fun c _ => by ring

theorem cyclicRow_sum {n : Nat} (hn : 0 < n) {knots : Nat → ℝ} (hk : KnotsIncrease (n + 1) knots) (β : Nat → ℝ) (x : ℝ) :
    ∃ row, cyclicRow n knots x = .ok row ∧ ∃ y, ∃ m : Int, y = x + m * (knots n - knots 0) ∧
      knots 0 ≤ y ∧ y ≤ knots n ∧ (knots 0 ≤ x → x ≤ knots n → y = x) ∧ ∃ j : Nat, j < n ∧
        knots j ≤ y ∧ y ≤ knots (j + 1) ∧
        ∑ c, row c * β c = piece (longKnots n knots) (longSeq n β) (longSeq n (cyclicCurvature n knots β)) j y := by
  have h0n : knots 0 < knots n := hk 0 n hn (by omega)
  obtain ⟨y, hy, h1, h2, ⟨m, hm⟩, h3⟩ := mapCyclic_spec h0n x
  refine ⟨cyclicRowMapped n knots y, by simp only [cyclicRow, hy, bind, Except.bind, pure, Except.pure], y, m, hm, h1, h2, h3,
    (baseFunctions (n + 1) knots y).j, ?_⟩
  obtain ⟨b1, b2, b3, b4, b5⟩ := base_j (show 2 ≤ n + 1 by omega) hk y
  simp only [Nat.add_sub_cancel] at b3 b5
  have hjl : knots (baseFunctions (n + 1) knots y).j ≤ y := by
    rcases lt_or_eq_of_le h1 with h | h
    · exact (b4 h).le
    · rw [b2 h.ge]; exact h1
  refine ⟨by omega, hjl, b5 h2, ?_⟩
  set j := (baseFunctions (n + 1) knots y).j with hjdef
  have hj1 : (if j + 1 = n then 0 else j + 1) = (j + 1) % n := by
    split
    · rename_i h; rw [h, Nat.mod_self]
    · rw [Nat.mod_eq_of_lt (by omega)]
  have hjj : j % n = j := Nat.mod_eq_of_lt (by omega)
  have hg : gap (longKnots n knots) j = gap knots j := by rw [gap_longKnots hn, hjj]
  have hcj : (baseFunctions (n + 1) knots y).cjm = (knots (j + 1) - y) ^ 3 / (6 * gap knots j) - gap knots j * (knots (j + 1) - y) / 6 := by
    rw [hjdef]
    simp only [baseFunctions, gap, Nat.add_sub_cancel]
    rw [if_neg (by linarith)]
    ring
  have hcp : (baseFunctions (n + 1) knots y).cjp = (y - knots j) ^ 3 / (6 * gap knots j) - gap knots j * (y - knots j) / 6 := by
    rw [hjdef]
    simp only [baseFunctions, gap]
    rw [if_neg (by linarith)]
    ring
  have ham : (baseFunctions (n + 1) knots y).ajm = (knots (j + 1) - y) / gap knots j := rfl
  have hap : (baseFunctions (n + 1) knots y).ajp = (y - knots j) / gap knots j := rfl
  have hlt := Nat.mod_lt (j + 1) hn
  simp only [cyclicRowMapped, ← hjdef, hj1]
  simp only [add_mul, Finset.sum_add_distrib, sum_rowAt]
  have su : ∀ (a : ℝ) (i : Nat), i < n → ∑ c : Fin n, a * (if i = (c : Nat) then (1 : ℝ) else 0) * β c = a * β i := by
    intro a i hi
    rw [← sum_unit n β i hi, Finset.mul_sum]
    exact Finset.sum_congr rfl fun c _ => by ring
  rw [su _ _ (by omega), su _ _ hlt, hcj, hcp, ham, hap]
  simp only [piece, hg, longSeq, hjj, longKnots_of_le hn knots (show j ≤ n by omega),
    longKnots_of_le hn knots (show j + 1 ≤ n by omega)]
  rfl

theorem piece_left {knots β δ : Nat → ℝ} {j : Nat} (hg : gap knots j ≠ 0) : piece knots β δ j (knots j) = β j := by
  have e : knots (j + 1) - knots j = gap knots j := rfl
  simp only [piece, e, sub_self]
  field_simp
  ring

theorem piece_right {knots β δ : Nat → ℝ} {j : Nat} (hg : gap knots j ≠ 0) :
    piece knots β δ j (knots (j + 1)) = β (j + 1) := by
  have e : knots (j + 1) - knots j = gap knots j := rfl
  simp only [piece, e, sub_self]
  field_simp
  ring

section
variable {n : Nat} (hn : 3 ≤ n) {knots : Nat → ℝ} (hk : KnotsIncrease (n + 1) knots) (β : Nat → ℝ)
include hn hk

/-- Within one period and the next the value is that of a smooth function. -/
theorem cyclicValue_eq {x : ℝ} : ∃ y, ∃ m : Int, y = x + m * (knots n - knots 0) ∧
    knots 0 ≤ y ∧ y ≤ knots n ∧ (knots 0 ≤ x → x ≤ knots n → y = x) ∧
    cyclicValue n knots β x =
      longSpline (longKnots n knots) (longSeq n β) (longSeq n (cyclicCurvature n knots β)) (2 * n) y ∧
    cyclicValue n knots β x =
      longSpline (longKnots n knots) (longSeq n β) (longSeq n (cyclicCurvature n knots β)) (2 * n)
        (y + (knots n - knots 0)) := by
  have hn0 : 0 < n := by omega
  obtain ⟨row, h0, y, m, hm, h1, h2, h3, j, hj, hl, hr, hsum⟩ := cyclicRow_sum hn0 hk β x
  have hv : cyclicValue n knots β x =
      piece (longKnots n knots) (longSeq n β) (longSeq n (cyclicCurvature n knots β)) j y := by
    rw [cyclicValue, h0, ← hsum]
  have e1 := longKnots_of_le hn0 knots (show j ≤ n by omega)
  have e2 := longKnots_of_le hn0 knots (show j + 1 ≤ n by omega)
  refine ⟨y, m, hm, h1, h2, h3, ?_, ?_⟩
  · rw [hv, longSpline_eq (longKnots_mono hn0 hk) (fun i => (long_gap_pos hn0 hk i).ne') (long_system hn hk β)
      (show j ≤ 2 * n by omega) (by rw [e1]; exact hl) (by rw [e2]; exact hr)]
  · rw [hv, longSpline_eq (longKnots_mono hn0 hk) (fun i => (long_gap_pos hn0 hk i).ne') (long_system hn hk β)
      (show j + n ≤ 2 * n by omega) (by rw [longKnots_add hn0, e1]; linarith)
      (by rw [show j + n + 1 = j + 1 + n by omega, longKnots_add hn0, e2]; linarith),
      piece_add (longKnots_add hn0 knots) (longSeq_add β) (longSeq_add _)]

theorem cyclicValue_periodic : Function.Periodic (cyclicValue n knots β) (knots n - knots 0) := by
  intro x
  have hn0 : 0 < n := by omega
  have hp : 0 < knots n - knots 0 := by have := hk 0 n hn0 (by omega); linarith
  obtain ⟨y, m, hm, h1, h2, _, h4, h5⟩ := cyclicValue_eq hn hk β (x := x)
  obtain ⟨z, k, hz, g1, g2, _, g4, g5⟩ := cyclicValue_eq hn hk β (x := x + (knots n - knots 0))
  have hd : z - y = (k + 1 - m : Int) * (knots n - knots 0) := by
    rw [hz, hm]
    push_cast
    ring
  have b1 : (-1 : ℝ) ≤ (k + 1 - m : Int) := by
    by_contra h
    have : ((k + 1 - m : Int) : ℝ) * (knots n - knots 0) < -1 * (knots n - knots 0) :=
      mul_lt_mul_of_pos_right (not_le.mp h) hp
    linarith
  have b2 : ((k + 1 - m : Int) : ℝ) ≤ 1 := by
    by_contra h
    have : 1 * (knots n - knots 0) < ((k + 1 - m : Int) : ℝ) * (knots n - knots 0) :=
      mul_lt_mul_of_pos_right (not_le.mp h) hp
    linarith
  have c1 : -1 ≤ k + 1 - m := by exact_mod_cast b1
  have c2 : k + 1 - m ≤ 1 := by exact_mod_cast b2
  have : k + 1 - m = -1 ∨ k + 1 - m = 0 ∨ k + 1 - m = 1 := by omega
  rcases this with h | h | h
  · rw [h] at hd
    push_cast at hd
    rw [g5, h4]
    congr 1
    linarith
  · rw [h] at hd
    push_cast at hd
    rw [g4, h4]
    congr 1
    linarith
  · rw [h] at hd
    push_cast at hd
    rw [g4, h5]
    congr 1
    linarith

theorem cyclicValue_contDiff : ContDiff ℝ 2 (cyclicValue n knots β) := by
  have hn0 : 0 < n := by omega
  have hp : 0 < knots n - knots 0 := by have := hk 0 n hn0 (by omega); linarith
  have hper := cyclicValue_periodic hn hk β
  rw [contDiff_iff_contDiffAt]
  intro x
  -- move into the middle of two periods
  obtain ⟨k, hk1, hk2⟩ : ∃ k : Int, knots 0 < x + k * (knots n - knots 0) ∧
      x + k * (knots n - knots 0) < knots 0 + 2 * (knots n - knots 0) := by
    refine ⟨1 - ⌊(x - knots 0) / (knots n - knots 0)⌋, ?_, ?_⟩
    · have := pymod_nonneg (a := x - knots 0) hp
      simp only [pymod] at this
      push_cast
      linarith
    · have := pymod_lt (a := x - knots 0) hp
      simp only [pymod] at this
      push_cast
      linarith
  have hshift : cyclicValue n knots β = fun t => cyclicValue n knots β (t + k * (knots n - knots 0)) := by
    funext t
    exact ((hper.int_mul k) t).symm
  have hat : ContDiffAt ℝ 2 (cyclicValue n knots β) (x + k * (knots n - knots 0)) := by
    refine (longSpline_contDiff (longKnots n knots) (longSeq n β) (longSeq n (cyclicCurvature n knots β))
      (2 * n)).contDiffAt.congr_of_eventuallyEq ?_
    filter_upwards [Ioo_mem_nhds hk1 hk2] with t ht
    obtain ⟨y, m, hm, h1, h2, h3, h4, h5⟩ := cyclicValue_eq hn hk β (x := t)
    by_cases htn : t ≤ knots n
    · rw [h4, h3 ht.1.le htn]
    · have htn' := not_le.mp htn
      have htu := ht.2
      have d1 : (m : ℝ) < 0 := by
        by_contra h
        have : 0 ≤ (m : ℝ) * (knots n - knots 0) := mul_nonneg (not_lt.mp h) hp.le
        linarith
      have d2 : (-2 : ℝ) < m := by
        by_contra h
        have : (m : ℝ) * (knots n - knots 0) ≤ -2 * (knots n - knots 0) :=
          mul_le_mul_of_nonneg_right (not_lt.mp h) hp.le
        linarith
      have d3 : m < 0 := by exact_mod_cast d1
      have d4 : -2 < m := by exact_mod_cast d2
      obtain rfl : m = -1 := by omega
      rw [h5, hm]
      congr 1
      push_cast
      ring
  rw [hshift]
  exact hat.comp x (contDiff_id.add contDiff_const).contDiffAt

/-- At the knots the spline has the given values. -/
theorem cyclicValue_knot {i : Nat} (hi : i < n) : cyclicValue n knots β (knots i) = β i := by
  have hn0 : 0 < n := by omega
  have h0i : knots 0 ≤ knots i := by
    rcases Nat.eq_zero_or_pos i with h | h
    · rw [h]
    · exact (hk 0 i h (by omega)).le
  have hin : knots i ≤ knots n := (hk i n hi (by omega)).le
  obtain ⟨y, m, hm, h1, h2, h3, h4, h5⟩ := cyclicValue_eq hn hk β (x := knots i)
  have e1 := longKnots_of_le hn0 knots (show i ≤ n by omega)
  rw [h4, h3 h0i hin, ← e1, longSpline_eq (longKnots_mono hn0 hk) (fun i => (long_gap_pos hn0 hk i).ne')
    (long_system hn hk β) (show i ≤ 2 * n by omega) le_rfl (longKnots_mono hn0 hk (by omega)),
    piece_left (long_gap_pos hn0 hk i).ne', longSeq, Nat.mod_eq_of_lt hi]

end

/-- Where all coefficients are one the spline is one everywhere. -/
theorem cyclicValue_one {n : Nat} (hn : 3 ≤ n) {knots : Nat → ℝ} (hk : KnotsIncrease (n + 1) knots) (x : ℝ) :
    cyclicValue n knots (fun _ => 1) x = 1 := by
  have hn0 : 0 < n := by omega
  obtain ⟨row, h0, y, m, hm, h1, h2, h3, j, hj, hl, hr, hsum⟩ := cyclicRow_sum hn0 hk (fun _ => 1) x
  rw [cyclicValue, h0]
  simp only
  rw [hsum]
  have hg := (long_gap_pos hn0 hk j).ne'
  simp only [piece, longSeq, cyclicCurvature_one hn knots, mul_one, mul_zero, add_zero]
  rw [← add_div, div_eq_one_iff_eq hg, gap]
  ring

end Patsy.CubicSpline
