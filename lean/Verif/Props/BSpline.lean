import Verif.Lemmas.BsKnots
import Verif.Props.SplineTransform

/-!
# C51: `bs` spans exactly the splines with its knots

The theorems hold for every `splev` that evaluates combinations of B-splines (`EvaluatesSplines`); `Splev.splev_evaluates` shows
that FITPACK's algorithm does.
-/

namespace Patsy.Props

open Patsy.SplineTransform Patsy.Spec Patsy.BSpline

section

variable {splev : Splev} {args : BsArgs} {data : List ℝ} {s : BsState} {inner : List ℝ} {lo hi : ℝ}

theorem combine_drop (n d : ℕ) (g β : ℕ → ℝ) :
    combine (((List.range n).map g).drop d) β = ∑ j ∈ Finset.range (n - d), g (j + d) * β j := by
  unfold combine
  simp only [List.length_drop, List.length_map, List.length_range]
  refine Finset.sum_congr rfl fun j hj => ?_
  have := Finset.mem_range.mp hj
  congr 1
  simp [List.getElem?_range, show d + j < n by omega, add_comm]

/-- With an intercept, the combinations of the columns of `bs` are exactly the splines of the given degree with the given
inner knots. -/
theorem bs_splines (hsp : EvaluatesSplines splev) (h : bsFinish args data = .ok s) (hin : bsInner args data = .ok inner)
    (hl : LowerEnd args.lower data lo) (hu : UpperEnd args.upper data hi) (hlt : lo < hi) (hstrict : ∀ a ∈ inner, lo < a ∧ a < hi)
    (f : ℝ → ℝ) : IsSpline args.degree.toNat lo hi inner f ↔
      ∃ β, ∀ y rows, bsTransform splev s true y = .ok rows → y.map f = rows.map fun row => combine row β := by
  obtain ⟨hlu, hb, hrows⟩ := bs_rows (splev := splev) h hin hl hu
  have K := bsKnots_knots (k := args.degree.toNat) hlt hstrict
  rw [K.isSpline_iff]
  refine exists_congr fun β => ⟨fun hf y rows hy => ?_, fun hf x l h1 h2 h3 h4 h5 => ?_⟩
  · obtain ⟨-, hyx, rfl⟩ := (hrows true y rows).mp hy
    rw [List.map_map]
    refine List.map_congr_left fun x hx => ?_
    obtain ⟨l, h1, h2, h3, h4, h5⟩ := K.location (hyx x hx).1 (hyx x hx).2
    simp only [Function.comp]
    rw [hf x l h1 h2 h3 h4 h5, basisRow_eq hsp hb hlu h1 h2 h3 h4 h5, combine_drop]
    exact Finset.sum_congr rfl fun i _ => mul_comm _ _
  · have hx : lo ≤ x ∧ x ≤ hi := by
      constructor
      · rw [← K.lower 0 (by omega)]
        exact (K.mono (Nat.zero_le l)).trans h4
      · rw [← K.upper _ le_rfl]
        refine le_trans ?_ (K.mono (show l + 1 ≤ _ from h2))
        rcases h5 with h | h
        · exact h.le
        · exact h.1.le
    have := hf [x] _ ((hrows true [x] _).mpr ⟨by simp, by simpa using hx, rfl⟩)
    simp only [List.map_cons, List.map_nil, List.cons.injEq, and_true] at this
    rw [this, basisRow_eq hsp hb hlu h1 h2 h3 h4 h5, combine_drop]
    exact Finset.sum_congr rfl fun i _ => mul_comm _ _

/-- Without an intercept (the default), the combinations of the columns of `bs` are exactly the splines of the given degree with the
given inner knots that are zero at the lower end of the range. -/
theorem bs_splines_from_zero (hsp : EvaluatesSplines splev) (h : bsFinish args data = .ok s) (hin : bsInner args data = .ok inner)
    (hl : LowerEnd args.lower data lo) (hu : UpperEnd args.upper data hi) (hlt : lo < hi) (hstrict : ∀ a ∈ inner, lo < a ∧ a < hi)
    (f : ℝ → ℝ) : IsSpline args.degree.toNat lo hi inner f ∧ f lo = 0 ↔
      ∃ β, ∀ y rows, bsTransform splev s false y = .ok rows → y.map f = rows.map fun row => combine row β := by
  obtain ⟨hlu, hb, hrows⟩ := bs_rows (splev := splev) h hin hl hu
  have K := bsKnots_knots (k := args.degree.toNat) hlt hstrict
  have hshift : ∀ (c : ℕ → ℝ) (l : ℕ) (x : ℝ), ∑ i ∈ Finset.range (args.degree.toNat + 1 + inner.length),
      c i * deBoor (bsKnot args.degree.toNat lo hi inner) l x args.degree.toNat i =
      c 0 * deBoor (bsKnot args.degree.toNat lo hi inner) l x args.degree.toNat 0 +
        ∑ i ∈ Finset.range (args.degree.toNat + 1 + inner.length - 1),
          deBoor (bsKnot args.degree.toNat lo hi inner) l x args.degree.toNat (i + 1) * c (i + 1) := by
    intro c l x
    rw [show args.degree.toNat + 1 + inner.length = (args.degree.toNat + inner.length) + 1 by omega, Finset.sum_range_succ',
      add_comm]
    congr 1
    exact Finset.sum_congr rfl fun i _ => mul_comm _ _
  obtain ⟨l₀, a1, a2, a3, a4, a5⟩ := K.location le_rfl hlt.le
  rw [K.isSpline_iff]
  constructor
  · rintro ⟨⟨c, hc⟩, hzero⟩
    have hc0 : c 0 = 0 := by
      have := hc lo l₀ a1 a2 a3 a4 a5
      rw [hzero, Finset.sum_congr rfl fun i _ => by rw [K.at_lower a1 a2 a3 a4 i]] at this
      rw [Finset.sum_eq_single 0 (fun i _ hi => by simp [hi])
        (fun hno => absurd (Finset.mem_range.mpr (by omega)) hno)] at this
      simpa using this.symm
    refine ⟨fun j => c (j + 1), fun y rows hy => ?_⟩
    obtain ⟨-, hyx, rfl⟩ := (hrows false y rows).mp hy
    rw [List.map_map]
    refine List.map_congr_left fun x hx => ?_
    obtain ⟨l, h1, h2, h3, h4, h5⟩ := K.location (hyx x hx).1 (hyx x hx).2
    simp only [Function.comp]
    rw [hc x l h1 h2 h3 h4 h5, hshift, hc0, basisRow_eq hsp hb hlu h1 h2 h3 h4 h5, if_neg (by simp), combine_drop]
    rw [zero_mul, zero_add]
  · rintro ⟨β, hβ⟩
    have hval : ∀ x l, args.degree.toNat ≤ l → l < args.degree.toNat + 1 + inner.length →
        bsKnot args.degree.toNat lo hi inner l < bsKnot args.degree.toNat lo hi inner (l + 1) →
        bsKnot args.degree.toNat lo hi inner l ≤ x →
        (x < bsKnot args.degree.toNat lo hi inner (l + 1) ∨
          x = bsKnot args.degree.toNat lo hi inner (l + 1) ∧ l + 1 = args.degree.toNat + 1 + inner.length) →
        f x = ∑ i ∈ Finset.range (args.degree.toNat + 1 + inner.length - 1),
          deBoor (bsKnot args.degree.toNat lo hi inner) l x args.degree.toNat (i + 1) * β i := by
      intro x l h1 h2 h3 h4 h5
      have hx : lo ≤ x ∧ x ≤ hi := by
        constructor
        · rw [← K.lower 0 (by omega)]
          exact (K.mono (Nat.zero_le l)).trans h4
        · rw [← K.upper _ le_rfl]
          refine le_trans ?_ (K.mono (show l + 1 ≤ _ from h2))
          rcases h5 with h | h
          · exact h.le
          · exact h.1.le
      have := hβ [x] _ ((hrows false [x] _).mpr ⟨by simp, by simpa using hx, rfl⟩)
      simp only [List.map_cons, List.map_nil, List.cons.injEq, and_true] at this
      rw [this, basisRow_eq hsp hb hlu h1 h2 h3 h4 h5, if_neg (by simp), combine_drop]
    refine ⟨⟨fun j => if j = 0 then 0 else β (j - 1), fun x l h1 h2 h3 h4 h5 => ?_⟩, ?_⟩
    · rw [hshift, hval x l h1 h2 h3 h4 h5]
      simp
    · rw [hval lo l₀ a1 a2 a3 a4 a5]
      refine Finset.sum_eq_zero fun i _ => ?_
      rw [K.at_lower a1 a2 a3 a4, if_neg (by omega), zero_mul]

/-- If no inner knot is listed more often than the degree plus one, the columns of `bs` are independent: different coefficients give
different splines. -/
theorem bs_independent (hsp : EvaluatesSplines splev) (h : bsFinish args data = .ok s) (hin : bsInner args data = .ok inner)
    (hl : LowerEnd args.lower data lo) (hu : UpperEnd args.upper data hi) (hlt : lo < hi) (hstrict : ∀ a ∈ inner, lo < a ∧ a < hi)
    (hmult : ∀ a ∈ inner, inner.count a ≤ args.degree.toNat + 1) (intercept : Bool) (β : ℕ → ℝ)
    (hβ : ∀ y rows, bsTransform splev s intercept y = .ok rows → ∀ row ∈ rows, combine row β = 0) (j : ℕ)
    (hj : j < args.degree.toNat + inner.length + if intercept then 1 else 0) : β j = 0 := by
  obtain ⟨hlu, hb, hrows⟩ := bs_rows (splev := splev) h hin hl hu
  have K := bsKnots_knots (k := args.degree.toNat) hlt hstrict
  have hd : (if intercept = true then 0 else 1) ≤ args.degree.toNat + 1 + inner.length := by split <;> omega
  set d := if intercept = true then 0 else 1 with hdd
  have := K.coefficients_zero hmult (c := fun i => if i < d then 0 else β (i - d)) (by
    intro x l h1 h2 h3 h4 h5
    have hx : lo ≤ x ∧ x ≤ hi := by
      constructor
      · rw [← K.lower 0 (by omega)]
        exact (K.mono (Nat.zero_le l)).trans h4
      · rw [← K.upper _ le_rfl]
        exact h5.le.trans (K.mono (show l + 1 ≤ _ from h2))
    have := hβ [x] _ ((hrows intercept [x] _).mpr ⟨by simp, by simpa using hx, rfl⟩) _ (List.mem_singleton.mpr rfl)
    beta_reduce at this
    rw [basisRow_eq hsp hb hlu h1 h2 h3 h4 (Or.inl h5), ← hdd, combine_drop] at this
    refine Eq.trans ?_ this
    conv_lhs => rw [← Nat.add_sub_of_le hd, Finset.sum_range_add]
    rw [Finset.sum_eq_zero (s := Finset.range d) (fun i hi => by rw [if_pos (Finset.mem_range.mp hi), zero_mul]), zero_add]
    refine Finset.sum_congr rfl fun i _ => ?_
    rw [if_neg (by omega), Nat.add_sub_cancel_left, mul_comm, add_comm d i]) (i := j + d) (by
      rw [hdd]; split at hj <;> simp_all <;> omega)
  simpa using this

theorem bs_location {k : ℕ} (hlt : lo < hi) (hstrict : ∀ a ∈ inner, a < hi) {x : ℝ} (h1 : lo ≤ x) (h2 : x ≤ hi) :
    ∃ l, k ≤ l ∧ l < k + 1 + inner.length ∧ bsKnot k lo hi inner l < bsKnot k lo hi inner (l + 1) ∧ bsKnot k lo hi inner l ≤ x ∧
      (x < bsKnot k lo hi inner (l + 1) ∨ x = bsKnot k lo hi inner (l + 1) ∧ l + 1 = k + 1 + inner.length) := by
  refine locate (by omega) ?_ (by rw [bsKnot_lower le_rfl]; exact h1) (by rw [bsKnot_upper le_rfl]; exact h2)
  rw [bsKnot_upper le_rfl]
  by_cases hc : k + 1 + inner.length - 1 ≤ k
  · rw [bsKnot_lower hc]; exact hlt
  · exact hstrict _ (bsKnot_inner (by omega) (by omega))

/-- With an intercept, and if no inner knot is the upper end of the range, the columns of `bs` are not negative and add up
to one. -/
theorem bs_partition (hsp : EvaluatesSplines splev) (h : bsFinish args data = .ok s) (hin : bsInner args data = .ok inner)
    (hl : LowerEnd args.lower data lo) (hu : UpperEnd args.upper data hi) (hlt : lo < hi) (hstrict : ∀ a ∈ inner, a < hi)
    {y : List ℝ} {rows : List (List ℝ)} (hy : bsTransform splev s true y = .ok rows) :
    ∀ row ∈ rows, (∀ v ∈ row, 0 ≤ v) ∧ row.sum = 1 := by
  obtain ⟨hlu, hb, hrows⟩ := bs_rows (splev := splev) h hin hl hu
  obtain ⟨-, hyx, rfl⟩ := (hrows true y rows).mp hy
  intro row hrow
  obtain ⟨x, hx, rfl⟩ := List.mem_map.mp hrow
  have hmono := bsKnot_mono (k := args.degree.toNat) hb hlu
  obtain ⟨l, h1, h2, h3, h4, h5⟩ := bs_location (k := args.degree.toNat) hlt hstrict (hyx x hx).1 (hyx x hx).2
  rw [basisRow_eq hsp hb hlu h1 h2 h3 h4 h5]
  obtain ⟨g1, g2⟩ := partition (n := args.degree.toNat + 1 + inner.length) hmono h1 h2 h3 h4
    (h5.elim le_of_lt fun h => h.1.le)
  simp only [if_true, List.drop_zero]
  refine ⟨fun v hv => ?_, ?_⟩
  · obtain ⟨i, -, rfl⟩ := List.mem_map.mp hv
    exact g1 i
  · rw [← g2]
    rfl

/-- If an inner knot is the lower end of the range (but none is the upper end), the first column is zero.  With the default
`include_intercept=False` it is this column that is left out, and the remaining columns add up to one. -/
theorem bs_lower_knot (hsp : EvaluatesSplines splev) (h : bsFinish args data = .ok s) (hin : bsInner args data = .ok inner)
    (hl : LowerEnd args.lower data lo) (hu : UpperEnd args.upper data hi) (hlt : lo < hi) (hstrict : ∀ a ∈ inner, a < hi)
    (hlo : lo ∈ inner) {y : List ℝ} {rows : List (List ℝ)} (hy : bsTransform splev s true y = .ok rows) :
    ∀ row ∈ rows, row.head? = some 0 ∧ (row.drop 1).sum = 1 := by
  have hpart := bs_partition hsp h hin hl hu hlt hstrict hy
  obtain ⟨hlu, hb, hrows⟩ := bs_rows (splev := splev) h hin hl hu
  obtain ⟨-, hyx, rfl⟩ := (hrows true y rows).mp hy
  intro row hrow
  have hsum := (hpart row hrow).2
  have hhead : row.head? = some 0 := by
    obtain ⟨x, hx, rfl⟩ := List.mem_map.mp hrow
    obtain ⟨l, h1, h2, h3, h4, h5⟩ := bs_location (k := args.degree.toNat) hlt hstrict (hyx x hx).1 (hyx x hx).2
    rw [basisRow_eq hsp hb hlu h1 h2 h3 h4 h5]
    have hl' : args.degree.toNat < l := by
      refine lt_of_le_of_ne h1 fun he => ?_
      subst he
      rw [bsKnot_lower le_rfl] at h3
      -- the knot that is the lower end is the first inner knot
      have hmem := (sorted_perm inner).symm.subset hlo
      obtain ⟨j, hj, he⟩ := List.mem_iff_getElem.mp hmem
      have hle := bsKnot_mono (k := args.degree.toNat) hb hlu (show args.degree.toNat + 1 ≤ args.degree.toNat + 1 + j by omega)
      have : bsKnot args.degree.toNat lo hi inner (args.degree.toNat + 1 + j) = lo := by
        rw [bsKnot, if_neg (by omega), List.getD_eq_getElem?_getD, Nat.add_sub_cancel_left, List.getElem?_eq_getElem hj, he]
        rfl
      rw [this] at hle
      exact absurd h3 (not_lt.mpr hle)
    rw [show args.degree.toNat + 1 + inner.length = (args.degree.toNat + inner.length) + 1 by omega, List.range_succ_eq_map]
    simp [Splev.deBoor_zero (t := bsKnot args.degree.toNat lo hi inner) (x := x) (k := args.degree.toNat) (i := 0) (l := l)
      (Or.inr (by omega))]
  refine ⟨hhead, ?_⟩
  cases row with
  | nil => cases hhead
  | cons v row =>
    simp only [List.head?_cons, Option.some.injEq] at hhead
    subst hhead
    simpa using hsum

end

/-! ### FITPACK at an empty last interval -/

/-- Between two equal knots, FITPACK computes zero for all B-splines of positive degree. -/
theorem fpbspl_empty {t : ℕ → ℝ} {l : ℕ} (he : t (l + 1) = t l) (x : ℝ) {k i : ℕ} (hi : i ≤ k + 1) :
    Splev.fpbspl t x l (k + 1) i = 0 := by
  induction k generalizing i with
  | zero =>
    rw [Splev.fpbspl]
    obtain rfl | rfl : i = 0 ∨ i = 1 := by omega
    · simp [he]
    · simp [he]
  | succ k ih =>
    rw [Splev.fpbspl]
    by_cases h0 : i ≤ k + 1
    · simp only [ih h0, zero_div, ite_self, zero_mul, zero_add, ih (show i - 1 ≤ k + 1 by omega)]
    · simp only [if_neg h0, ih (show i - 1 ≤ k + 1 by omega), zero_div, ite_self, zero_mul, zero_add]

section

variable {args : BsArgs} {data : List ℝ} {s : BsState} {inner : List ℝ} {lo hi : ℝ}

/-- If an inner knot is the upper end of the range, or if the range is a single point, and the degree is positive, all
columns of `bs` are zero at the upper end, so that they do not add up to one there.  (This happens, for example, if so many
data are equal to the maximum that the last quantile is the maximum.) -/
theorem bs_upper_knot (h : bsFinish args data = .ok s) (hin : bsInner args data = .ok inner) (hl : LowerEnd args.lower data lo)
    (hu : UpperEnd args.upper data hi) (hdeg : 0 < args.degree) (hhi : hi ∈ inner ∨ lo = hi) (intercept : Bool) :
    ∃ row, bsTransform Splev.splev s intercept [hi] = .ok [row] ∧ ∀ v ∈ row, v = 0 := by
  obtain ⟨hlu, hb, hrows⟩ := bs_rows (splev := Splev.splev) h hin hl hu
  refine ⟨_, (hrows intercept [hi] _).mpr ⟨by simp, by simpa using hlu, rfl⟩, ?_⟩
  intro v hv
  have hv := List.mem_of_mem_drop hv
  obtain ⟨k, hk⟩ : ∃ k, args.degree.toNat = k + 1 := ⟨args.degree.toNat - 1, by omega⟩
  rw [hk] at hv
  simp only [basisRow, List.mem_map] at hv
  obtain ⟨i, -, rfl⟩ := hv
  have hlen := (mem_bsKnots (p := k + 1) hb hlu).1
  set knots := sorted ((List.replicate (k + 1 + 1) [lo, hi]).flatten ++ inner) with hknots
  have ht : ∀ i, i < knots.length → knots.getD i 0 = bsKnot (k + 1) lo hi inner i := by
    intro i hi
    rw [bsKnot_get hb hlu i hi, List.getD_eq_getElem?_getD, List.getElem?_eq_getElem hi]
    rfl
  have hlast : bsKnot (k + 1) lo hi inner (k + 1 + inner.length) = hi := by
    rcases hhi with hmem | rfl
    · have hmem := (sorted_perm inner).symm.subset hmem
      obtain ⟨j, hj, he⟩ := List.mem_iff_getElem.mp hmem
      have hj' := hj
      rw [sorted_length] at hj'
      have hle := bsKnot_mono (k := k + 1) hb hlu (show k + 1 + 1 + j ≤ k + 1 + inner.length by omega)
      have : bsKnot (k + 1) lo hi inner (k + 1 + 1 + j) = hi := by
        rw [bsKnot, if_neg (by omega), List.getD_eq_getElem?_getD, Nat.add_sub_cancel_left, List.getElem?_eq_getElem hj, he]
        rfl
      rw [this] at hle
      refine le_antisymm ?_ hle
      have := bsKnot_mono (k := k + 1) hb hlu (show k + 1 + inner.length ≤ k + 1 + 1 + inner.length by omega)
      rwa [bsKnot_upper (i := k + 1 + 1 + inner.length) le_rfl] at this
    · by_cases h0 : inner.length = 0
      · rw [h0]; exact bsKnot_lower le_rfl
      · have := hb _ (bsKnot_inner (k := k + 1) (lo := lo) (hi := lo) (inner := inner) (i := k + 1 + inner.length) (by omega) (by omega))
        exact le_antisymm this.2 this.1
  have hsearch : Splev.search (fun i => knots.getD i 0) hi (knots.length - 2 * (k + 1 + 1)) (k + 1) = k + 1 + inner.length := by
    refine Splev.search_eq ?_ ?_ (by omega) (by omega) (Or.inr (by omega))
    · intro i hi
      rw [ht _ (by omega), ht _ (by omega)]
      exact bsKnot_mono (k := k + 1) hb hlu (by omega)
    · rw [ht _ (by omega), hlast]
  simp only [Splev.splev]
  rw [hsearch]
  refine Finset.sum_eq_zero fun j hj => ?_
  rw [fpbspl_empty, mul_zero]
  · rw [ht _ (by omega), ht _ (by omega), hlast, bsKnot_upper (by omega)]
  · have := Finset.mem_range.mp hj
    omega

end

/-! ### Examples -/

namespace BSplineSample

theorem adjacent {a b : ℝ} {ks : List ℝ} (hks : ∀ c, c ∈ ks ↔ c = 2) (h : Adjacent 1 3 ks a b) : (a = 1 ∧ b = 2) ∨ (a = 2 ∧ b = 3) := by
  obtain ⟨ha, hb, hab, hno⟩ := h
  simp only [List.mem_cons, hks] at ha hb
  have := hno 2 ((hks 2).mpr rfl)
  rcases ha with rfl | rfl <;> rcases hb with rfl | rfl
  · exact absurd ⟨by norm_num, by norm_num⟩ this
  · exact Or.inl ⟨rfl, rfl⟩
  · exact Or.inr ⟨rfl, rfl⟩
  · exact absurd hab (lt_irrefl _)

/-- A function with a kink at 2. -/
noncomputable def hinge (x : ℝ) : ℝ := max 0 (x - 2)

theorem hinge_spline : IsSpline 1 1 3 [2] hinge := by
  refine ⟨fun a => if a = 2 then Polynomial.X - Polynomial.C 2 else 0, ?_, ?_, ?_⟩
  · intro a
    beta_reduce
    split
    · exact Polynomial.natDegree_X_sub_C_le _
    · simp
  · intro a b hab x hax hxb
    rcases adjacent (by simp) hab with ⟨rfl, rfl⟩ | ⟨rfl, rfl⟩
    · rcases hxb with h | ⟨-, h⟩
      · simp [hinge]
        linarith
      · norm_num at h
    · simp [hinge]
      linarith
  · intro a b c hab hbc r hr
    rcases adjacent (by simp) hab with ⟨rfl, rfl⟩ | ⟨rfl, rfl⟩
    · simp at hr
      subst hr
      simp
    · rcases adjacent (by simp) hbc with ⟨h, -⟩ | ⟨h, -⟩ <;> norm_num at h

/-- A function that jumps at 2. -/
noncomputable def step (x : ℝ) : ℝ := if x < 2 then 0 else 1

theorem step_spline : IsSpline 1 1 3 [2, 2] step := by
  refine ⟨fun a => if a = 2 then 1 else 0, ?_, ?_, ?_⟩
  · intro a
    beta_reduce
    split <;> simp
  · intro a b hab x hax hxb
    rcases adjacent (by simp) hab with ⟨rfl, rfl⟩ | ⟨rfl, rfl⟩
    · rcases hxb with h | ⟨-, h⟩
      · simp [step, h]
      · norm_num at h
    · simp [step, not_lt.mpr hax]
  · intro a b c hab hbc r hr
    rcases adjacent (by simp) hab with ⟨rfl, rfl⟩ | ⟨rfl, rfl⟩
    · simp at hr
    · rcases adjacent (by simp) hbc with ⟨h, -⟩ | ⟨h, -⟩ <;> norm_num at h

theorem step_not_spline : ¬ IsSpline 1 1 3 [2] step := by
  rintro ⟨p, hdeg, hval, hder⟩
  have h12 : Adjacent 1 3 [2] 1 2 := ⟨by simp, by simp, by norm_num, by simp⟩
  have h23 : Adjacent 1 3 [2] 2 3 := ⟨by simp, by simp, by norm_num, by simp⟩
  have h2 : (p 2).eval 2 = 1 := by
    rw [← hval 2 3 h23 2 le_rfl (Or.inl (by norm_num))]
    simp [step]
  have h0 := hder 1 2 3 h12 h23 0 (by simp)
  simp only [Function.iterate_zero, id] at h0
  have hz : p 1 = 0 := by
    refine Polynomial.eq_zero_of_infinite_isRoot _ ((Set.Ico_infinite (show (1 : ℝ) < 2 by norm_num)).mono fun x hx => ?_)
    have := hval 1 2 h12 x hx.1 (Or.inl hx.2)
    simp only [step, if_pos hx.2] at this
    exact this.symm
  rw [hz, h2] at h0
  simp at h0

/-- `bs(x, knots=ks, degree=1, include_intercept=...)` for the data 3, 1, 2, 2. -/
theorem finish {ks : List ℝ} (hks : ∀ c ∈ ks, (1 : ℝ) ≤ c ∧ c ≤ 3) (b : Bool) :
    ∃ s, bsFinish ⟨none, some ks, 1, b, none, none⟩ sampleData = .ok s :=
  ⟨_, bsFinish_of (args := ⟨none, some ks, 1, b, none, none⟩) (by norm_num) rfl sampleData_lower sampleData_upper (by norm_num) hks⟩

/-- A kink is a combination of the columns of `bs(x, knots=[2], degree=1)`, even without an intercept, but a jump is not. -/
example : ∃ s, bsFinish ⟨none, some [2], 1, false, none, none⟩ sampleData = .ok s ∧
    (∃ β, ∀ y rows, bsTransform Splev.splev s false y = .ok rows → y.map hinge = rows.map fun row => combine row β) ∧
    ¬ ∃ β, ∀ y rows, bsTransform Splev.splev s true y = .ok rows → y.map step = rows.map fun row => combine row β := by
  obtain ⟨s, hs⟩ := finish (ks := [2]) (by norm_num) false
  refine ⟨s, hs, ?_, fun h => ?_⟩
  · exact (bs_splines_from_zero Splev.splev_evaluates hs rfl sampleData_lower sampleData_upper (by norm_num) (by norm_num) hinge).mp
      ⟨hinge_spline, by norm_num [hinge]⟩
  · exact step_not_spline ((bs_splines Splev.splev_evaluates hs rfl sampleData_lower sampleData_upper (by norm_num) (by norm_num)
      step).mpr h)

/-- A knot that is listed twice allows for a jump, and the columns are independent and add up to one. -/
example : ∃ s, bsFinish ⟨none, some [2, 2], 1, true, none, none⟩ sampleData = .ok s ∧
    (∃ β, ∀ y rows, bsTransform Splev.splev s true y = .ok rows → y.map step = rows.map fun row => combine row β) ∧
    (∀ β : ℕ → ℝ, (∀ y rows, bsTransform Splev.splev s true y = .ok rows → ∀ row ∈ rows, combine row β = 0) → ∀ j < 4, β j = 0) ∧
    ∃ rows, bsTransform Splev.splev s true sampleData = .ok rows ∧ rows.length = 4 ∧ ∀ row ∈ rows, row.sum = 1 := by
  obtain ⟨s, hs⟩ := finish (ks := [2, 2]) (by norm_num) true
  refine ⟨s, hs, ?_, ?_, ?_⟩
  · exact (bs_splines Splev.splev_evaluates hs rfl sampleData_lower sampleData_upper (by norm_num) (by norm_num) step).mp step_spline
  · intro β hβ j hj
    exact bs_independent Splev.splev_evaluates hs rfl sampleData_lower sampleData_upper (by norm_num) (by norm_num) (by simp) true β hβ j
      (by simpa using hj)
  · obtain ⟨rows, hr⟩ := (bs_range (splev := Splev.splev) hs sampleData_lower sampleData_upper true (y := sampleData)
      (by simp [sampleData])).1 (by norm_num [sampleData])
    refine ⟨rows, hr, (bs_columns_of_knots hs rfl rfl hr).1, fun row hrow => ?_⟩
    exact (bs_partition Splev.splev_evaluates hs rfl sampleData_lower sampleData_upper (by norm_num) (by norm_num) hr row hrow).2

/-- `bs(x, knots=[1])` for data whose minimum is 1: the columns add up to one even without an intercept. -/
example : ∃ s, bsFinish ⟨none, some [1], 1, true, none, none⟩ sampleData = .ok s ∧
    ∃ rows, bsTransform Splev.splev s true sampleData = .ok rows ∧ rows.length = 4 ∧
      ∀ row ∈ rows, row.head? = some 0 ∧ (row.drop 1).sum = 1 := by
  obtain ⟨s, hs⟩ := finish (ks := [1]) (by norm_num) true
  obtain ⟨rows, hr⟩ := (bs_range (splev := Splev.splev) hs sampleData_lower sampleData_upper true (y := sampleData)
    (by simp [sampleData])).1 (by norm_num [sampleData])
  exact ⟨s, hs, rows, hr, (bs_columns_of_knots hs rfl rfl hr).1, bs_lower_knot Splev.splev_evaluates hs rfl sampleData_lower
    sampleData_upper (by norm_num) (by norm_num) (by simp) hr⟩

theorem quantile_ties : quantile [0, 1, 1, 1] (1 / 2) = 1 := by
  have hs : sorted [0, 1, 1, 1] = ([0, 1, 1, 1] : List ℝ) := List.mergeSort_of_pairwise (by simp)
  have hf : ⌊((1 : ℝ) / 2 * (((4 : ℕ) : ℝ) - 1))⌋ = 1 := by
    rw [Int.floor_eq_iff]
    norm_num
  simp only [quantile, hs]
  simp only [List.length_cons, List.length_nil, Nat.zero_add, Nat.reduceAdd] at hf ⊢
  rw [hf]
  norm_num

/-- `bs(x, df=4)` for the data 0, 1, 1, 1: the only inner knot is the median, and all columns are zero in the last three
rows. -/
example : ∃ s, bsFinish ⟨some 4, none, 3, false, none, none⟩ [0, 1, 1, 1] = .ok s ∧
    ∃ row, bsTransform Splev.splev s false [1] = .ok [row] ∧ ∀ v ∈ row, v = 0 := by
  have hl : LowerEnd none [0, 1, 1, 1] 0 := Or.inr ⟨rfl, by simp, by simp⟩
  have hu : UpperEnd none [0, 1, 1, 1] 1 := Or.inr ⟨rfl, by simp, by simp⟩
  have hin : bsInner ⟨some 4, none, 3, false, none, none⟩ [0, 1, 1, 1] = .ok [1] := by
    have : fractions 1 = [1 / 2] := by norm_num [fractions]
    simp only [bsInner]
    norm_num [this]
    rw [if_neg (by simp), quantile_ties]
  have hs := bsFinish_of (args := ⟨some 4, none, 3, false, none, none⟩) (by norm_num) hin hl hu (by norm_num) (by norm_num)
  exact ⟨_, hs, bs_upper_knot hs hin hl hu (by norm_num) (Or.inl (by simp)) false⟩

end BSplineSample

end Patsy.Props
