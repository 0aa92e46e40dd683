import Verif.Lemmas.BSplineSpace
import Verif.Lemmas.SplineTransform

/-! # The knots and the rows of `bs` -/

namespace Patsy.SplineTransform

open Patsy.Spec Patsy.BSpline Patsy.Desc

/-- The knots number `i` of `bs`. -/
noncomputable def bsKnot (k : ℕ) (lo hi : ℝ) (inner : List ℝ) (i : ℕ) : ℝ :=
  if i ≤ k then lo else (sorted inner).getD (i - (k + 1)) hi

variable {k : ℕ} {lo hi : ℝ} {inner : List ℝ}

theorem bsKnots_eq (hb : ∀ a ∈ inner, lo ≤ a ∧ a ≤ hi) (hlu : lo ≤ hi) :
    sorted ((List.replicate (k + 1) [lo, hi]).flatten ++ inner) =
      List.replicate (k + 1) lo ++ (sorted inner ++ List.replicate (k + 1) hi) := by
  refine List.Perm.eq_of_pairwise (le := (· ≤ ·)) (fun a b _ _ h1 h2 => le_antisymm h1 h2) (sorted_le _) ?_ ?_
  · rw [List.pairwise_append]
    refine ⟨List.pairwise_replicate.mpr (Or.inr le_rfl), ?_, ?_⟩
    · rw [List.pairwise_append]
      refine ⟨sorted_le _, List.pairwise_replicate.mpr (Or.inr le_rfl), ?_⟩
      intro a ha b hb'
      rw [List.eq_of_mem_replicate hb']
      exact (hb a ((sorted_perm _).subset ha)).2
    · intro a ha b hb'
      rw [List.eq_of_mem_replicate ha]
      rcases List.mem_append.mp hb' with h | h
      · exact (hb b ((sorted_perm _).subset h)).1
      · rw [List.eq_of_mem_replicate h]; exact hlu
  · refine (sorted_perm _).trans ?_
    have hrep : (List.replicate (k + 1) [lo, hi]).flatten.Perm (List.replicate (k + 1) lo ++ List.replicate (k + 1) hi) := by
      induction k with
      | zero => simp
      | succ k ih =>
        rw [List.replicate_succ, List.flatten_cons, List.replicate_succ, List.replicate_succ (a := hi)]
        refine (List.Perm.append_left [lo, hi] ih).trans ?_
        simp only [List.cons_append, List.nil_append]
        refine List.Perm.cons _ ?_
        exact List.perm_middle.symm
    refine (hrep.append_right inner).trans ?_
    rw [List.append_assoc]
    refine List.Perm.append_left _ ?_
    exact List.perm_append_comm.trans ((sorted_perm inner).symm.append_right _)

theorem bsKnot_get (hb : ∀ a ∈ inner, lo ≤ a ∧ a ≤ hi) (hlu : lo ≤ hi) (i : ℕ)
    (h : i < (sorted ((List.replicate (k + 1) [lo, hi]).flatten ++ inner)).length) :
    bsKnot k lo hi inner i = (sorted ((List.replicate (k + 1) [lo, hi]).flatten ++ inner))[i] := by
  have hlen := (mem_bsKnots (p := k) hb hlu).1
  rw [List.getElem_of_eq (bsKnots_eq hb hlu), bsKnot]
  split
  · rename_i hi'
    rw [List.getElem_append_left (by simp; omega), List.getElem_replicate]
  · rename_i hi'
    rw [List.getElem_append_right (by simp; omega)]
    simp only [List.length_replicate]
    rw [List.getD_eq_getElem?_getD]
    by_cases h2 : i - (k + 1) < (sorted inner).length
    · rw [List.getElem_append_left h2, List.getElem?_eq_getElem h2]
      rfl
    · rw [List.getElem_append_right (by omega), List.getElem_replicate, List.getElem?_eq_none (by omega)]
      rfl

theorem bsKnot_mono (hb : ∀ a ∈ inner, lo ≤ a ∧ a ≤ hi) (hlu : lo ≤ hi) : Monotone (bsKnot k lo hi inner) := by
  have hlen := (mem_bsKnots (p := k) hb hlu).1
  have hbig : ∀ i, k + 1 + inner.length ≤ i → bsKnot k lo hi inner i = hi := by
    intro i hi
    rw [bsKnot, if_neg (by omega), List.getD_eq_getElem?_getD, List.getElem?_eq_none (by rw [sorted_length]; omega)]
    rfl
  refine monotone_nat_of_le_succ fun i => ?_
  by_cases h : i + 1 < (sorted ((List.replicate (k + 1) [lo, hi]).flatten ++ inner)).length
  · rw [bsKnot_get hb hlu i (by omega), bsKnot_get hb hlu (i + 1) h]
    exact List.pairwise_iff_getElem.mp (sorted_le _) _ _ _ _ (by omega)
  · rw [hbig i (by omega), hbig (i + 1) (by omega)]

theorem bsKnot_upper {i : ℕ} (hi' : k + 1 + inner.length ≤ i) : bsKnot k lo hi inner i = hi := by
  rw [bsKnot, if_neg (by omega), List.getD_eq_getElem?_getD, List.getElem?_eq_none (by rw [sorted_length]; omega)]
  rfl

theorem bsKnot_lower {i : ℕ} (h : i ≤ k) : bsKnot k lo hi inner i = lo := if_pos h

theorem bsKnot_inner {i : ℕ} (h1 : k < i) (h2 : i < k + 1 + inner.length) : bsKnot k lo hi inner i ∈ inner := by
  rw [bsKnot, if_neg (by omega), List.getD_eq_getElem?_getD, List.getElem?_eq_getElem (by rw [sorted_length]; omega)]
  exact (sorted_perm inner).subset (List.getElem_mem _)

theorem bsKnots_knots (hlt : lo < hi) (hin : ∀ a ∈ inner, lo < a ∧ a < hi) :
    Knots (bsKnot k lo hi inner) k (k + 1 + inner.length) lo hi inner :=
  Knots.of_list (S := sorted inner) (sorted_le inner) (sorted_perm inner) hlt hin (by rw [sorted_length]) fun _ => rfl

/-- The values of the B-splines at a point. -/
theorem basisRow_eq {splev : Splev} (hsp : EvaluatesSplines splev) (hb : ∀ a ∈ inner, lo ≤ a ∧ a ≤ hi) (hlu : lo ≤ hi) {x : ℝ}
    {l : ℕ} (h1 : k ≤ l) (h2 : l < k + 1 + inner.length) (h3 : bsKnot k lo hi inner l < bsKnot k lo hi inner (l + 1))
    (h4 : bsKnot k lo hi inner l ≤ x)
    (h5 : x < bsKnot k lo hi inner (l + 1) ∨ x = bsKnot k lo hi inner (l + 1) ∧ l + 1 = k + 1 + inner.length) :
    basisRow splev (sorted ((List.replicate (k + 1) [lo, hi]).flatten ++ inner)) k x =
      (List.range (k + 1 + inner.length)).map fun i => deBoor (bsKnot k lo hi inner) l x k i := by
  have hlen := (mem_bsKnots (p := k) hb hlu).1
  unfold basisRow
  rw [hlen, show 2 * (k + 1) + inner.length - (k + 1) = k + 1 + inner.length by omega]
  refine List.map_congr_left fun i hin => ?_
  rw [hsp x _ _ k l (bsKnot k lo hi inner) (sorted_le _) (bsKnot_get hb hlu) h1 (by omega) h3 h4
    (h5.imp id fun h => ⟨h.1, by omega⟩), hlen, show 2 * (k + 1) + inner.length - (k + 1) = k + 1 + inner.length by omega]
  rw [Finset.sum_eq_single i]
  · simp
  · intro j _ hj
    simp [hj]
  · intro h
    exact absurd (Finset.mem_range.mpr (List.mem_range.mp hin)) h

/-- What `bs` computes. -/
theorem bs_rows {splev : Splev} {args : BsArgs} {data : List ℝ} {s : BsState} (h : bsFinish args data = .ok s)
    (hin : bsInner args data = .ok inner) (hl : LowerEnd args.lower data lo) (hu : UpperEnd args.upper data hi) :
    lo ≤ hi ∧ (∀ a ∈ inner, lo ≤ a ∧ a ≤ hi) ∧ ∀ (b : Bool) (y : List ℝ) (rows : List (List ℝ)), bsTransform splev s b y = .ok rows ↔
      y ≠ [] ∧ (∀ v ∈ y, lo ≤ v ∧ v ≤ hi) ∧ rows = y.map fun v => (basisRow splev
        (sorted ((List.replicate (args.degree.toNat + 1) [lo, hi]).flatten ++ inner)) args.degree.toNat v).drop (if b then 0 else 1) := by
  obtain ⟨hdeg, inner', l', u', hi', hl', hu', hlu, hb, rfl⟩ := bsFinish_ok h
  obtain rfl := Except.ok.inj (hin.symm.trans hi')
  obtain rfl := bound_unique (bound_lower.mpr hl) (bound_lower.mpr hl')
  obtain rfl := bound_unique (bound_upper.mpr hu) (bound_upper.mpr hu')
  obtain ⟨m1, m2, m3, m4⟩ := mem_bsKnots (p := args.degree.toNat) hb hlu
  refine ⟨hlu, hb, fun b y rows => ?_⟩
  by_cases hy : y = []
  · subst hy
    simp [bsTransform, evalBasis, bound, bind, Except.bind]
  · rw [bsTransform, evalBasis_eq splev m2 m3 m4 _ hy, sorted_sorted]
    by_cases hall : ∀ v ∈ y, lo ≤ v ∧ v ≤ hi
    · rw [if_pos hall]
      simp only [bind, Except.bind, pure_ok]
      constructor
      · rintro rfl
        refine ⟨hy, hall, ?_⟩
        cases b <;> simp
      · rintro ⟨-, -, rfl⟩
        cases b <;> simp
    · rw [if_neg hall]
      simp [hy, hall, bind, Except.bind]

end Patsy.SplineTransform
