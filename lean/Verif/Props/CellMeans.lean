import Verif.Spec.CellMeans
import Verif.Props.Recode
import Verif.Props.Predict

/-!
# C83: regression on categorical factors

The normal equations in terms of a formula: the residuals are orthogonal to everything that the terms describe.  So the
totals of all the cells of every categorical term are reproduced, and a model with all interactions gives the cell means.
-/

set_option linter.unusedSectionVars false

namespace Patsy.Props

open Patsy.Build Patsy.Desc Patsy.Cat Patsy.Spec Patsy.Contrast Patsy.Redundancy Patsy.Rank

variable {F D K H : Type} [DecidableEq F] [Field K] [LinearOrder K] [IsStrictOrderedRing K] [DecidableEq H]

/-- Least squares: the residuals are orthogonal to the column space. -/
theorem normal_equations {n : Nat} {cols : List (List K)} {y v : Fin n → K} :
    Fitted n cols y v ↔ v ∈ Submodule.span K (Set.range (columnVectors n cols)) ∧
      ∀ w ∈ Submodule.span K (Set.range (columnVectors n cols)), ∑ i, (y i - v i) * w i = 0 := by
  rw [fitted_iff]
  refine and_congr_right fun hv => ⟨?_, ?_⟩
  · intro h w hw
    by_contra hne
    set r := ∑ i, (y i - v i) * w i with hr
    set q := ∑ i, w i ^ 2 with hq
    have expand : ∀ c : K, ∑ i, (y i - (v i + c * w i)) ^ 2 = ∑ i, (y i - v i) ^ 2 - 2 * c * r + c ^ 2 * q := by
      intro c
      rw [hr, hq, Finset.mul_sum, Finset.mul_sum, ← Finset.sum_sub_distrib, ← Finset.sum_add_distrib]
      exact Finset.sum_congr rfl fun i _ => by ring
    have hq0 : 0 ≤ q := Finset.sum_nonneg fun i _ => sq_nonneg _
    have step : ∀ c : K, 2 * c * r ≤ c ^ 2 * q := by
      intro c
      have := h (v + c • w) (Submodule.add_mem _ hv (Submodule.smul_mem _ c hw))
      simp only [Pi.add_apply, Pi.smul_apply, smul_eq_mul] at this
      rw [expand] at this
      linarith
    have h1 := step (r / (q + 1))
    have hpos : 0 < q + 1 := by linarith
    have hr2 : 0 < r ^ 2 := by positivity
    have h2 : 2 * (r / (q + 1)) * r * (q + 1) ^ 2 ≤ (r / (q + 1)) ^ 2 * q * (q + 1) ^ 2 :=
      mul_le_mul_of_nonneg_right h1 (by positivity)
    have h3 : 2 * (r / (q + 1)) * r * (q + 1) ^ 2 = 2 * r ^ 2 * (q + 1) := by field_simp
    have h4 : (r / (q + 1)) ^ 2 * q * (q + 1) ^ 2 = r ^ 2 * q := by field_simp
    rw [h3, h4] at h2
    nlinarith
  · intro h w hw
    have h0 := h (w - v) (Submodule.sub_mem _ hw hv)
    have : ∑ i, (y i - w i) ^ 2 = ∑ i, (y i - v i) ^ 2 - 2 * ∑ i, (y i - v i) * (w - v) i + ∑ i, (w i - v i) ^ 2 := by
      rw [Finset.mul_sum, ← Finset.sum_sub_distrib, ← Finset.sum_add_distrib]
      refine Finset.sum_congr rfl fun i _ => ?_
      simp only [Pi.sub_apply]
      ring
    rw [this, h0]
    have : 0 ≤ ∑ i, (w i - v i) ^ 2 := Finset.sum_nonneg fun i _ => sq_nonneg _
    linarith

/-- `v` is orthogonal to a span if it is orthogonal to the generators. -/
theorem orthogonal_span {n : Nat} {s : Set (Fin n → K)} {r : Fin n → K} (h : ∀ w ∈ s, ∑ i, r i * w i = 0) :
    ∀ w ∈ Submodule.span K s, ∑ i, r i * w i = 0 := by
  intro w hw
  induction hw using Submodule.span_induction with
  | mem w hw => exact h w hw
  | zero => simp
  | add a b _ _ ha hb =>
    simp only [Pi.add_apply, mul_add, Finset.sum_add_distrib, ha, hb, add_zero]
  | smul c a _ ha =>
    have : ∑ i, r i * (c • a) i = c * ∑ i, r i * a i := by
      rw [Finset.mul_sum]
      refine Finset.sum_congr rfl fun i _ => ?_
      simp only [Pi.smul_apply, smul_eq_mul]
      ring
    rw [this, ha, mul_zero]

/-- The indicator of a cell. -/
theorem indicator_dependsOnly {rows : List (F → Option (Cell K))} {fs : List F} (i : Fin rows.length) :
    DependsOnly rows fs (fun i' => if i' ∈ cellRows rows fs i then (1 : K) else 0) := by
  intro j j' hj
  have : (j ∈ cellRows rows fs i) ↔ j' ∈ cellRows rows fs i := by
    simp only [cellRows, Finset.mem_filter, Finset.mem_univ, true_and]
    exact forall₂_congr fun f hf => by rw [hj f hf]
  simp only [this]

/-- The normal equations for a matrix whose columns span the functions of the terms: in each cell of the categorical factors
of a term, the products of its numerical columns do not tell the outcome from the fitted values; and this is characteristic
of the fitted values among all functions of the model. -/
theorem fitted_cells {nums : List (F × Nat)} {rows : List (F → Option (Cell K))} {ts : List (Term F)}
    {cols : List (List K)}
    (hspan : Submodule.span K (Set.range (columnVectors rows.length cols)) =
      Submodule.span K (⋃ u ∈ ts, termFunctions nums rows u)) {y v : Fin rows.length → K} :
    Fitted rows.length cols y v ↔ v ∈ Submodule.span K (⋃ u ∈ ts, termFunctions nums rows u) ∧
      ∀ u ∈ ts, ∀ k, MonomialOf nums u k → ∀ i,
        ∑ i' ∈ cellRows rows (u.factors.filter fun f => (dictGet nums f).isNone) i, monomial rows[i'] k * v i' =
          ∑ i' ∈ cellRows rows (u.factors.filter fun f => (dictGet nums f).isNone) i, monomial rows[i'] k * y i' := by
  rw [normal_equations, hspan]
  refine and_congr_right fun hv => ⟨?_, ?_⟩
  · intro h u hu k hk i
    have := h (fun i' => monomial rows[i'] k *
        if i' ∈ cellRows rows (u.factors.filter fun f => (dictGet nums f).isNone) i then 1 else 0) (Submodule.subset_span
      (Set.mem_iUnion₂.mpr ⟨u, hu, k, _, hk, indicator_dependsOnly i, fun _ => rfl⟩))
    simp only [mul_ite, mul_one, mul_zero, Finset.sum_ite_mem, Finset.univ_inter] at this
    rw [← sub_eq_zero, ← Finset.sum_sub_distrib, ← neg_eq_zero, ← Finset.sum_neg_distrib, ← this]
    exact Finset.sum_congr rfl fun i' _ => by ring
  · intro h
    refine orthogonal_span ?_
    intro w hw
    obtain ⟨u, hu, k, φ, hk, hφ, hw⟩ := Set.mem_iUnion₂.mp hw
    set fs := u.factors.filter fun f => (dictGet nums f).isNone with hfs
    have hc : ∀ i, ∑ i' ∈ cellRows rows fs i, (y i' - v i') * w i' = 0 := by
      intro i
      have h1 := h u hu k hk i
      have : ∑ i' ∈ cellRows rows fs i, (y i' - v i') * w i' =
          φ i * (∑ i' ∈ cellRows rows fs i, monomial rows[i'] k * y i' - ∑ i' ∈ cellRows rows fs i, monomial rows[i'] k * v i') := by
        rw [← Finset.sum_sub_distrib, Finset.mul_sum]
        refine Finset.sum_congr rfl fun i' hi' => ?_
        have he : φ i' = φ i := by
          refine (hφ i i' ?_).symm
          simpa [cellRows] using hi'
        rw [hw i', he]
        ring
      rw [this, h1, sub_self, mul_zero]
    have : ∑ i, (y i - v i) * w i = ∑ S ∈ Finset.univ.image (cellRows rows fs), ∑ i ∈ S, (y i - v i) * w i := by
      rw [← Finset.sum_fiberwise_of_maps_to (g := cellRows rows fs) (t := Finset.univ.image (cellRows rows fs))
        (fun i _ => Finset.mem_image_of_mem _ (Finset.mem_univ i))]
      refine Finset.sum_congr rfl fun S hS => ?_
      obtain ⟨i, -, rfl⟩ := Finset.mem_image.mp hS
      refine Finset.sum_congr ?_ fun _ _ => rfl
      ext j
      simp only [Finset.mem_filter, Finset.mem_univ, true_and]
      constructor
      · intro hj
        rw [← hj]
        simp [cellRows]
      · intro hj
        ext l
        simp only [cellRows, Finset.mem_filter, Finset.mem_univ, true_and] at hj ⊢
        exact forall₂_congr fun f hf => by rw [hj f hf]
    rw [this]
    refine Finset.sum_eq_zero fun S hS => ?_
    obtain ⟨i, -, rfl⟩ := Finset.mem_image.mp hS
    exact hc i

theorem monomialOf_empty {nums : List (F × Nat)} {u : Term F} (h : ∀ f ∈ u.factors, dictGet nums f = none) :
    MonomialOf nums u ∅ := by
  refine ⟨fun _ => 0, fun f hf m hm => by simp [h f hf] at hm, ?_⟩
  symm
  rw [Finset.image_eq_empty, List.toFinset_eq_empty_iff, List.filter_eq_nil_iff]
  intro f hf
  simp [h f hf]

theorem filter_none {nums : List (F × Nat)} {u : Term F} (h : ∀ f ∈ u.factors, dictGet nums f = none) :
    (u.factors.filter fun f => (dictGet nums f).isNone) = u.factors := by
  rw [List.filter_eq_self]
  intro f hf
  simp [h f hf]

/-- If one of the terms contains all factors, and all are categorical, then the fitted values are the cell means. -/
theorem fitted_means {nums : List (F × Nat)} {rows : List (F → Option (Cell K))} {ts : List (Term F)}
    {cols : List (List K)}
    (hspan : Submodule.span K (Set.range (columnVectors rows.length cols)) =
      Submodule.span K (⋃ u ∈ ts, termFunctions nums rows u)) {u : Term F} (hu : u ∈ ts)
    (hall : ∀ s ∈ ts, ∀ f ∈ s.factors, f ∈ u.factors) (hcat : ∀ f ∈ u.factors, dictGet nums f = none)
    {y v : Fin rows.length → K} : Fitted rows.length cols y v ↔ ∀ i, v i = cellMean rows u.factors y i := by
  have hdep : ∀ w ∈ Submodule.span K (⋃ u ∈ ts, termFunctions nums rows u), DependsOnly rows u.factors w := by
    intro w hw
    induction hw using Submodule.span_induction with
    | mem w hw =>
      obtain ⟨s, hs, k, φ, ⟨j, _, rfl⟩, hφ, hw⟩ := Set.mem_iUnion₂.mp hw
      have hnone : ∀ f ∈ s.factors, dictGet nums f = none := fun f hf => hcat f (hall s hs f hf)
      have hempty : (s.factors.filter fun f => (dictGet nums f).isSome) = [] := by
        rw [List.filter_eq_nil_iff]
        intro f hf
        simp [hnone f hf]
      intro i i' hi
      rw [hw i, hw i', hempty]
      simp only [monomial, List.toFinset_nil, Finset.image_empty, Finset.prod_empty, one_mul]
      exact hφ i i' fun f hf => hi f (hall s hs f (List.mem_filter.mp hf).1)
    | zero => intro _ _ _; rfl
    | add a b _ _ ha hb => intro i i' hi; simp only [Pi.add_apply, ha i i' hi, hb i i' hi]
    | smul c a _ ha => intro i i' hi; simp only [Pi.smul_apply, ha i i' hi]
  have hself : ∀ i, i ∈ cellRows rows u.factors i := by intro i; simp [cellRows]
  have hcard : ∀ i, ((cellRows rows u.factors i).card : K) ≠ 0 := by
    intro i
    rw [Nat.cast_ne_zero]
    exact Finset.card_ne_zero_of_mem (hself i)
  have hsame : ∀ {i i' : Fin rows.length}, i' ∈ cellRows rows u.factors i → cellRows rows u.factors i' = cellRows rows u.factors i := by
    intro i i' h
    simp only [cellRows, Finset.mem_filter, Finset.mem_univ, true_and] at h
    ext j
    simp only [cellRows, Finset.mem_filter, Finset.mem_univ, true_and]
    exact forall₂_congr fun f hf => by rw [h f hf]
  have hmean : DependsOnly rows u.factors (cellMean rows u.factors y) := by
    intro i i' hi
    have : cellRows rows u.factors i' = cellRows rows u.factors i := hsame (by simpa [cellRows] using hi)
    simp only [cellMean, this]
  have hin : ∀ w, DependsOnly rows u.factors w → w ∈ Submodule.span K (⋃ u ∈ ts, termFunctions nums rows u) := by
    intro w hw
    refine Submodule.subset_span (Set.mem_iUnion₂.mpr ⟨u, hu, ∅, w, monomialOf_empty hcat, ?_, fun i => by simp [monomial]⟩)
    rwa [filter_none hcat]
  rw [fitted_cells hspan]
  constructor
  · rintro ⟨h1, h2⟩ i
    have h3 := h2 u hu ∅ (monomialOf_empty hcat) i
    rw [filter_none hcat] at h3
    simp only [monomial, Finset.prod_empty, one_mul] at h3
    rw [cellMean, ← h3, eq_div_iff (hcard i)]
    rw [Finset.sum_congr rfl fun i' hi' => (hdep v h1 i i' (by simpa [cellRows] using hi')).symm, Finset.sum_const,
      nsmul_eq_mul, mul_comm]
  · intro h
    obtain rfl : v = cellMean rows u.factors y := funext h
    refine ⟨hin _ hmean, ?_⟩
    have horth : ∀ i, ∑ i' ∈ cellRows rows u.factors i, cellMean rows u.factors y i' = ∑ i' ∈ cellRows rows u.factors i, y i' := by
      intro i
      rw [Finset.sum_congr rfl fun i' hi' => (hmean i i' (by simpa [cellRows] using hi')).symm, Finset.sum_const, nsmul_eq_mul,
        cellMean, mul_div_cancel₀ _ (hcard i)]
    intro s hs k hk i
    have hnone : ∀ f ∈ s.factors, dictGet nums f = none := fun f hf => hcat f (hall s hs f hf)
    obtain ⟨j, _, rfl⟩ := hk
    have hempty : (s.factors.filter fun f => (dictGet nums f).isSome) = [] := by
      rw [List.filter_eq_nil_iff]
      intro f hf
      simp [hnone f hf]
    rw [hempty, filter_none hnone]
    simp only [monomial, List.toFinset_nil, Finset.image_empty, Finset.prod_empty, one_mul]
    have hsub : ∀ i' ∈ cellRows rows s.factors i, cellRows rows u.factors i' ⊆ cellRows rows s.factors i := by
      intro i' hi' j hj
      simp only [cellRows, Finset.mem_filter, Finset.mem_univ, true_and] at hi' hj ⊢
      intro f hf
      rw [hi' f hf, hj f (hall s hs f hf)]
    have split : ∀ w : Fin rows.length → K, ∑ i' ∈ cellRows rows s.factors i, w i' =
        ∑ S ∈ (cellRows rows s.factors i).image (cellRows rows u.factors), ∑ i' ∈ S, w i' := by
      intro w
      rw [← Finset.sum_fiberwise_of_maps_to (g := cellRows rows u.factors) (t := (cellRows rows s.factors i).image (cellRows rows u.factors))
        (fun i _ => Finset.mem_image_of_mem _ ‹_›)]
      refine Finset.sum_congr rfl fun S hS => ?_
      obtain ⟨i', hi', rfl⟩ := Finset.mem_image.mp hS
      refine Finset.sum_congr ?_ fun _ _ => rfl
      ext j
      simp only [Finset.mem_filter]
      constructor
      · rintro ⟨_, hj⟩
        rw [← hj]
        exact hself j
      · intro hj
        exact ⟨hsub i' hi' hj, hsame hj⟩
    rw [split, split]
    refine Finset.sum_congr rfl fun S hS => ?_
    obtain ⟨i', _, rfl⟩ := Finset.mem_image.mp hS
    exact horth i'

/-! ### One factor -/

theorem pick_intercept (hash : Subterm F → H) (isNum : F → Bool) :
    pickContrasts hash isNum [] [] = .ok ([∅], [hash ∅]) := by
  simp [pickContrasts, subsetsSorted, subsetsSortedN, sortStrip, mkSubterm, simplify, simplifyOne, absorbInto]

theorem subsets_one (a : F) : (subsetsSorted [a]).map mkSubterm = [∅, {⟨false, a⟩}] := by
  simp [subsetsSorted, subsetsSortedN, sortStrip, mkSubterm, enumFrom, tupleLe]

theorem simplify_one (s : Subterm F) : simplify [s] = .ok [s] := by
  simp [simplify, simplifyOne, absorbInto]

/-- After the intercept, a categorical factor is coded with one column less than it has levels. -/
theorem pick_reduced {hash : Subterm F → H} {isNum : F → Bool} {a : F} (ha : isNum a = false)
    (hsep : hash {⟨false, a⟩} ≠ hash ∅) :
    pickContrasts hash isNum [a] [hash ∅] = .ok ([{⟨false, a⟩}], [hash ∅, hash {⟨false, a⟩}]) := by
  have h1 : [a].filter (fun f => !isNum f) = [a] := by simp [ha]
  simp only [pickContrasts, h1, subsets_one]
  simp [hsep, simplify_one]

/-- Without intercept, a categorical factor is coded with as many columns as it has levels. -/
theorem pick_full {hash : Subterm F → H} {isNum : F → Bool} {a : F} (ha : isNum a = false) :
    ∃ used, pickContrasts hash isNum [a] [] = .ok ([{⟨true, a⟩}], used) := by
  have h1 : [a].filter (fun f => !isNum f) = [a] := by simp [ha]
  have h2 : simplify [(∅ : Subterm F), {⟨false, a⟩}] = .ok [{⟨true, a⟩}] := by
    rw [simplify]
    simp [simplifyOne, absorbInto, canAbsorb, absorb]
    exact simplify_one _
  simp only [pickContrasts, h1, subsets_one]
  simp [h2]

theorem infos_reduced {hash : Subterm F → H} {nums : List (F × Nat)} {coder : F → Bool → Except Err (ContrastMatrix K)}
    {a : F} (ha : dictGet nums a = none) (hsep : hash {⟨false, a⟩} ≠ hash ∅) {cm : ContrastMatrix K}
    (hcm : coder a false = .ok cm) :
    makeSubtermInfos hash nums coder [⟨[]⟩, ⟨[a]⟩] =
      .ok [(⟨[]⟩, [⟨[], [], 1⟩]), (⟨[a]⟩, [⟨[a], [(a, cm)], cm.ncols⟩])] := by
  have hn : isNumeric nums a = false := by simp [isNumeric, ha]
  have hb : buckets nums [⟨[]⟩, ⟨[a]⟩] = ([∅], [(∅, [⟨[]⟩, ⟨[a]⟩])]) := by
    simp [buckets, bucketStep, bucketOf, hn, dictGet, dictSet]
  have ho : moveEmptyFirst [(∅ : Finset F)] [(∅, [⟨[]⟩, ⟨[a]⟩])] = [∅] := by simp [moveEmptyFirst, dictGet]
  have hg : (dictGet [((∅ : Finset F), [(⟨[]⟩ : Term F), ⟨[a]⟩])] ∅).getD [] = [⟨[]⟩, ⟨[a]⟩] := by simp [dictGet]
  have hs : sortByDegree [(⟨[]⟩ : Term F), ⟨[a]⟩] = [⟨[]⟩, ⟨[a]⟩] := by simp [sortByDegree]
  have h1 : makeSubterm nums coder ⟨[]⟩ ∅ = .ok ⟨[], [], 1⟩ := by
    simp [makeSubterm, subtermLoop, SubtermInfo.make, bind, Except.bind]
  have h2 : makeSubterm nums coder ⟨[a]⟩ {⟨false, a⟩} = .ok ⟨[a], [(a, cm)], cm.ncols⟩ := by
    simp [makeSubterm, subtermLoop, SubtermInfo.make, bind, Except.bind, ha, codingLookup, hcm]
  have hc : codeBucket hash nums coder [⟨[]⟩, ⟨[a]⟩] [] =
      .ok [(⟨[]⟩, [⟨[], [], 1⟩]), (⟨[a]⟩, [⟨[a], [(a, cm)], cm.ncols⟩])] := by
    simp [codeBucket, pick_intercept, pick_reduced hn hsep, h1, h2, bind, Except.bind, pure, Except.pure]
  simp only [makeSubtermInfos, hb, ho, hg, hs, hc, List.mapM_cons, List.mapM_nil, List.flatMap_cons, List.flatMap_nil]
  simp [bind, Except.bind, pure, Except.pure, dictOf, dictSet, sameTerms, Term.eqv]

theorem infos_full {hash : Subterm F → H} {nums : List (F × Nat)} {coder : F → Bool → Except Err (ContrastMatrix K)}
    {a : F} (ha : dictGet nums a = none) {cm : ContrastMatrix K} (hcm : coder a true = .ok cm) :
    makeSubtermInfos hash nums coder [⟨[a]⟩] = .ok [(⟨[a]⟩, [⟨[a], [(a, cm)], cm.ncols⟩])] := by
  have hn : isNumeric nums a = false := by simp [isNumeric, ha]
  have hb : buckets nums [⟨[a]⟩] = ([∅], [(∅, [⟨[a]⟩])]) := by
    simp [buckets, bucketStep, bucketOf, hn, dictGet, dictSet]
  have ho : moveEmptyFirst [(∅ : Finset F)] [(∅, [⟨[a]⟩])] = [∅] := by simp [moveEmptyFirst, dictGet]
  have hg : (dictGet [((∅ : Finset F), [(⟨[a]⟩ : Term F)])] ∅).getD [] = [⟨[a]⟩] := by simp [dictGet]
  have hs : sortByDegree [(⟨[a]⟩ : Term F)] = [⟨[a]⟩] := by simp [sortByDegree]
  have h2 : makeSubterm nums coder ⟨[a]⟩ {⟨true, a⟩} = .ok ⟨[a], [(a, cm)], cm.ncols⟩ := by
    simp [makeSubterm, subtermLoop, SubtermInfo.make, bind, Except.bind, ha, codingLookup, hcm]
  obtain ⟨used, hp⟩ := pick_full (hash := hash) hn
  have hc : codeBucket hash nums coder [⟨[a]⟩] [] = .ok [(⟨[a]⟩, [⟨[a], [(a, cm)], cm.ncols⟩])] := by
    simp [codeBucket, hp, h2, bind, Except.bind, pure, Except.pure]
  simp only [makeSubtermInfos, hb, ho, hg, hs, hc, List.mapM_cons, List.mapM_nil, List.flatMap_cons, List.flatMap_nil]
  simp [bind, Except.bind, pure, Except.pure, dictOf, dictSet, sameTerms, Term.eqv]

/-- A column for one factor. -/
theorem factor_column {fis : List (F × FactorInfo F D K)} {ts : List (Term F × List (SubtermInfo F K))} {a : F}
    {cm : ContrastMatrix K} (hc : checkSubterm fis ⟨[a], [(a, cm)], cm.ncols⟩ = .ok ()) {cells : F → Option (Cell K)}
    {j : Nat} {y : K} (h : columnEntry ⟨fis, ts⟩ cells (⟨[a], [(a, cm)], cm.ncols⟩, [j]) = some y) :
    y = entry cm.matrix (levelAt cells a) j := by
  have hg := (checkSubterm_good hc).1
  have := prodFrom_value (fs := [a]) (J := fun _ => j) hg (by simp) h
  simpa [valueAt, dictGet] using this

/-- The matrix for an intercept and one categorical factor: the constant and the columns of the contrast matrix. -/
theorem matrix_reduced {hash : Subterm F → H} {nums : List (F × Nat)} {n : F → Nat}
    {coder : F → Bool → Except Err (ContrastMatrix K)} {fis : List (F × FactorInfo F D K)} {a : F} {d : DesignInfo F D K}
    {rows : List (F → Option (Cell K))} {cols : List (List K)}
    (h : MadeMatrix hash nums n coder fis [⟨[]⟩, ⟨[a]⟩] d rows cols) (ha : dictGet nums a = none) {cm : ContrastMatrix K}
    (hcm : coder a false = .ok cm) :
    cols.length = cm.ncols + 1 ∧ ∀ (b : Nat → K) i, weighted rows.length cols b i =
      b 0 + ∑ j ∈ Finset.range cm.ncols, entry cm.matrix (levelAt rows[i] a) j * b (j + 1) := by
  obtain ⟨name, h1⟩ := h.made
  obtain ⟨c, h2, h3⟩ := h.matrix
  have hm := madeCoding h1 h2
  have hsep : hash {⟨false, a⟩} ≠ hash ∅ := by
    intro he
    have := h.separates {a} ∅ ⟨[a], by simp, ?_⟩ ⟨[a], by simp, ?_⟩ (by simpa using he)
    · simp at this
    all_goals simp [Contains, catPart, ha]
  have hi := hm.infos
  rw [infos_reduced ha hsep hcm] at hi
  obtain ⟨fis', infos⟩ := c
  cases hi
  have hcheck := hm.checked (⟨[a]⟩, [⟨[a], [(a, cm)], cm.ncols⟩]) (by simp) ⟨[a], [(a, cm)], cm.ncols⟩ (by simp)
  have hcols : columnsOf (⟨fis', [(⟨[]⟩, [⟨[], [], 1⟩]), (⟨[a]⟩, [⟨[a], [(a, cm)], cm.ncols⟩])]⟩ : Coding F D K) =
      (⟨[], [], 1⟩, []) :: (List.range cm.ncols).map fun j => (⟨[a], [(a, cm)], cm.ncols⟩, [j]) := by
    simp only [columnsOf, List.flatMap_cons, List.flatMap_nil, List.append_nil, widths, List.map_nil, List.map_cons, digits,
      List.range_one, List.cons_append, List.nil_append, widthOf, dictGet]
    congr 1
    refine List.map_congr_left fun j hj => ?_
    simp [Nat.mod_eq_of_lt (List.mem_range.mp hj)]
  have hlen : cols.length = cm.ncols + 1 := by
    have := h3.length_eq
    rw [hcols] at this
    simpa using this.symm
  refine ⟨hlen, fun b i => ?_⟩
  have hval : ∀ (j : Nat) (hj : j < cols.length), (cols[j][i.1]?.getD 0) =
      if j = 0 then 1 else entry cm.matrix (levelAt rows[i] a) (j - 1) := by
    intro j hj
    cases j with
    | zero =>
      have := isMatrix_entry h3 (j := 0) hj (by rw [hcols]; rfl) i.2
      simpa [columnEntry, prodFrom] using this.symm
    | succ j =>
      have hj' : j < cm.ncols := by omega
      have := isMatrix_entry h3 (j := j + 1) hj (by
        rw [hcols, List.getElem?_cons_succ, List.getElem?_map, List.getElem?_range hj']; rfl) i.2
      simpa using factor_column hcheck this
  have : weighted rows.length cols b i = ∑ j : Fin cols.length,
      (fun j => b j * if j = 0 then 1 else entry cm.matrix (levelAt rows[i] a) (j - 1)) j.1 := by
    unfold weighted columnVectors
    refine Finset.sum_congr rfl fun j _ => ?_
    have := hval j.1 j.2
    simp only [Fin.getElem_fin, Fin.getElem?_fin] at this ⊢
    rw [this]
  refine this.trans ((Fin.sum_univ_eq_sum_range
    (fun j => b j * if j = 0 then 1 else entry cm.matrix (levelAt rows[i] a) (j - 1)) _).trans ?_)
  rw [hlen, Finset.sum_range_succ']
  simp only [Nat.add_sub_cancel, if_true, mul_one, Nat.add_eq_zero_iff, one_ne_zero, and_false, if_false]
  rw [add_comm]
  congr 1
  exact Finset.sum_congr rfl fun j _ => mul_comm _ _

/-- The matrix for one categorical factor without intercept: the columns of the contrast matrix. -/
theorem matrix_full {hash : Subterm F → H} {nums : List (F × Nat)} {n : F → Nat}
    {coder : F → Bool → Except Err (ContrastMatrix K)} {fis : List (F × FactorInfo F D K)} {a : F} {d : DesignInfo F D K}
    {rows : List (F → Option (Cell K))} {cols : List (List K)}
    (h : MadeMatrix hash nums n coder fis [⟨[a]⟩] d rows cols) (ha : dictGet nums a = none) {cm : ContrastMatrix K}
    (hcm : coder a true = .ok cm) :
    cols.length = cm.ncols ∧ ∀ (b : Nat → K) i, weighted rows.length cols b i =
      ∑ j ∈ Finset.range cm.ncols, entry cm.matrix (levelAt rows[i] a) j * b j := by
  obtain ⟨name, h1⟩ := h.made
  obtain ⟨c, h2, h3⟩ := h.matrix
  have hm := madeCoding h1 h2
  have hi := hm.infos
  rw [infos_full ha hcm] at hi
  obtain ⟨fis', infos⟩ := c
  cases hi
  have hcheck := hm.checked (⟨[a]⟩, [⟨[a], [(a, cm)], cm.ncols⟩]) (by simp) ⟨[a], [(a, cm)], cm.ncols⟩ (by simp)
  have hcols : columnsOf (⟨fis', [(⟨[a]⟩, [⟨[a], [(a, cm)], cm.ncols⟩])]⟩ : Coding F D K) =
      (List.range cm.ncols).map fun j => (⟨[a], [(a, cm)], cm.ncols⟩, [j]) := by
    simp only [columnsOf, List.flatMap_cons, List.flatMap_nil, List.append_nil, widths, List.map_nil, List.map_cons, digits,
      widthOf, dictGet]
    refine List.map_congr_left fun j hj => ?_
    simp [Nat.mod_eq_of_lt (List.mem_range.mp hj)]
  have hlen : cols.length = cm.ncols := by
    have := h3.length_eq
    rw [hcols] at this
    simpa using this.symm
  refine ⟨hlen, fun b i => ?_⟩
  have : weighted rows.length cols b i = ∑ j : Fin cols.length,
      (fun j => entry cm.matrix (levelAt rows[i] a) j * b j) j.1 := by
    unfold weighted columnVectors
    refine Finset.sum_congr rfl fun j _ => ?_
    have := isMatrix_entry h3 (j := j.1) j.2 (by
        rw [hcols, List.getElem?_map, List.getElem?_range (by omega)]; rfl) i.2
    have := factor_column hcheck this
    simp only [Fin.getElem_fin, Fin.getElem?_fin] at this ⊢
    rw [this, mul_comm]
  rw [← hlen]
  exact this.trans (Fin.sum_univ_eq_sum_range (fun j => entry cm.matrix (levelAt rows[i] a) j * b j) _)

theorem cellMean_group {rows : List (F → Option (Cell K))} {a : F} {y : Fin rows.length → K} (i : Fin rows.length) :
    cellMean rows [a] y i = groupMean rows a y (levelAt rows[i] a) := by
  have : cellRows rows [a] i = group rows a (levelAt rows[i] a) := by
    ext j
    simp [cellRows, group, eq_comm]
  rw [cellMean, groupMean, this]

/-- Least squares with an intercept and one categorical factor. -/
theorem solves_reduced {hash : Subterm F → H} {nums : List (F × Nat)} {n : F → Nat}
    {coder : F → Bool → Except Err (ContrastMatrix K)} {fis : List (F × FactorInfo F D K)} {a : F} {d : DesignInfo F D K}
    {rows : List (F → Option (Cell K))} {cols : List (List K)}
    (h : MadeMatrix hash nums n coder fis [⟨[]⟩, ⟨[a]⟩] d rows cols) (ha : dictGet nums a = none) {cm : ContrastMatrix K}
    (hcm : coder a false = .ok cm) {A : (Nat → K) → K} {B : (Nat → K) → Nat → K} (hred : IsReduced cm (n a) A B)
    (hocc : ∀ l < n a, (group rows a l).Nonempty) {y : Fin rows.length → K} {b : Nat → K} :
    Solves rows.length cols y b ↔
      b 0 = A (groupMean rows a y) ∧ ∀ j < n a - 1, b (j + 1) = B (groupMean rows a y) j := by
  rw [Solves, fitted_means h.span (u := ⟨[a]⟩) (by simp) (by simp) (by simpa using ha),
    ← hred.meaning (groupMean rows a y) (b 0) fun j => b (j + 1)]
  have hw := (matrix_reduced h ha hcm).2 b
  rw [hred.ncols] at hw
  constructor
  · intro hv l hl
    obtain ⟨i, hi⟩ := hocc l hl
    have hi : levelAt rows[i] a = l := by simpa [group] using hi
    rw [← hi, ← cellMean_group, ← hv i, hw i]
  · intro hv i
    have := h.levels rows[i] (List.getElem_mem _) ⟨[a]⟩ (by simp) a (by simp) ha
    rw [hw i, cellMean_group, hv _ this]

/-- Least squares with one categorical factor and no intercept. -/
theorem solves_full {hash : Subterm F → H} {nums : List (F × Nat)} {n : F → Nat}
    {coder : F → Bool → Except Err (ContrastMatrix K)} {fis : List (F × FactorInfo F D K)} {a : F} {d : DesignInfo F D K}
    {rows : List (F → Option (Cell K))} {cols : List (List K)}
    (h : MadeMatrix hash nums n coder fis [⟨[a]⟩] d rows cols) (ha : dictGet nums a = none) {cm : ContrastMatrix K}
    (hcm : coder a true = .ok cm) {B : (Nat → K) → Nat → K} (hfull : IsFull cm (n a) B)
    (hocc : ∀ l < n a, (group rows a l).Nonempty) {y : Fin rows.length → K} {b : Nat → K} :
    Solves rows.length cols y b ↔ ∀ j < n a, b j = B (groupMean rows a y) j := by
  rw [Solves, fitted_means h.span (u := ⟨[a]⟩) (by simp) (by simp) (by simpa using ha),
    ← hfull.meaning (groupMean rows a y) b]
  have hw := (matrix_full h ha hcm).2 b
  rw [hfull.ncols] at hw
  constructor
  · intro hv l hl
    obtain ⟨i, hi⟩ := hocc l hl
    have hi : levelAt rows[i] a = l := by simpa [group] using hi
    rw [← hi, ← cellMean_group, ← hv i, hw i]
  · intro hv i
    have := h.levels rows[i] (List.getElem_mem _) ⟨[a]⟩ (by simp) a (by simp) ha
    rw [hw i, cellMean_group, hv _ this]

/-! ### From the formula -/

section

variable {P : Setting F D K H} (hw : World P) (hcodes : CodesFit P) {isnan : K → Bool} {dataIndex : Option (List Label)}
  {data : D} {rt : ReturnType} {f : FormulaLike F D K} (hf : Sound data f) {m : ModelDesc F} (hm : modelOf f = some m)
  {t : Table F D K × Table F D K} (h : highLevelDesign P isnan dataIndex data rt f = .ok t)

include hw hcodes hf hm h

/-- **C83**, the normal equations of a formula.  The fitted values of least squares on the right-hand matrix are those
functions of the model that agree with the outcome in the following sums: over every cell of the categorical factors of a
term, with every product of columns of its numerical factors as weights. -/
theorem fit_of_formula : ∃ eval types n, Learned P data m eval types ∧
    RowCount P.na types (fun f => eval f data) (allFactors [m.lhs, m.rhs]) dataIndex n ∧
    t.2.mat.nrows = (modelRows P isnan data m eval types n).length ∧ (WellCoded P types m.rhs →
      ∀ y v, Fitted (modelRows P isnan data m eval types n).length t.2.mat.cols y v ↔
        ModelFunction types m.rhs (modelRows P isnan data m eval types n) v ∧
        ∀ u ∈ m.rhs, ∀ k, MonomialOf types.1 u k → ∀ i,
          ∑ i' ∈ cellRows (modelRows P isnan data m eval types n) (u.factors.filter fun f => (dictGet types.1 f).isNone) i,
              monomial (modelRows P isnan data m eval types n)[i'] k * v i' =
            ∑ i' ∈ cellRows (modelRows P isnan data m eval types n) (u.factors.filter fun f => (dictGet types.1 f).isNone) i,
              monomial (modelRows P isnan data m eval types n)[i'] k * y i') := by
  obtain ⟨eval, types, n, hl, hn, hall⟩ := model_on_data hw hcodes hf hm h
  obtain ⟨h1, h2⟩ := hall m.rhs t.2.mat (.inr rfl)
  exact ⟨eval, types, n, hl, hn, h1, fun hwell y v => fitted_cells (h2 hwell).1⟩

/-- **C83**.  In every cell of a term without numerical factors, the fitted values have the same total as the outcome.  (If
the model has an intercept: the residuals sum up to zero.) -/
theorem cell_totals : ∃ eval types n, Learned P data m eval types ∧
    RowCount P.na types (fun f => eval f data) (allFactors [m.lhs, m.rhs]) dataIndex n ∧
    t.2.mat.nrows = (modelRows P isnan data m eval types n).length ∧ (WellCoded P types m.rhs →
      ∀ y v, Fitted (modelRows P isnan data m eval types n).length t.2.mat.cols y v →
        ∀ u ∈ m.rhs, (∀ f ∈ u.factors, dictGet types.1 f = none) → ∀ i,
          ∑ i' ∈ cellRows (modelRows P isnan data m eval types n) u.factors i, v i' =
            ∑ i' ∈ cellRows (modelRows P isnan data m eval types n) u.factors i, y i') := by
  obtain ⟨eval, types, n, hl, hn, h1, h2⟩ := fit_of_formula hw hcodes hf hm h
  refine ⟨eval, types, n, hl, hn, h1, fun hwell y v hv u hu hcat i => ?_⟩
  have := ((h2 hwell y v).mp hv).2 u hu ∅ (monomialOf_empty hcat) i
  rw [filter_none hcat] at this
  simpa [monomial] using this

/-- **C83**.  If all factors are categorical and one term contains them all, as in `a*b` or `0 + a:b`, then the fitted values
are the means of the outcome in the cells. -/
theorem cell_means : ∃ eval types n, Learned P data m eval types ∧
    RowCount P.na types (fun f => eval f data) (allFactors [m.lhs, m.rhs]) dataIndex n ∧
    t.2.mat.nrows = (modelRows P isnan data m eval types n).length ∧ (WellCoded P types m.rhs →
      ∀ u ∈ m.rhs, (∀ s ∈ m.rhs, ∀ f ∈ s.factors, f ∈ u.factors) → (∀ f ∈ u.factors, dictGet types.1 f = none) →
        ∀ y v, Fitted (modelRows P isnan data m eval types n).length t.2.mat.cols y v ↔
          ∀ i, v i = cellMean (modelRows P isnan data m eval types n) u.factors y i) := by
  obtain ⟨eval, types, n, hl, hn, hall⟩ := model_on_data hw hcodes hf hm h
  obtain ⟨h1, h2⟩ := hall m.rhs t.2.mat (.inr rfl)
  exact ⟨eval, types, n, hl, hn, h1, fun hwell u hu hin hcat y v => fitted_means (h2 hwell).1 hu hin hcat⟩

omit [LinearOrder K] [IsStrictOrderedRing K] [DecidableEq H] hw hcodes hf hm h in
theorem coderOf_type {default : Contrast.Spec K} {types : Types F K} {a : F} {levels : List PyVal}
    {contrast : Option (Contrast.Spec K)} (ht : typeOf types a = some (.categorical levels contrast)) :
    dictGet types.1 a = none ∧ levelCount types a = levels.length ∧
      ∀ full, coderOf default types.2 a full = codeContrastMatrix full levels (contrast.getD .none) default := by
  have hl : levelCount types a = levels.length := by simp [levelCount, levelsOf, ht]
  simp only [typeOf] at ht
  split at ht
  · simp at ht
  · rename_i hd
    rw [Option.map_eq_some_iff] at ht
    obtain ⟨lc, h1, h2⟩ := ht
    cases h2
    exact ⟨hd, hl, fun full => by simp [coderOf, h1]⟩

/-- **C83**, `1 + a`.  If every level of the categorical factor `a` occurs, then the coefficients of least squares are
what the contrast says (C26, C27) about the group means. -/
theorem one_factor_coefficients {a : F} (hrhs : m.rhs = [⟨[]⟩, ⟨[a]⟩]) : ∃ eval types n, Learned P data m eval types ∧
    RowCount P.na types (fun f => eval f data) (allFactors [m.lhs, m.rhs]) dataIndex n ∧
    t.2.mat.nrows = (modelRows P isnan data m eval types n).length ∧ (WellCoded P types m.rhs →
      ∀ levels contrast, typeOf types a = some (.categorical levels contrast) →
      (∀ l < levels.length, (group (modelRows P isnan data m eval types n) a l).Nonempty) →
      ∀ cm A B, codeContrastMatrix false levels (contrast.getD .none) P.default = .ok cm → IsReduced cm levels.length A B →
        t.2.mat.cols.length = levels.length - 1 + 1 ∧
        (∀ i : Fin (modelRows P isnan data m eval types n).length,
          levelAt (modelRows P isnan data m eval types n)[i] a < levels.length) ∧
        ∀ y b, Solves (modelRows P isnan data m eval types n).length t.2.mat.cols y b ↔
          b 0 = A (groupMean (modelRows P isnan data m eval types n) a y) ∧
          ∀ j < levels.length - 1, b (j + 1) = B (groupMean (modelRows P isnan data m eval types n) a y) j) := by
  obtain ⟨eval, types, infos, n, he, ht, hn, _, h2, hmade⟩ := formula_made hw hcodes hf hm (sound_nodup hf hm) h
  refine ⟨eval, types, n, ⟨he, ht⟩, hn, h2, ?_⟩
  intro hwell levels contrast hty hocc cm A B hcm hred
  have hmm := hmade m.rhs t.2.info t.2.mat (by simp) hwell.1 hwell.2
  have key : ∀ ts, m.rhs = ts → MadeMatrix P.hash types.1 (levelCount types) (coderOf P.default types.2) infos ts t.2.info
      (modelRows P isnan data m eval types n) t.2.mat.cols := by
    rintro _ rfl
    exact hmm
  replace hmm := key _ hrhs
  obtain ⟨hd, hl, hco⟩ := coderOf_type (default := P.default) hty
  rw [← hl] at hocc hred
  rw [← hco] at hcm
  rw [← hl]
  refine ⟨(matrix_reduced hmm hd hcm).1.trans (by rw [hred.ncols]), fun i => ?_,
    fun y b => solves_reduced hmm hd hcm hred hocc⟩
  exact hmm.levels _ (List.getElem_mem _) ⟨[a]⟩ (by simp) a (by simp) hd

/-- **C83**, `0 + a`. -/
theorem no_intercept_coefficients {a : F} (hrhs : m.rhs = [⟨[a]⟩]) : ∃ eval types n, Learned P data m eval types ∧
    RowCount P.na types (fun f => eval f data) (allFactors [m.lhs, m.rhs]) dataIndex n ∧
    t.2.mat.nrows = (modelRows P isnan data m eval types n).length ∧ (WellCoded P types m.rhs →
      ∀ levels contrast, typeOf types a = some (.categorical levels contrast) →
      (∀ l < levels.length, (group (modelRows P isnan data m eval types n) a l).Nonempty) →
      ∀ cm B, codeContrastMatrix true levels (contrast.getD .none) P.default = .ok cm → IsFull cm levels.length B →
        t.2.mat.cols.length = levels.length ∧
        ∀ y b, Solves (modelRows P isnan data m eval types n).length t.2.mat.cols y b ↔
          ∀ j < levels.length, b j = B (groupMean (modelRows P isnan data m eval types n) a y) j) := by
  obtain ⟨eval, types, infos, n, he, ht, hn, _, h2, hmade⟩ := formula_made hw hcodes hf hm (sound_nodup hf hm) h
  refine ⟨eval, types, n, ⟨he, ht⟩, hn, h2, ?_⟩
  intro hwell levels contrast hty hocc cm B hcm hfull
  have hmm := hmade m.rhs t.2.info t.2.mat (by simp) hwell.1 hwell.2
  have key : ∀ ts, m.rhs = ts → MadeMatrix P.hash types.1 (levelCount types) (coderOf P.default types.2) infos ts t.2.info
      (modelRows P isnan data m eval types n) t.2.mat.cols := by
    rintro _ rfl
    exact hmm
  replace hmm := key _ hrhs
  obtain ⟨hd, hl, hco⟩ := coderOf_type (default := P.default) hty
  rw [← hl] at hocc hfull
  rw [← hco] at hcm
  rw [← hl]
  refine ⟨(matrix_full hmm hd hcm).1.trans (by rw [hfull.ncols]), fun y b => solves_full hmm hd hcm hfull hocc⟩

/-- **C83**, `1 + a` with the default contrast: the intercept is the mean of the first group, the other coefficients are the
differences of the other groups from it. -/
theorem treatment_coefficients {readable : PyVal → String}
    (hdef : P.default = .coding (dummyCode readable) (treatment readable none)) {a : F}
    (hrhs : m.rhs = [⟨[]⟩, ⟨[a]⟩]) : ∃ eval types n, Learned P data m eval types ∧
    RowCount P.na types (fun f => eval f data) (allFactors [m.lhs, m.rhs]) dataIndex n ∧
    t.2.mat.nrows = (modelRows P isnan data m eval types n).length ∧ (WellCoded P types m.rhs →
      ∀ levels, typeOf types a = some (.categorical levels none) → levels ≠ [] →
      (∀ l < levels.length, (group (modelRows P isnan data m eval types n) a l).Nonempty) →
        t.2.mat.cols.length = levels.length ∧
        ∀ y b, Solves (modelRows P isnan data m eval types n).length t.2.mat.cols y b ↔
          b 0 = groupMean (modelRows P isnan data m eval types n) a y 0 ∧
          ∀ j, 0 < j → j < levels.length → b j = groupMean (modelRows P isnan data m eval types n) a y j -
            groupMean (modelRows P isnan data m eval types n) a y 0) := by
  obtain ⟨eval, types, n, hl, hn, h1, h2⟩ := one_factor_coefficients hw hcodes hf hm h hrhs
  refine ⟨eval, types, n, hl, hn, h1, fun hwell levels hty hne hocc => ?_⟩
  have hpos : 0 < levels.length := List.length_pos_iff.mpr hne
  obtain ⟨cm, hcm, _, hred⟩ := treatment_meaning (K := K) readable (reference := none) (levels := levels) (r := 0) rfl hpos
  have hcm' : codeContrastMatrix false levels ((none : Option (Contrast.Spec K)).getD .none) P.default = .ok cm := by
    rw [hdef]; exact hcm
  obtain ⟨h3, _, h4⟩ := h2 hwell levels none hty hocc cm _ _ hcm' hred
  refine ⟨by omega, fun y b => (h4 y b).trans (and_congr_right fun _ => ⟨?_, ?_⟩)⟩
  · intro hb j hj hj'
    obtain ⟨j, rfl⟩ : ∃ i, j = i + 1 := ⟨j - 1, by omega⟩
    simpa [skip] using hb j (by omega)
  · intro hb j hj
    simpa [skip] using hb (j + 1) (by omega) (by omega)

/-- **C83**, `0 + a` with the default contrast: the coefficients are the group means. -/
theorem dummy_coefficients {readable : PyVal → String}
    (hdef : P.default = .coding (dummyCode readable) (treatment readable none)) {a : F}
    (hrhs : m.rhs = [⟨[a]⟩]) : ∃ eval types n, Learned P data m eval types ∧
    RowCount P.na types (fun f => eval f data) (allFactors [m.lhs, m.rhs]) dataIndex n ∧
    t.2.mat.nrows = (modelRows P isnan data m eval types n).length ∧ (WellCoded P types m.rhs →
      ∀ levels, typeOf types a = some (.categorical levels none) →
      (∀ l < levels.length, (group (modelRows P isnan data m eval types n) a l).Nonempty) →
        t.2.mat.cols.length = levels.length ∧
        ∀ y b, Solves (modelRows P isnan data m eval types n).length t.2.mat.cols y b ↔
          ∀ j < levels.length, b j = groupMean (modelRows P isnan data m eval types n) a y j) := by
  obtain ⟨eval, types, n, hl, hn, h1, h2⟩ := no_intercept_coefficients hw hcodes hf hm h hrhs
  refine ⟨eval, types, n, hl, hn, h1, fun hwell levels hty hocc => ?_⟩
  obtain ⟨cm, hcm, _, hfull⟩ := dummy_meaning (K := K) readable levels
  have hcm' : codeContrastMatrix true levels ((none : Option (Contrast.Spec K)).getD .none) P.default = .ok cm := by
    rw [hdef]; exact hcm
  exact h2 hwell levels none hty hocc cm _ hcm' hfull

omit hw hcodes hf hm h in
/-- In a balanced design, the mean of the group means is the overall mean. -/
theorem balanced_mean {rows : List (F → Option (Cell K))} {a : F} {L r : Nat}
    (hlev : ∀ i : Fin rows.length, levelAt rows[i] a < L) (hr : r ≠ 0) (hb : ∀ l < L, (group rows a l).card = r)
    (y : Fin rows.length → K) : meanOf L (groupMean rows a y) = (∑ i, y i) / rows.length := by
  have hmaps : ∀ i ∈ (Finset.univ : Finset (Fin rows.length)), levelAt rows[i] a ∈ Finset.range L :=
    fun i _ => Finset.mem_range.mpr (hlev i)
  have hN : rows.length = L * r := by
    have := Finset.card_eq_sum_card_fiberwise hmaps
    have h2 : ∑ l ∈ Finset.range L, (group rows a l).card = L * r := by
      rw [Finset.sum_congr rfl fun l hl => hb l (Finset.mem_range.mp hl)]
      simp
    rw [← h2]
    rw [Finset.card_univ, Fintype.card_fin] at this
    exact this
  have hy : ∑ i, y i = ∑ l ∈ Finset.range L, ∑ i ∈ group rows a l, y i :=
    (Finset.sum_fiberwise_of_maps_to hmaps y).symm
  have hN' : (rows.length : K) = r * L := by rw [hN, Nat.cast_mul, mul_comm]
  rw [meanOf, hy, hN', Finset.sum_congr rfl fun l hl => by rw [groupMean, hb l (Finset.mem_range.mp hl)], ← Finset.sum_div,
    div_div]

/-- **C83**, `1 + C(a, Sum)`: the intercept is the mean of the group means, and in a balanced design the overall mean; the
other coefficients are the deviations of the groups from it, apart from the group that is left out. -/
theorem sum_coefficients {readable : PyVal → String} {a : F} (hrhs : m.rhs = [⟨[]⟩, ⟨[a]⟩]) :
    ∃ eval types n, Learned P data m eval types ∧
    RowCount P.na types (fun f => eval f data) (allFactors [m.lhs, m.rhs]) dataIndex n ∧
    t.2.mat.nrows = (modelRows P isnan data m eval types n).length ∧ (WellCoded P types m.rhs →
      ∀ levels omitted o c, c = .coding (sumWith readable omitted) (sumWithout readable omitted) →
      typeOf types a = some (.categorical levels (some c)) ∨ typeOf types a = some (.categorical levels (some (.callable c))) →
      chosenLevel levels omitted (levels.length - 1) = .ok o → o < levels.length →
      (∀ l < levels.length, (group (modelRows P isnan data m eval types n) a l).Nonempty) →
        t.2.mat.cols.length = levels.length ∧
        ∀ y b, (Solves (modelRows P isnan data m eval types n).length t.2.mat.cols y b ↔
          b 0 = meanOf levels.length (groupMean (modelRows P isnan data m eval types n) a y) ∧
          ∀ j < levels.length - 1, b (j + 1) = groupMean (modelRows P isnan data m eval types n) a y (skip o j) - b 0) ∧
        (Solves (modelRows P isnan data m eval types n).length t.2.mat.cols y b → ∀ r,
          (∀ l < levels.length, (group (modelRows P isnan data m eval types n) a l).card = r) →
          b 0 = (∑ i, y i) / (modelRows P isnan data m eval types n).length)) := by
  obtain ⟨eval, types, n, hl, hn, h1, h2⟩ := one_factor_coefficients hw hcodes hf hm h hrhs
  refine ⟨eval, types, n, hl, hn, h1, fun hwell levels omitted o c hc hty ho hlt hocc => ?_⟩
  obtain ⟨⟨cm, hcm, _, hred⟩, _⟩ := sum_meaning (K := K) readable ho hlt
  subst hc
  obtain ⟨contrast, hty, hcm'⟩ : ∃ contrast, typeOf types a = some (.categorical levels contrast) ∧
      codeContrastMatrix false levels (contrast.getD .none) P.default = .ok cm := by
    rcases hty with hty | hty
    · exact ⟨_, hty, hcm⟩
    · exact ⟨_, hty, hcm⟩
  obtain ⟨h3, hlev, h4⟩ := h2 hwell levels contrast hty hocc cm _ _ hcm' hred
  have h5 : ∀ y b, Solves (modelRows P isnan data m eval types n).length t.2.mat.cols y b ↔
      b 0 = meanOf levels.length (groupMean (modelRows P isnan data m eval types n) a y) ∧
      ∀ j < levels.length - 1, b (j + 1) = groupMean (modelRows P isnan data m eval types n) a y (skip o j) - b 0 := by
    intro y b
    refine (h4 y b).trans (and_congr_right fun hb => ?_)
    rw [hb]
  refine ⟨by omega, fun y b => ⟨h5 y b, fun hs r hr => ?_⟩⟩
  have hr0 : r ≠ 0 := by
    rw [← hr o hlt]
    exact Finset.card_ne_zero.mpr (hocc o hlt)
  rw [((h5 y b).mp hs).1, balanced_mean hlev hr0 hr]

end

/-! ### Examples -/

namespace CellSample

open BuilderSample HighSample FitSample

/-- `y ~ 1 + a`. -/
def grouped : ModelDesc String := ⟨[⟨["y"]⟩], [⟨[]⟩, ⟨["a"]⟩]⟩

/-- `y ~ 0 + a`. -/
def plain : ModelDesc String := ⟨[⟨["y"]⟩], [⟨["a"]⟩]⟩

def groupTypes : Types String ℚ := ([("y", 1)], [("a", [.str "u", .str "v", .str "w"], none)])

theorem learned_grouped : Learned setting' FitSample.rows grouped look' groupTypes := ⟨rfl, rfl⟩

theorem learned_plain : Learned setting' FitSample.rows plain look' groupTypes := ⟨rfl, rfl⟩

theorem grouped_ok : isOk (result grouped) = true := by decide +kernel

theorem plain_ok : isOk (result plain) = true := by decide +kernel

theorem rowCount_groups {m : ModelDesc String} (hm : ∀ f ∈ allFactors [m.lhs, m.rhs], f = "a" ∨ f = "y")
    (hne : allFactors [m.lhs, m.rhs] ≠ []) :
    RowCount setting'.na groupTypes (fun f => look' f FitSample.rows) (allFactors [m.lhs, m.rhs]) none 7 := by
  refine ⟨?_, fun h => absurd h hne⟩
  intro f hf r
  rcases hm f hf with rfl | rfl
  · have : factorCell setting'.na groupTypes (fun f => look' f FitSample.rows) r "a" =
        [0, 0, 1, 1, 2, 2, 2][r]?.map .code := rfl
    rw [this]
    simp
  · have : factorCell setting'.na groupTypes (fun f => look' f FitSample.rows) r "y" =
      [[1], [2], [4], [1], [5], [9], [3]][r]?.map .num := rfl
    rw [this]
    simp

/-- The outcome. -/
def measured : Fin 7 → ℚ := ![1, 2, 4, 1, 5, 9, 3]

/-- The means in the groups `u`, `v` and `w`, for each row. -/
def means : Fin 7 → ℚ := ![3 / 2, 3 / 2, 5 / 2, 5 / 2, 17 / 3, 17 / 3, 17 / 3]

def coefficients : Nat → ℚ
  | 0 => 3 / 2
  | 1 => 1
  | _ => 25 / 6

def groupCoefficients : Nat → ℚ
  | 0 => 3 / 2
  | 1 => 5 / 2
  | _ => 17 / 3

theorem occur (m : ModelDesc String) (hm : modelRows setting' isnan FitSample.rows m look' groupTypes 7 =
    modelRows setting' isnan FitSample.rows grouped look' groupTypes 7) :
    ∀ l < [PyVal.str "u", .str "v", .str "w"].length,
      (group (modelRows setting' isnan FitSample.rows m look' groupTypes 7) "a" l).Nonempty := by
  rw [hm]
  intro l hl
  have : l = 0 ∨ l = 1 ∨ l = 2 := by simp at hl; omega
  rcases this with rfl | rfl | rfl
  · exact ⟨(⟨0, by decide⟩ : Fin 7), Finset.mem_filter.mpr ⟨Finset.mem_univ _, rfl⟩⟩
  · exact ⟨(⟨2, by decide⟩ : Fin 7), Finset.mem_filter.mpr ⟨Finset.mem_univ _, rfl⟩⟩
  · exact ⟨(⟨4, by decide⟩ : Fin 7), Finset.mem_filter.mpr ⟨Finset.mem_univ _, rfl⟩⟩

/-- `C(a, Sum)`. -/
def sumSpec : Contrast.Spec ℚ := .coding (sumWith BuilderSample.readable none) (sumWithout BuilderSample.readable none)

/-- As `look'`, and the factor `C(a, Sum)`. -/
def lookS (f : String) (d : Data) : Except Err (Seen ℚ) :=
  if f = "C(a, Sum)" then .ok ⟨.box (.array .other 1 1 (d.map fun r => .str r.2.2)) (some (.callable sumSpec)) none, [], none⟩
  else look' f d

def settingS : Setting String Data ℚ (Redundancy.Subterm String) := { setting with memorize := fun _ => .ok lookS }

theorem worldS : World settingS := by
  refine ⟨visits, ?_⟩
  intro fs eval h f d s hs l hl
  cases h
  have : s.index = none := by
    simp only [lookS, look', look, BuilderSample.number] at hs
    repeat' split at hs
    all_goals first | (cases hs; rfl) | cases hs
  rw [this] at hl
  cases hl

theorem codesFitS : CodesFit settingS := by
  intro fs eval h f d s cats codes hs hv
  cases h
  simp only [lookS, look', look, BuilderSample.number] at hs
  repeat' split at hs
  all_goals first | (cases hs; cases hv) | cases hs

/-- `1 + C(a, Sum)`. -/
def summed : ModelDesc String := ⟨[], [⟨[]⟩, ⟨["C(a, Sum)"]⟩]⟩

def sumTypes : Types String ℚ := ([], [("C(a, Sum)", [.str "u", .str "v", .str "w"], some (.callable sumSpec))])

theorem learned_summed : Learned settingS RecodeSample.rows summed lookS sumTypes := ⟨rfl, rfl⟩

def sumResult : Except Err (Table String Data ℚ × Table String Data ℚ) :=
  highLevelDesign settingS isnan none RecodeSample.rows .matrix (.desc summed)

theorem summed_ok : isOk sumResult = true := by decide +kernel

theorem rowCount_summed :
    RowCount settingS.na sumTypes (fun f => lookS f RecodeSample.rows) (allFactors [summed.lhs, summed.rhs]) none 6 := by
  refine ⟨?_, fun h => absurd h (by decide)⟩
  intro f hf r
  have : f = "C(a, Sum)" := by
    have : allFactors [summed.lhs, summed.rhs] = ["C(a, Sum)"] := by decide
    rw [this] at hf
    simpa using hf
  subst this
  have : factorCell settingS.na sumTypes (fun f => lookS f RecodeSample.rows) r "C(a, Sum)" =
      [0, 0, 1, 1, 2, 2][r]?.map .code := rfl
  rw [this]
  simp

theorem wellCoded_summed : WellCoded settingS sumTypes summed.rhs := by
  refine ⟨?_, fun _ _ _ _ h => minusPiece_injective h⟩
  intro t _ f _ levels contrast hty
  by_cases hf : f = "C(a, Sum)"
  · subst hf
    cases hty
    exact (builtin_good (default := settingS.default) (levels := [.str "u", .str "v", .str "w"]) (by simp)
      (.sum (readable := BuilderSample.readable) (omitted := none) (o := 2) rfl (by decide))).2.1
  · have : dictGet sumTypes.2 f = none := by simp [sumTypes, dictGet, Ne.symm hf]
    simp [typeOf, sumTypes, dictGet, Ne.symm hf] at hty

def sumOutcome : Fin 6 → ℚ := ![1, 2, 4, 1, 9, 3]

def sumCoefficients : Nat → ℚ
  | 0 => 10 / 3
  | 1 => -(11 / 6)
  | _ => -(5 / 6)

end CellSample

open CellSample FitSample HighSample BuilderSample in
/-- Example for `sum_coefficients`: two rows for each of three levels.  The overall mean is 10/3, the group means are 3/2,
5/2 and 6. -/
example : ∃ t, sumResult = .ok t ∧ Solves 6 t.2.mat.cols sumOutcome sumCoefficients ∧
    sumCoefficients 0 = (∑ i, sumOutcome i) / 6 := by
  refine ⟨_, getOk_eq summed_ok, ?_⟩
  obtain ⟨eval, ty, n, hl, hn, h1, h2⟩ := sum_coefficients worldS codesFitS (f := .desc summed) (fun m hm => by cases hm; decide) rfl
    (getOk_eq summed_ok) (readable := BuilderSample.readable) (a := "C(a, Sum)") rfl
  obtain ⟨h3, h4⟩ := hl
  cases h3
  obtain rfl : ty = sumTypes := Except.ok.inj (h4.symm.trans learned_summed.2)
  obtain rfl := rowCount_unique (fun _ => Iff.rfl) (fun _ => rfl) rowCount_summed hn
  have hocc : ∀ l < [PyVal.str "u", .str "v", .str "w"].length,
      (group (modelRows settingS isnan RecodeSample.rows summed lookS sumTypes 6) "C(a, Sum)" l).Nonempty := by
    intro l hl
    have : l = 0 ∨ l = 1 ∨ l = 2 := by simp at hl; omega
    rcases this with rfl | rfl | rfl
    · exact ⟨(⟨0, by decide⟩ : Fin 6), Finset.mem_filter.mpr ⟨Finset.mem_univ _, rfl⟩⟩
    · exact ⟨(⟨2, by decide⟩ : Fin 6), Finset.mem_filter.mpr ⟨Finset.mem_univ _, rfl⟩⟩
    · exact ⟨(⟨4, by decide⟩ : Fin 6), Finset.mem_filter.mpr ⟨Finset.mem_univ _, rfl⟩⟩
  obtain ⟨_, h5⟩ := h2 wellCoded_summed [.str "u", .str "v", .str "w"] none 2 sumSpec rfl (.inr rfl) rfl (by decide) hocc
  obtain ⟨h6, h7⟩ := h5 sumOutcome sumCoefficients
  have hs := h6.mpr ⟨by decide +kernel, fun j hj => by
    have : j = 0 ∨ j = 1 := by simp at hj; omega
    rcases this with rfl | rfl <;> decide +kernel⟩
  refine ⟨hs, h7 hs 2 fun l hl => ?_⟩
  have : l = 0 ∨ l = 1 ∨ l = 2 := by simp at hl; omega
  rcases this with rfl | rfl | rfl <;> decide +kernel

open CellSample FitSample HighSample BuilderSample in
/-- Example for `treatment_coefficients`: `y ~ 1 + a`, where `a` has three levels.  All hypotheses are met.  The intercept is
the mean of the first group, 3/2, and the means of the others are 5/2 and 17/3. -/
example : ∃ t, result grouped = .ok t ∧ t.1.mat.cols = [[1, 2, 4, 1, 5, 9, 3]] ∧
    Solves 7 t.2.mat.cols measured coefficients := by
  refine ⟨_, getOk_eq grouped_ok, by decide +kernel, ?_⟩
  obtain ⟨eval, ty, n, hl, hn, h1, h2⟩ := treatment_coefficients world codesFit (sound grouped (by decide)) rfl
    (getOk_eq grouped_ok) (readable := BuilderSample.readable) rfl rfl
  obtain rfl := learned_unique learned_grouped _ _ hl
  obtain ⟨h3, h4⟩ := hl
  cases h3
  obtain rfl := rowCount_unique (fun _ => Iff.rfl) (fun _ => rfl) (rowCount_groups (m := grouped) (by decide) (by decide)) hn
  obtain ⟨_, h5⟩ := h2 (wellCoded (by decide) rfl _) [.str "u", .str "v", .str "w"] rfl (by simp) (occur grouped rfl)
  refine (h5 measured coefficients).mpr ⟨by decide +kernel, ?_⟩
  intro j hj hj'
  have : j = 1 ∨ j = 2 := by simp at hj'; omega
  rcases this with rfl | rfl <;> decide +kernel

open CellSample FitSample HighSample BuilderSample in
/-- Example for `dummy_coefficients`: `y ~ 0 + a`. -/
example : ∃ t, result plain = .ok t ∧ Solves 7 t.2.mat.cols measured groupCoefficients := by
  refine ⟨_, getOk_eq plain_ok, ?_⟩
  obtain ⟨eval, ty, n, hl, hn, h1, h2⟩ := dummy_coefficients world codesFit (sound plain (by decide)) rfl
    (getOk_eq plain_ok) (readable := BuilderSample.readable) rfl rfl
  obtain rfl := learned_unique learned_plain _ _ hl
  obtain ⟨h3, h4⟩ := hl
  cases h3
  obtain rfl := rowCount_unique (fun _ => Iff.rfl) (fun _ => rfl) (rowCount_groups (m := plain) (by decide) (by decide)) hn
  obtain ⟨_, h5⟩ := h2 (wellCoded (by decide) rfl _) [.str "u", .str "v", .str "w"] rfl (occur plain rfl)
  refine (h5 measured groupCoefficients).mpr ?_
  intro j hj
  have : j = 0 ∨ j = 1 ∨ j = 2 := by simp at hj; omega
  rcases this with rfl | rfl | rfl <;> decide +kernel

open CellSample FitSample HighSample BuilderSample in
/-- Example for `cell_means` and `cell_totals`: the fitted values of `y ~ 1 + a` are the means of the groups; their total is
that of the outcome, as for every cell of every term. -/
example : ∃ t, result grouped = .ok t ∧ Fitted 7 t.2.mat.cols measured means ∧ ∑ i, means i = ∑ i, measured i := by
  refine ⟨_, getOk_eq grouped_ok, ?_⟩
  have hfit : Fitted 7 (getOk (result grouped) grouped_ok).2.mat.cols measured means := by
    obtain ⟨eval, ty, n, hl, hn, h1, h2⟩ := cell_means world codesFit (sound grouped (by decide)) rfl (getOk_eq grouped_ok)
    obtain rfl := learned_unique learned_grouped _ _ hl
    obtain ⟨h3, h4⟩ := hl
    cases h3
    obtain rfl := rowCount_unique (fun _ => Iff.rfl) (fun _ => rfl) (rowCount_groups (m := grouped) (by decide) (by decide)) hn
    refine (h2 (wellCoded (by decide) rfl _) ⟨["a"]⟩ (by decide) (by decide) (by decide) measured means).mpr ?_
    rintro ⟨i, hi⟩
    have : i < 7 := hi
    match i, this with
    | 0, _ => exact (by decide +kernel : means ⟨0, by decide⟩ = cellMean (modelRows setting' isnan FitSample.rows grouped look'
        groupTypes 7) ["a"] measured ⟨0, by decide⟩)
    | 1, _ => exact (by decide +kernel : means ⟨1, by decide⟩ = cellMean (modelRows setting' isnan FitSample.rows grouped look'
        groupTypes 7) ["a"] measured ⟨1, by decide⟩)
    | 2, _ => exact (by decide +kernel : means ⟨2, by decide⟩ = cellMean (modelRows setting' isnan FitSample.rows grouped look'
        groupTypes 7) ["a"] measured ⟨2, by decide⟩)
    | 3, _ => exact (by decide +kernel : means ⟨3, by decide⟩ = cellMean (modelRows setting' isnan FitSample.rows grouped look'
        groupTypes 7) ["a"] measured ⟨3, by decide⟩)
    | 4, _ => exact (by decide +kernel : means ⟨4, by decide⟩ = cellMean (modelRows setting' isnan FitSample.rows grouped look'
        groupTypes 7) ["a"] measured ⟨4, by decide⟩)
    | 5, _ => exact (by decide +kernel : means ⟨5, by decide⟩ = cellMean (modelRows setting' isnan FitSample.rows grouped look'
        groupTypes 7) ["a"] measured ⟨5, by decide⟩)
    | 6, _ => exact (by decide +kernel : means ⟨6, by decide⟩ = cellMean (modelRows setting' isnan FitSample.rows grouped look'
        groupTypes 7) ["a"] measured ⟨6, by decide⟩)
  refine ⟨hfit, ?_⟩
  obtain ⟨eval, ty, n, hl, hn, h1, h2⟩ := cell_totals world codesFit (sound grouped (by decide)) rfl (getOk_eq grouped_ok)
  obtain rfl := learned_unique learned_grouped _ _ hl
  obtain ⟨h3, h4⟩ := hl
  cases h3
  obtain rfl := rowCount_unique (fun _ => Iff.rfl) (fun _ => rfl) (rowCount_groups (m := grouped) (by decide) (by decide)) hn
  have := h2 (wellCoded (by decide) rfl _) measured means hfit ⟨[]⟩ (by decide) (by simp) (⟨0, by decide⟩ : Fin 7)
  have hc : cellRows (modelRows setting' isnan FitSample.rows grouped look' groupTypes 7) [] ⟨0, by decide⟩ = Finset.univ := by
    simp [cellRows]
  exact (Finset.sum_congr hc fun _ _ => rfl).symm.trans (this.trans (Finset.sum_congr hc fun _ _ => rfl))

open FitSample HighSample BuilderSample in
/-- Example for `fit_of_formula`: `1 + a + a:x`.  In the rows with the level `u` (the first two), the residuals are orthogonal
to `x`, which is 1 and 2 there. -/
example : ∃ t, result one = .ok t ∧ ∀ y v : Fin 6 → ℚ, Fitted 6 t.2.mat.cols y v → 1 * v 0 + 2 * v 1 = 1 * y 0 + 2 * y 1 := by
  refine ⟨_, getOk_eq one_ok, fun y v hv => ?_⟩
  obtain ⟨eval, ty, n, hl, hn, h1, h2⟩ := fit_of_formula world codesFit (sound one (by decide)) rfl (getOk_eq one_ok)
  obtain rfl := learned_unique learned_one _ _ hl
  obtain ⟨h3, h4⟩ := hl
  cases h3
  obtain rfl := rowCount_unique (fun _ => Iff.rfl) (fun _ => rfl) rowCount hn
  have := ((h2 (wellCoded (by decide) rfl _) y v).mp hv).2 ⟨["a", "x"]⟩ (by decide) {("x", 0)}
    ⟨fun _ => 0, by decide, by decide⟩ (⟨0, by decide⟩ : Fin 6)
  have hc : cellRows (modelRows setting' isnan FitSample.rows one look' types 7)
      (["a", "x"].filter fun f => (dictGet types.1 f).isNone) ⟨0, by decide⟩ = {⟨0, by decide⟩, ⟨1, by decide⟩} := by
    decide +kernel
  have h5 := (Finset.sum_congr hc fun _ _ => rfl).symm.trans (this.trans (Finset.sum_congr hc fun _ _ => rfl))
  rw [Finset.sum_pair (by decide), Finset.sum_pair (by decide)] at h5
  have m0 : monomial (modelRows setting' isnan FitSample.rows one look' types 7)[0] {("x", 0)} = 1 := by decide +kernel
  have m1 : monomial (modelRows setting' isnan FitSample.rows one look' types 7)[1] {("x", 0)} = 2 := by decide +kernel
  simp only [Fin.getElem_fin, m0, m1] at h5
  exact h5

end Patsy.Props
