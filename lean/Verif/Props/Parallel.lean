import Verif.Props.CoefText
import Verif.Spec.Parallel

/-!
# Property C83: the coefficients of `y ~ a + x` with a categorical and a numerical factor
-/

set_option linter.unusedSectionVars false

namespace Patsy.Props

open Patsy.Build Patsy.Desc Patsy.Cat Patsy.Spec Patsy.Contrast Patsy.Redundancy Patsy.Rank

variable {F D K H : Type} [DecidableEq F] [Field K] [LinearOrder K] [IsStrictOrderedRing K] [DecidableEq H]

theorem infos_parallel {hash : Subterm F → H} {nums : List (F × Nat)} {coder : F → Bool → Except Err (ContrastMatrix K)}
    {a x : F} (ha : dictGet nums a = none) {k : Nat} (hx : dictGet nums x = some k) (hsep : hash {⟨false, a⟩} ≠ hash ∅)
    {cm : ContrastMatrix K} (hcm : coder a false = .ok cm) :
    makeSubtermInfos hash nums coder [⟨[]⟩, ⟨[a]⟩, ⟨[x]⟩] =
      .ok [(⟨[]⟩, [⟨[], [], 1⟩]), (⟨[a]⟩, [⟨[a], [(a, cm)], cm.ncols⟩]), (⟨[x]⟩, [⟨[x], [], k⟩])] := by
  have hna : isNumeric nums a = false := by simp [isNumeric, ha]
  have hn : isNumeric nums x = true := by simp [isNumeric, hx]
  have hax : a ≠ x := by rintro rfl; rw [ha] at hx; cases hx
  have hb : buckets nums [⟨[]⟩, ⟨[a]⟩, ⟨[x]⟩] = ([∅, {x}], [(∅, [⟨[]⟩, ⟨[a]⟩]), ({x}, [⟨[x]⟩])]) := by
    simp [buckets, bucketStep, bucketOf, hn, hna, dictGet, dictSet]
  have ho : moveEmptyFirst [(∅ : Finset F), {x}] [(∅, [⟨[]⟩, ⟨[a]⟩]), ({x}, [⟨[x]⟩])] = [∅, {x}] := by simp [moveEmptyFirst, dictGet]
  have hg : (dictGet [((∅ : Finset F), [(⟨[]⟩ : Term F), ⟨[a]⟩]), ({x}, [⟨[x]⟩])] ∅).getD [] = [⟨[]⟩, ⟨[a]⟩] := by simp [dictGet]
  have hg' : (dictGet [((∅ : Finset F), [(⟨[]⟩ : Term F), ⟨[a]⟩]), ({x}, [⟨[x]⟩])] {x}).getD [] = [⟨[x]⟩] := by simp [dictGet]
  have hs : sortByDegree [(⟨[]⟩ : Term F), ⟨[a]⟩] = [⟨[]⟩, ⟨[a]⟩] := by simp [sortByDegree]
  have hs' : sortByDegree [(⟨[x]⟩ : Term F)] = [⟨[x]⟩] := by simp [sortByDegree]
  have h1 : makeSubterm nums coder ⟨[]⟩ ∅ = .ok ⟨[], [], 1⟩ := by
    simp [makeSubterm, subtermLoop, SubtermInfo.make, bind, Except.bind]
  have h2 : makeSubterm nums coder ⟨[a]⟩ {⟨false, a⟩} = .ok ⟨[a], [(a, cm)], cm.ncols⟩ := by
    simp [makeSubterm, subtermLoop, SubtermInfo.make, bind, Except.bind, ha, codingLookup, hcm]
  have h3 : makeSubterm nums coder ⟨[x]⟩ ∅ = .ok ⟨[x], [], k⟩ := by
    simp [makeSubterm, subtermLoop, SubtermInfo.make, bind, Except.bind, hx]
  have hp : pickContrasts hash (isNumeric nums) [x] [] = .ok ([∅], [hash ∅]) := by
    have := pick_intercept hash (isNumeric nums)
    simp only [pickContrasts, List.filter_nil] at this
    have hf : [x].filter (fun f => !isNumeric nums f) = [] := by simp [hn]
    simp only [pickContrasts, hf]
    exact this
  have hc : codeBucket hash nums coder [⟨[]⟩, ⟨[a]⟩] [] =
      .ok [(⟨[]⟩, [⟨[], [], 1⟩]), (⟨[a]⟩, [⟨[a], [(a, cm)], cm.ncols⟩])] := by
    simp [codeBucket, pick_intercept, pick_reduced hna hsep, h1, h2, bind, Except.bind, pure, Except.pure]
  have hc' : codeBucket hash nums coder [⟨[x]⟩] [] = .ok [(⟨[x]⟩, [⟨[x], [], k⟩])] := by
    simp [codeBucket, hp, h3, bind, Except.bind, pure, Except.pure]
  simp only [makeSubtermInfos, hb, ho, hg, hg', hs, hs', hc, hc', List.mapM_cons, List.mapM_nil, List.flatMap_cons, List.flatMap_nil]
  simp [bind, Except.bind, pure, Except.pure, dictOf, dictSet, sameTerms, Term.eqv, hax]

/-- The matrix for an intercept, a categorical factor and a numerical factor with one column. -/
theorem matrix_parallel {hash : Subterm F → H} {nums : List (F × Nat)} {n : F → Nat}
    {coder : F → Bool → Except Err (ContrastMatrix K)} {fis : List (F × FactorInfo F D K)} {a x : F} {d : DesignInfo F D K}
    {rows : List (F → Option (Cell K))} {cols : List (List K)}
    (h : MadeMatrix hash nums n coder fis [⟨[]⟩, ⟨[a]⟩, ⟨[x]⟩] d rows cols) (ha : dictGet nums a = none)
    (hx : dictGet nums x = some 1) {cm : ContrastMatrix K} (hcm : coder a false = .ok cm) :
    cols.length = cm.ncols + 2 ∧ ∀ (b : Nat → K) i, weighted rows.length cols b i =
      b 0 + ∑ j ∈ Finset.range cm.ncols, entry cm.matrix (levelAt rows[i] a) j * b (j + 1) +
        b (cm.ncols + 1) * numberAt rows[i] x 0 := by
  obtain ⟨name, h1⟩ := h.made
  obtain ⟨c, h2, h3⟩ := h.matrix
  have hm := madeCoding h1 h2
  have hsep : hash {⟨false, a⟩} ≠ hash ∅ := by
    intro he
    have := h.separates {a} ∅ ⟨[a], by simp, ?_⟩ ⟨[a], by simp, ?_⟩ (by simpa using he)
    · simp at this
    all_goals simp [Contains, catPart, ha]
  have hi := hm.infos
  rw [infos_parallel ha hx hsep hcm] at hi
  obtain ⟨fis', infos⟩ := c
  cases hi
  have hcheck := hm.checked (⟨[a]⟩, [⟨[a], [(a, cm)], cm.ncols⟩]) (by simp) ⟨[a], [(a, cm)], cm.ncols⟩ (by simp)
  have hcheck' := hm.checked (⟨[x]⟩, [⟨[x], [], 1⟩]) (by simp) ⟨[x], [], 1⟩ (by simp)
  have hwidth : widthOf fis' [] x = 1 := by
    simpa [widths] using (checkSubterm_good hcheck').2.1
  have hcols : columnsOf (⟨fis', [(⟨[]⟩, [⟨[], [], 1⟩]), (⟨[a]⟩, [⟨[a], [(a, cm)], cm.ncols⟩]), (⟨[x]⟩, [⟨[x], [], 1⟩])]⟩ : Coding F D K) =
      (⟨[], [], 1⟩, []) :: (((List.range cm.ncols).map fun j => (⟨[a], [(a, cm)], cm.ncols⟩, [j])) ++ [(⟨[x], [], 1⟩, [0])]) := by
    simp only [columnsOf, List.flatMap_cons, List.flatMap_nil, List.append_nil, widths, List.map_nil, List.map_cons, digits, hwidth,
      List.range_one, List.cons_append, List.nil_append, widthOf, dictGet, Nat.mod_one]
    congr 2
    refine List.map_congr_left fun j hj => ?_
    simp [Nat.mod_eq_of_lt (List.mem_range.mp hj)]
  have hlen : cols.length = cm.ncols + 2 := by
    have := h3.length_eq
    rw [hcols] at this
    simpa using this.symm
  refine ⟨hlen, fun b i => ?_⟩
  have hval : ∀ (j : Nat) (hj : j < cols.length), (cols[j][i.1]?.getD 0) =
      if j = 0 then 1 else if j = cm.ncols + 1 then numberAt rows[i] x 0 else entry cm.matrix (levelAt rows[i] a) (j - 1) := by
    intro j hj
    cases j with
    | zero =>
      have := isMatrix_entry h3 (j := 0) hj (by rw [hcols]; rfl) i.2
      simpa [columnEntry, prodFrom] using this.symm
    | succ j =>
      by_cases hj' : j < cm.ncols
      · have := isMatrix_entry h3 (j := j + 1) hj (by
          rw [hcols, List.getElem?_cons_succ, List.getElem?_append_left (by simpa using hj'), List.getElem?_map,
            List.getElem?_range hj']; rfl) i.2
        simpa [hj'.ne] using factor_column hcheck this
      · obtain rfl : j = cm.ncols := by omega
        have := isMatrix_entry h3 (j := cm.ncols + 1) hj (by
          rw [hcols, List.getElem?_cons_succ, List.getElem?_append_right (by simp)]; simp; rfl) i.2
        simpa using number_column hcheck' this
  have : weighted rows.length cols b i = ∑ j : Fin cols.length, (fun j => b j *
      if j = 0 then 1 else if j = cm.ncols + 1 then numberAt rows[i] x 0 else entry cm.matrix (levelAt rows[i] a) (j - 1)) j.1 := by
    unfold weighted columnVectors
    refine Finset.sum_congr rfl fun j _ => ?_
    have := hval j.1 j.2
    simp only [Fin.getElem_fin, Fin.getElem?_fin] at this ⊢
    rw [this]
  refine this.trans ((Fin.sum_univ_eq_sum_range (fun j => b j *
      if j = 0 then 1 else if j = cm.ncols + 1 then numberAt rows[i] x 0 else entry cm.matrix (levelAt rows[i] a) (j - 1)) _).trans ?_)
  rw [hlen, Finset.sum_range_succ, Finset.sum_range_succ']
  simp only [Nat.add_sub_cancel, if_true, mul_one, Nat.add_eq_zero_iff, one_ne_zero, and_false, if_false]
  congr 1
  rw [add_comm]
  congr 1
  refine Finset.sum_congr rfl fun j hj => ?_
  have : j ≠ cm.ncols := (Finset.mem_range.mp hj).ne
  simp [this, mul_comm]

/-- A sum over all rows, by groups. -/
theorem sum_groups {rows : List (F → Option (Cell K))} {a : F} {L : Nat} (hlev : ∀ i : Fin rows.length, levelAt rows[i] a < L)
    (r : Fin rows.length → K) (μ : Nat → K) :
    ∑ i, r i * μ (levelAt rows[i] a) = ∑ l ∈ Finset.range L, μ l * ∑ i ∈ group rows a l, r i := by
  rw [← Finset.sum_fiberwise_of_maps_to (s := Finset.univ) (t := Finset.range L) (g := fun i : Fin rows.length => levelAt rows[i] a)
    fun i _ => Finset.mem_range.mpr (hlev i)]
  refine Finset.sum_congr rfl fun l _ => ?_
  rw [Finset.mul_sum]
  refine Finset.sum_congr rfl fun i hi => ?_
  rw [(Finset.mem_filter.mp hi).2, mul_comm]

/-- The normal equations of parallel lines, solved. -/
theorem parallel_solution {rows : List (F → Option (Cell K))} {a : F} {L : Nat}
    (hlev : ∀ i : Fin rows.length, levelAt rows[i] a < L) (hocc : ∀ l < L, (group rows a l).Nonempty) {x y : Fin rows.length → K}
    (hx : ∃ i j, levelAt rows[i] a = levelAt rows[j] a ∧ x i ≠ x j) {μ : Nat → K} {s : K} :
    ((∀ l < L, ∑ i ∈ group rows a l, (y i - (μ (levelAt rows[i] a) + s * x i)) = 0) ∧
      ∑ i, (y i - (μ (levelAt rows[i] a) + s * x i)) * x i = 0) ↔
    s = within rows a x y / within rows a x x ∧ ∀ l < L, μ l = groupMean rows a y l - s * groupMean rows a x l := by
  have hpos : within rows a x x ≠ 0 := by
    intro h0
    have := (Finset.sum_eq_zero_iff_of_nonneg fun i _ => mul_self_nonneg (x i - groupMean rows a x (levelAt rows[i] a))).mp h0
    obtain ⟨i, j, hij, hne⟩ := hx
    apply hne
    have h1 := mul_self_eq_zero.mp (this i (by simp))
    have h2 := mul_self_eq_zero.mp (this j (by simp))
    rw [hij] at h1
    linarith
  have hgroup : ∀ l < L, (∑ i ∈ group rows a l, (y i - (μ (levelAt rows[i] a) + s * x i)) = 0 ↔
      μ l = groupMean rows a y l - s * groupMean rows a x l) := by
    intro l hl
    have hc : ((group rows a l).card : K) ≠ 0 := by exact_mod_cast (Finset.card_pos.mpr (hocc l hl)).ne'
    have e : ∑ i ∈ group rows a l, (y i - (μ (levelAt rows[i] a) + s * x i)) =
        (group rows a l).card * (groupMean rows a y l - s * groupMean rows a x l - μ l) := by
      have : ∑ i ∈ group rows a l, (y i - (μ (levelAt rows[i] a) + s * x i)) = ∑ i ∈ group rows a l, (y i - (μ l + s * x i)) :=
        Finset.sum_congr rfl fun i hi => by rw [(Finset.mem_filter.mp hi).2]
      rw [this]
      simp only [Finset.sum_sub_distrib, Finset.sum_add_distrib, Finset.sum_const, nsmul_eq_mul, ← Finset.mul_sum, groupMean]
      field_simp
      ring
    rw [e, mul_eq_zero, or_iff_right hc]
    constructor <;> intro h <;> linear_combination -h
  have hslope : (∀ l < L, μ l = groupMean rows a y l - s * groupMean rows a x l) →
      ∑ i, (y i - (μ (levelAt rows[i] a) + s * x i)) * x i = within rows a x y - s * within rows a x x := by
    intro h
    have h0 := sum_groups hlev (fun i => y i - (μ (levelAt rows[i] a) + s * x i)) (groupMean rows a x)
    rw [Finset.sum_eq_zero (s := Finset.range L) fun l hl => by
      rw [(hgroup l (Finset.mem_range.mp hl)).mpr (h l (Finset.mem_range.mp hl)), mul_zero]] at h0
    have e : ∀ i : Fin rows.length, (y i - (μ (levelAt rows[i] a) + s * x i)) * x i =
        (x i - groupMean rows a x (levelAt rows[i] a)) * (y i - groupMean rows a y (levelAt rows[i] a)) -
        s * ((x i - groupMean rows a x (levelAt rows[i] a)) * (x i - groupMean rows a x (levelAt rows[i] a))) +
        (y i - (μ (levelAt rows[i] a) + s * x i)) * groupMean rows a x (levelAt rows[i] a) := by
      intro i
      rw [h _ (hlev i)]
      ring
    rw [Finset.sum_congr rfl fun i _ => e i, Finset.sum_add_distrib, h0, add_zero, Finset.sum_sub_distrib, ← Finset.mul_sum]
    rfl
  constructor
  · rintro ⟨h1, h2⟩
    have hμ := fun l hl => (hgroup l hl).mp (h1 l hl)
    rw [hslope hμ] at h2
    exact ⟨by rw [eq_div_iff hpos]; linear_combination -h2, hμ⟩
  · rintro ⟨h1, hμ⟩
    refine ⟨fun l hl => (hgroup l hl).mpr (hμ l hl), ?_⟩
    rw [hslope hμ, h1]
    field_simp
    ring

theorem weighted_mem_span {n : Nat} {cols : List (List K)} (b : Nat → K) :
    weighted n cols b ∈ Submodule.span K (Set.range (columnVectors n cols)) := by
  have : weighted n cols b = ∑ j : Fin cols.length, b j • columnVectors n cols j := by
    funext i
    simp [weighted, Finset.sum_apply]
  rw [this]
  exact Submodule.sum_mem _ fun j _ => Submodule.smul_mem _ _ (Submodule.subset_span ⟨j, rfl⟩)

theorem column_weighted {n : Nat} {cols : List (List K)} (j : Fin cols.length) :
    columnVectors n cols j = weighted n cols fun k => if k = j.1 then 1 else 0 := by
  funext i
  simp [weighted, Fin.val_inj]

/-- Least squares with an intercept, a categorical factor and a numerical factor. -/
theorem solves_parallel {hash : Subterm F → H} {nums : List (F × Nat)} {n : F → Nat}
    {coder : F → Bool → Except Err (ContrastMatrix K)} {fis : List (F × FactorInfo F D K)} {a x : F} {d : DesignInfo F D K}
    {rows : List (F → Option (Cell K))} {cols : List (List K)}
    (h : MadeMatrix hash nums n coder fis [⟨[]⟩, ⟨[a]⟩, ⟨[x]⟩] d rows cols) (ha : dictGet nums a = none)
    (hx : dictGet nums x = some 1) {cm : ContrastMatrix K} (hcm : coder a false = .ok cm)
    {A : (Nat → K) → K} {B : (Nat → K) → Nat → K} (hred : IsReduced cm (n a) A B)
    (hocc : ∀ l < n a, (group rows a l).Nonempty) {xs : Fin rows.length → K} (hxs : ∀ i, numberAt rows[i] x 0 = xs i)
    (hne : ∃ i j, levelAt rows[i] a = levelAt rows[j] a ∧ xs i ≠ xs j) {y : Fin rows.length → K} {b : Nat → K} :
    Solves rows.length cols y b ↔
      b (n a - 1 + 1) = within rows a xs y / within rows a xs xs ∧
      b 0 = A (fun l => groupMean rows a y l - b (n a - 1 + 1) * groupMean rows a xs l) ∧
      ∀ j < n a - 1, b (j + 1) = B (fun l => groupMean rows a y l - b (n a - 1 + 1) * groupMean rows a xs l) j := by
  obtain ⟨hlen, hw⟩ := matrix_parallel h ha hx hcm
  have hlev : ∀ i : Fin rows.length, levelAt rows[i] a < n a := fun i =>
    h.levels rows[i] (List.getElem_mem _) ⟨[a]⟩ (by simp) a (by simp) ha
  simp only [hred.ncols, hxs] at hw hlen
  rw [← hred.meaning _ (b 0) fun j => b (j + 1)]
  set μ : (Nat → K) → Nat → K := fun b l => b 0 + ∑ j ∈ Finset.range (n a - 1), entry cm.matrix l j * b (j + 1) with hμ
  have hw' : ∀ (b : Nat → K) i, weighted rows.length cols b i = μ b (levelAt rows[i] a) + b (n a - 1 + 1) * xs i := hw
  have hsol := parallel_solution hlev hocc hne (y := y) (μ := μ b) (s := b (n a - 1 + 1))
  have e : (∀ l < n a, groupMean rows a y l - b (n a - 1 + 1) * groupMean rows a xs l =
      b 0 + ∑ j ∈ Finset.range (n a - 1), entry cm.matrix l j * b (j + 1)) ↔
      ∀ l < n a, μ b l = groupMean rows a y l - b (n a - 1 + 1) * groupMean rows a xs l :=
    forall₂_congr fun l _ => eq_comm
  rw [e, ← hsol, Solves, normal_equations]
  simp only [weighted_mem_span, true_and]
  simp only [hw']
  constructor
  · intro h
    constructor
    · intro l hl
      have hm := (hred.meaning (fun k => if k = l then 1 else 0) _ _).mpr ⟨rfl, fun j _ => rfl⟩
      have hl' := h _ (weighted_mem_span fun k => if k = 0 then A (fun k => if k = l then 1 else 0) else
        if k = n a - 1 + 1 then 0 else B (fun k => if k = l then 1 else 0) (k - 1))
      rw [group, Finset.sum_filter]
      refine Eq.trans (Finset.sum_congr rfl fun i _ => ?_) hl'
      rw [hw']
      have := hm _ (hlev i)
      have e2 : (∑ j ∈ Finset.range (n a - 1), entry cm.matrix (levelAt rows[i] a) j *
          B (fun k => if k = l then 1 else 0) j) = ∑ j ∈ Finset.range (n a - 1), entry cm.matrix (levelAt rows[i] a) j *
          (if j + 1 = 0 then A (fun k => if k = l then 1 else 0) else
            if j + 1 = n a - 1 + 1 then 0 else B (fun k => if k = l then 1 else 0) (j + 1 - 1)) := by
        refine Finset.sum_congr rfl fun j hj => ?_
        have : j ≠ n a - 1 := (Finset.mem_range.mp hj).ne
        simp [this]
      simp only [hμ]
      rw [← e2]
      simp only [if_true, Nat.add_eq_zero_iff, one_ne_zero, and_false, if_false, zero_mul, add_zero]
      rw [← this]
      split <;> simp
    · have h1 := h _ (weighted_mem_span fun k => if k = n a - 1 + 1 then 1 else 0)
      refine Eq.trans (Finset.sum_congr rfl fun i _ => ?_) h1
      rw [hw']
      have : μ (fun k => if k = n a - 1 + 1 then 1 else 0) (levelAt rows[i] a) = 0 := by
        simp only [hμ]
        rw [Finset.sum_eq_zero]
        · simp
        · intro j hj
          have : j ≠ n a - 1 := (Finset.mem_range.mp hj).ne
          simp [this]
      rw [this]
      simp
  · rintro ⟨h0, h1⟩ w hwm
    refine orthogonal_span (r := fun i => y i - (μ b (levelAt rows[i] a) + b (n a - 1 + 1) * xs i)) ?_ w hwm
    rintro _ ⟨j, rfl⟩
    rw [column_weighted]
    simp only [hw', mul_add, Finset.sum_add_distrib]
    rw [sum_groups hlev, Finset.sum_eq_zero fun l hl => by rw [h0 l (Finset.mem_range.mp hl), mul_zero], zero_add]
    have : ∀ c : K, ∑ i, (y i - (μ b (levelAt rows[i] a) + b (n a - 1 + 1) * xs i)) * (c * xs i) = 0 := by
      intro c
      have e3 : ∀ i : Fin rows.length, (y i - (μ b (levelAt rows[i] a) + b (n a - 1 + 1) * xs i)) * (c * xs i) =
          c * ((y i - (μ b (levelAt rows[i] a) + b (n a - 1 + 1) * xs i)) * xs i) := fun i => by ring
      rw [Finset.sum_congr rfl fun i _ => e3 i, ← Finset.mul_sum, h1, mul_zero]
    exact this _

section

variable {P : Setting F D K H} (hw : World P) (hcodes : CodesFit P) {isnan : K → Bool} {dataIndex : Option (List Label)}
  {data : D} {rt : ReturnType} {f : FormulaLike F D K} (hf : Sound data f) {m : ModelDesc F} (hm : modelOf f = some m)
  {t : Table F D K × Table F D K} (h : highLevelDesign P isnan dataIndex data rt f = .ok t)

include hw hcodes hf hm h

/-- **C83**, `1 + a + x` with a categorical factor all of whose levels occur and a numerical factor that is not constant in
all groups: the coefficient of `x` is the slope within the groups, and the other coefficients are what the contrast says about the group
means, corrected by the slope. -/
theorem parallel_coefficients {a x : F} (hrhs : m.rhs = [⟨[]⟩, ⟨[a]⟩, ⟨[x]⟩]) : ∃ eval types n, Learned P data m eval types ∧
    RowCount P.na types (fun f => eval f data) (allFactors [m.lhs, m.rhs]) dataIndex n ∧
    t.2.mat.nrows = (modelRows P isnan data m eval types n).length ∧ (WellCoded P types m.rhs →
      ∀ levels contrast, typeOf types a = some (.categorical levels contrast) → dictGet types.1 x = some 1 →
      (∀ l < levels.length, (group (modelRows P isnan data m eval types n) a l).Nonempty) → ∀ xs,
      (∀ i : Fin (modelRows P isnan data m eval types n).length, numberAt (modelRows P isnan data m eval types n)[i] x 0 = xs i) →
      (∃ i j : Fin (modelRows P isnan data m eval types n).length, levelAt (modelRows P isnan data m eval types n)[i] a =
        levelAt (modelRows P isnan data m eval types n)[j] a ∧ xs i ≠ xs j) →
      ∀ cm A B, codeContrastMatrix false levels (contrast.getD .none) P.default = .ok cm → IsReduced cm levels.length A B →
        t.2.mat.cols.length = levels.length - 1 + 2 ∧
        ∀ y b, Solves (modelRows P isnan data m eval types n).length t.2.mat.cols y b ↔
          b (levels.length - 1 + 1) = within (modelRows P isnan data m eval types n) a xs y /
            within (modelRows P isnan data m eval types n) a xs xs ∧
          b 0 = A (fun l => groupMean (modelRows P isnan data m eval types n) a y l -
            b (levels.length - 1 + 1) * groupMean (modelRows P isnan data m eval types n) a xs l) ∧
          ∀ j < levels.length - 1, b (j + 1) = B (fun l => groupMean (modelRows P isnan data m eval types n) a y l -
            b (levels.length - 1 + 1) * groupMean (modelRows P isnan data m eval types n) a xs l) j) := by
  obtain ⟨eval, types, infos, n, he, ht, hn, _, h2, hmade⟩ := formula_made hw hcodes hf hm (sound_nodup hf hm) h
  refine ⟨eval, types, n, ⟨he, ht⟩, hn, h2, ?_⟩
  intro hwell levels contrast hty hx hocc xs hxs hne cm A B hcm hred
  have hmm := hmade m.rhs t.2.info t.2.mat (by simp) hwell.1 hwell.2
  have key : ∀ ts, m.rhs = ts → MadeMatrix P.hash types.1 (levelCount types) (coderOf P.default types.2) infos ts t.2.info
      (modelRows P isnan data m eval types n) t.2.mat.cols := by
    rintro _ rfl
    exact hmm
  replace hmm := key _ hrhs
  obtain ⟨hd, hl, hco⟩ := coderOf_type (default := P.default) hty
  rw [← hl] at hocc hred
  rw [← hco] at hcm
  rw [← hl]
  exact ⟨(matrix_parallel hmm hd hx hcm).1.trans (by rw [hred.ncols]), fun y b => solves_parallel hmm hd hx hcm hred hocc hxs hne⟩

/-- **C83**, `1 + a + x` with the default contrast: lines with a common slope; the intercept is that of the first group, and the
coefficients of the other groups are the differences of their intercepts from it. -/
theorem parallel_treatment {readable : PyVal → String}
    (hdef : P.default = .coding (dummyCode readable) (treatment readable none)) {a x : F}
    (hrhs : m.rhs = [⟨[]⟩, ⟨[a]⟩, ⟨[x]⟩]) : ∃ eval types n, Learned P data m eval types ∧
    RowCount P.na types (fun f => eval f data) (allFactors [m.lhs, m.rhs]) dataIndex n ∧
    t.2.mat.nrows = (modelRows P isnan data m eval types n).length ∧ (WellCoded P types m.rhs →
      ∀ levels, typeOf types a = some (.categorical levels none) → levels ≠ [] → dictGet types.1 x = some 1 →
      (∀ l < levels.length, (group (modelRows P isnan data m eval types n) a l).Nonempty) → ∀ xs,
      (∀ i : Fin (modelRows P isnan data m eval types n).length, numberAt (modelRows P isnan data m eval types n)[i] x 0 = xs i) →
      (∃ i j : Fin (modelRows P isnan data m eval types n).length, levelAt (modelRows P isnan data m eval types n)[i] a =
        levelAt (modelRows P isnan data m eval types n)[j] a ∧ xs i ≠ xs j) →
        t.2.mat.cols.length = levels.length + 1 ∧
        ∀ y b s, ∀ ι : Nat → K, s = within (modelRows P isnan data m eval types n) a xs y / within (modelRows P isnan data m eval types n) a xs xs →
          (∀ l, ι l = groupMean (modelRows P isnan data m eval types n) a y l - s * groupMean (modelRows P isnan data m eval types n) a xs l) →
          (Solves (modelRows P isnan data m eval types n).length t.2.mat.cols y b ↔
            b levels.length = s ∧ b 0 = ι 0 ∧ ∀ j, 0 < j → j < levels.length → b j = ι j - ι 0)) := by
  obtain ⟨eval, types, n, hl, hn, h1, h2⟩ := parallel_coefficients hw hcodes hf hm h hrhs
  refine ⟨eval, types, n, hl, hn, h1, fun hwell levels hty hne hx hocc xs hxs hne' => ?_⟩
  have hpos : 0 < levels.length := List.length_pos_iff.mpr hne
  obtain ⟨cm, hcm, _, hred⟩ := treatment_meaning (K := K) readable (reference := none) (levels := levels) (r := 0) rfl hpos
  have hcm' : codeContrastMatrix false levels ((none : Option (Contrast.Spec K)).getD .none) P.default = .ok cm := by
    rw [hdef]; exact hcm
  obtain ⟨h3, h4⟩ := h2 hwell levels none hty hx hocc xs hxs hne' cm _ _ hcm' hred
  refine ⟨by omega, ?_⟩
  intro y b s ι hs hι
  have hlen : levels.length - 1 + 1 = levels.length := by omega
  rw [h4 y b, hlen, ← hs]
  refine and_congr_right fun hb => ?_
  rw [hb]
  simp only [← hι]
  refine and_congr_right fun _ => ⟨?_, ?_⟩
  · intro hb j hj hj'
    obtain ⟨j, rfl⟩ : ∃ i, j = i + 1 := ⟨j - 1, by omega⟩
    simpa [skip] using hb j (by omega)
  · intro hb j hj
    simpa [skip] using hb (j + 1) (by omega) (by omega)

end

section Text

open Patsy.Program Patsy.Tokens Patsy.EvalFactor Patsy.Passes

variable {V A S : Type} {I : Interp D V A S K H} (hI : Sane I) {isnan : K → Bool}
  {dataIndex : Option (List Build.Label)} {data : D} {rt : ReturnType} {fin : RawEnd} {raw : List PyTok}
  (hfine : FineText I fin raw) {m : ModelDesc String} (hm : I.fromFormula fin raw = .ok m) {t : Table String D K × Table String D K}
  (h : I.dmatrices isnan dataIndex data rt fin raw = .ok t)

include hI hfine hm h

/-- **C83** for text that means an intercept and two factors, one of which turns out to be categorical, with the default
contrast, and the other numerical, with one column. -/
theorem text_parallel {readable : PyVal → String}
    (hdef : I.default = .coding (dummyCode readable) (treatment readable none)) {a x : String}
    (hrhs : m.rhs = [⟨[]⟩, ⟨[a]⟩, ⟨[x]⟩]) :
    ∃ types n, StandsFor I dataIndex data fin raw m types n ∧
      t.2.mat.nrows = (Program.completeRows I isnan data m types n).length ∧
      ∀ levels, typeOf types a = some (.categorical levels none) → levels ≠ [] → dictGet types.1 x = some 1 →
        (∀ l < levels.length, (group (Program.completeRows I isnan data m types n) a l).Nonempty) → ∀ xs,
        (∀ i : Fin (Program.completeRows I isnan data m types n).length,
          numberAt (Program.completeRows I isnan data m types n)[i] x 0 = xs i) →
        (∃ i j : Fin (Program.completeRows I isnan data m types n).length,
          levelAt (Program.completeRows I isnan data m types n)[i] a = levelAt (Program.completeRows I isnan data m types n)[j] a ∧
            xs i ≠ xs j) →
        t.2.mat.cols.length = levels.length + 1 ∧
        ∀ y b s, ∀ ι : Nat → K, s = within (Program.completeRows I isnan data m types n) a xs y /
            within (Program.completeRows I isnan data m types n) a xs xs →
          (∀ l, ι l = groupMean (Program.completeRows I isnan data m types n) a y l -
            s * groupMean (Program.completeRows I isnan data m types n) a xs l) →
          (Solves (Program.completeRows I isnan data m types n).length t.2.mat.cols y b ↔
            b levels.length = s ∧ b 0 = ι 0 ∧ ∀ j, 0 < j → j < levels.length → b j = ι j - ι 0) :=
  text_carry hI hfine hm h (Q := fun types rows => ∀ levels, typeOf types a = some (.categorical levels none) → levels ≠ [] →
        dictGet types.1 x = some 1 → (∀ l < levels.length, (group rows a l).Nonempty) → ∀ xs : Fin rows.length → K,
        (∀ i : Fin rows.length, numberAt rows[i] x 0 = xs i) →
        (∃ i j : Fin rows.length, levelAt rows[i] a = levelAt rows[j] a ∧ xs i ≠ xs j) →
        t.2.mat.cols.length = levels.length + 1 ∧
        ∀ y b s, ∀ ι : Nat → K, s = within rows a xs y / within rows a xs xs →
          (∀ l, ι l = groupMean rows a y l - s * groupMean rows a xs l) →
          (Solves rows.length t.2.mat.cols y b ↔
            b levels.length = s ∧ b 0 = ι 0 ∧ ∀ j, 0 < j → j < levels.length → b j = ι j - ι 0))
    fun hs hh => by
      obtain ⟨eval, types, n, h1, h2, h3, h4⟩ := parallel_treatment (interp_world hI [data]) (interp_codes hI [data]) hs rfl hh
        (readable := readable) hdef hrhs
      refine ⟨eval, types, n, h1, h2, h3, fun levels hty hne hx => h4 ?_ levels hty hne hx⟩
      have hone := treatment_wellCoded hI hdef (chunks := [data]) (types := types) (ts := [⟨[a]⟩]) (by
        simp only [List.mem_cons, List.not_mem_nil, or_false]
        rintro t rfl f hf
        simp at hf; subst hf; exact ⟨levels, hne, hty⟩)
      refine ⟨?_, fun _ _ _ _ h => Redundancy.minusPiece_injective (hI.hash h)⟩
      intro t ht f hf
      rw [hrhs] at ht
      simp only [List.mem_cons, List.not_mem_nil, or_false] at ht
      rcases ht with rfl | rfl | rfl
      · simp at hf
      · exact hone.1 ⟨[a]⟩ (by simp) f hf
      · simp only [List.mem_cons, List.not_mem_nil, or_false] at hf
        subst hf
        intro levels' contrast hty'
        have := (coderOf_type (default := I.default) hty').1
        rw [hx] at this
        cases this

end Text

namespace ParallelSample

open BuilderSample HighSample FitSample CellSample

/-- `y ~ 1 + a + x`. -/
def parallel : ModelDesc String := ⟨[⟨["y"]⟩], [⟨[]⟩, ⟨["a"]⟩, ⟨["x"]⟩]⟩

def parallelTypes : Types String ℚ := ([("y", 1), ("x", 1)], [("a", [.str "u", .str "v", .str "w"], none)])

theorem learned_parallel : Learned setting' FitSample.rows parallel look' parallelTypes := ⟨rfl, rfl⟩

theorem parallel_ok : isOk (result parallel) = true := by decide +kernel

theorem rowCount_parallel : RowCount setting'.na parallelTypes (fun f => look' f FitSample.rows)
    (allFactors [parallel.lhs, parallel.rhs]) none 7 := by
  refine ⟨?_, fun h => absurd h (by decide)⟩
  intro f hf r
  have : f = "y" ∨ f = "a" ∨ f = "x" := by revert f; decide
  rcases this with rfl | rfl | rfl
  · have : factorCell setting'.na parallelTypes (fun f => look' f FitSample.rows) r "y" =
      [[1], [2], [4], [1], [5], [9], [3]][r]?.map .num := rfl
    rw [this]
    simp
  · have : factorCell setting'.na parallelTypes (fun f => look' f FitSample.rows) r "a" =
        [0, 0, 1, 1, 2, 2, 2][r]?.map .code := rfl
    rw [this]
    simp
  · have : factorCell setting'.na parallelTypes (fun f => look' f FitSample.rows) r "x" =
      [[1], [2], [4], [3], [99], [1], [7]][r]?.map .num := rfl
    rw [this]
    simp

theorem occur_parallel : ∀ l < [PyVal.str "u", .str "v", .str "w"].length,
    (group (modelRows setting' isnan FitSample.rows parallel look' parallelTypes 7) "a" l).Nonempty := by
  intro l hl
  have : l = 0 ∨ l = 1 ∨ l = 2 := by simp at hl; omega
  rcases this with rfl | rfl | rfl
  · exact ⟨(⟨0, by decide⟩ : Fin 6), Finset.mem_filter.mpr ⟨Finset.mem_univ _, rfl⟩⟩
  · exact ⟨(⟨2, by decide⟩ : Fin 6), Finset.mem_filter.mpr ⟨Finset.mem_univ _, rfl⟩⟩
  · exact ⟨(⟨4, by decide⟩ : Fin 6), Finset.mem_filter.mpr ⟨Finset.mem_univ _, rfl⟩⟩

def parallelCoefficients : Nat → ℚ
  | 0 => 105 / 38
  | 1 => 51 / 19
  | 2 => 251 / 38
  | _ => -16 / 19

/-- The intercepts of the three lines. -/
def intercepts (l : Nat) : ℚ :=
  groupMean (modelRows setting' isnan FitSample.rows parallel look' parallelTypes 7) "a" LineSample.outcomes l -
    -16 / 19 * groupMean (modelRows setting' isnan FitSample.rows parallel look' parallelTypes 7) "a" LineSample.regressor l

end ParallelSample

open ParallelSample LineSample FitSample HighSample BuilderSample in
/-- Example for `parallel_treatment`: `y ~ 1 + a + x` with seven rows, in one of which `x` is missing. -/
example : ∃ t, result parallel = .ok t ∧ t.1.mat.cols = [[1, 2, 4, 1, 9, 3]] ∧
    Solves 6 t.2.mat.cols outcomes parallelCoefficients := by
  refine ⟨_, getOk_eq parallel_ok, by decide +kernel, ?_⟩
  obtain ⟨eval, ty, n, hl, hn, _, h2⟩ := parallel_treatment world codesFit (sound parallel (by decide)) rfl
    (getOk_eq parallel_ok) (readable := BuilderSample.readable) rfl (a := "a") (x := "x") rfl
  obtain rfl := learned_unique learned_parallel _ _ hl
  obtain ⟨h3, h4⟩ := hl
  cases h3
  obtain rfl := rowCount_unique (fun _ => Iff.rfl) (fun _ => rfl) rowCount_parallel hn
  have hx : ∀ i : Fin 6, numberAt ((modelRows setting' isnan FitSample.rows parallel look' parallelTypes 7)[i]'i.2) "x" 0 = regressor i := by
    decide +kernel
  obtain ⟨_, h5⟩ := h2 (wellCoded (by decide) rfl _) [.str "u", .str "v", .str "w"] rfl (by simp) rfl occur_parallel regressor hx
    ⟨(⟨0, by decide⟩ : Fin 6), (⟨1, by decide⟩ : Fin 6), rfl, by decide +kernel⟩
  refine (h5 outcomes parallelCoefficients (-16 / 19) intercepts (by decide +kernel) fun l => rfl).mpr
    ⟨rfl, by decide +kernel, ?_⟩
  intro j hj hj'
  have : j = 1 ∨ j = 2 := by simp at hj'; omega
  rcases this with rfl | rfl <;> decide +kernel

namespace ParallelText

open FitSample2 Patsy.Program Patsy.Tokens

/-- Positive numbers are seen as categories, others as numbers. -/
def see (c : Col) : Seen ℚ := if c.all fun r => 0 < r () then CoefSample.see c else FitSample2.see c

def interp : Interp Col Col (Unit × Col) (State.Center Unit ℚ) ℚ (Redundancy.Subterm String) := { ProgramSample.interp with see := see }

theorem sane : Sane interp where
  names _ := .refl _
  factors _ _ _ := .refl _
  visits l := l.reverse_perm
  order _ := .refl _
  hash _ _ h := h
  fits v := by
    show SeenFits (see v)
    unfold see
    split
    · exact CoefSample.sane.fits v
    · exact ProgramSample.real.fits v
  codes v := by
    show ∀ cats codes, (see v).value = _ → _
    unfold see
    split
    · exact CoefSample.sane.codes v
    · exact ProgramSample.real.codes v

/-- The raw tokens of `x ~ x + center(x)`. -/
def raw : List PyTok := [exPy .name "x" 0, exPy .op "~" 1, exPy .name "x" 2, exPy .op "+" 3, exPy .name "center" 4, exPy .op "(" 5,
  exPy .name "x" 6, exPy .op ")" 7, exPy .newline "" 11, exPy .endmarker "" 12]

theorem fine : FineText interp .exhausted raw :=
  ProgramSample.fine_body _ rfl rfl (body := raw.take 8) rfl (by decide) (by unfold ProgramSample.AllExpressions; decide +kernel)

def rows : Col := colOf [3 / 2, 1 / 2, 5 / 2, 7 / 2]

theorem ok : isOk (interp.dmatrices FitSample.isnan none rows .matrix .exhausted raw) = true := by decide +kernel

end ParallelText

open ParallelText Patsy.Program in
/-- Example for `text_parallel`: `x ~ x + center(x)`, where `x` is categorical and `center(x)` is numerical. -/
example : Sane interp ∧ FineText interp .exhausted raw ∧
    interp.fromFormula .exhausted raw = .ok ⟨[⟨["x"]⟩], [⟨[]⟩, ⟨["x"]⟩, ⟨["center(x)"]⟩]⟩ ∧
    interp.default = .coding (dummyCode BuilderSample.readable) (treatment BuilderSample.readable none) ∧
    ∃ t, interp.dmatrices FitSample.isnan none ParallelText.rows .matrix .exhausted raw = .ok t ∧
      t.2.mat = ⟨4, [[1, 1, 1, 1], [0, 0, 1, 1], [-1 / 2, -3 / 2, 1 / 2, 3 / 2]]⟩ :=
  ⟨sane, fine, eq_ok_of_okIs (by decide +kernel), rfl, getOk _ ParallelText.ok, getOk_eq _, by decide +kernel⟩

end Patsy.Props
