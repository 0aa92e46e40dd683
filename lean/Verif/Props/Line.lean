import Verif.Props.CellMeans
import Verif.Spec.Line

/-!
# Property C83: the coefficients of `y ~ x` with a numerical factor
-/

set_option linter.unusedSectionVars false

namespace Patsy.Props

open Patsy.Build Patsy.Desc Patsy.Cat Patsy.Spec Patsy.Contrast Patsy.Redundancy Patsy.Rank

variable {F D K H : Type} [DecidableEq F] [Field K] [LinearOrder K] [IsStrictOrderedRing K] [DecidableEq H]

theorem infos_line {hash : Subterm F → H} {nums : List (F × Nat)} {coder : F → Bool → Except Err (ContrastMatrix K)}
    {x : F} {k : Nat} (hx : dictGet nums x = some k) :
    makeSubtermInfos hash nums coder [⟨[]⟩, ⟨[x]⟩] = .ok [(⟨[]⟩, [⟨[], [], 1⟩]), (⟨[x]⟩, [⟨[x], [], k⟩])] := by
  have hn : isNumeric nums x = true := by simp [isNumeric, hx]
  have hb : buckets nums [⟨[]⟩, ⟨[x]⟩] = ([∅, {x}], [(∅, [⟨[]⟩]), ({x}, [⟨[x]⟩])]) := by
    simp [buckets, bucketStep, bucketOf, hn, dictGet, dictSet]
  have ho : moveEmptyFirst [(∅ : Finset F), {x}] [(∅, [⟨[]⟩]), ({x}, [⟨[x]⟩])] = [∅, {x}] := by simp [moveEmptyFirst, dictGet]
  have hg : (dictGet [((∅ : Finset F), [(⟨[]⟩ : Term F)]), ({x}, [⟨[x]⟩])] ∅).getD [] = [⟨[]⟩] := by simp [dictGet]
  have hg' : (dictGet [((∅ : Finset F), [(⟨[]⟩ : Term F)]), ({x}, [⟨[x]⟩])] {x}).getD [] = [⟨[x]⟩] := by simp [dictGet]
  have hs : sortByDegree [(⟨[]⟩ : Term F)] = [⟨[]⟩] := by simp [sortByDegree]
  have hs' : sortByDegree [(⟨[x]⟩ : Term F)] = [⟨[x]⟩] := by simp [sortByDegree]
  have h1 : makeSubterm nums coder ⟨[]⟩ ∅ = .ok ⟨[], [], 1⟩ := by
    simp [makeSubterm, subtermLoop, SubtermInfo.make, bind, Except.bind]
  have h2 : makeSubterm nums coder ⟨[x]⟩ ∅ = .ok ⟨[x], [], k⟩ := by
    simp [makeSubterm, subtermLoop, SubtermInfo.make, bind, Except.bind, hx]
  have hp : pickContrasts hash (isNumeric nums) [x] [] = .ok ([∅], [hash ∅]) := by
    have := pick_intercept hash (isNumeric nums)
    simp only [pickContrasts, List.filter_nil] at this
    have hf : [x].filter (fun f => !isNumeric nums f) = [] := by simp [hn]
    simp only [pickContrasts, hf]
    exact this
  have hc : codeBucket hash nums coder [⟨[]⟩] [] = .ok [(⟨[]⟩, [⟨[], [], 1⟩])] := by
    simp [codeBucket, pick_intercept, h1, bind, Except.bind, pure, Except.pure]
  have hc' : codeBucket hash nums coder [⟨[x]⟩] [] = .ok [(⟨[x]⟩, [⟨[x], [], k⟩])] := by
    simp [codeBucket, hp, h2, bind, Except.bind, pure, Except.pure]
  simp only [makeSubtermInfos, hb, ho, hg, hg', hs, hs', hc, hc', List.mapM_cons, List.mapM_nil, List.flatMap_cons, List.flatMap_nil]
  simp [bind, Except.bind, pure, Except.pure, dictOf, dictSet, sameTerms, Term.eqv]

/-- A column of a numerical factor. -/
theorem number_column {fis : List (F × FactorInfo F D K)} {ts : List (Term F × List (SubtermInfo F K))} {x : F} {k : Nat}
    (hc : checkSubterm fis ⟨[x], [], k⟩ = .ok ()) {cells : F → Option (Cell K)}
    {j : Nat} {y : K} (h : columnEntry ⟨fis, ts⟩ cells (⟨[x], [], k⟩, [j]) = some y) : y = numberAt cells x j := by
  have hg := (checkSubterm_good hc).1
  have := prodFrom_value (fs := [x]) (J := fun _ => j) hg (by simp) h
  simpa [valueAt, dictGet] using this

/-- The matrix for an intercept and one numerical factor with one column: the constant and the factor. -/
theorem matrix_line {hash : Subterm F → H} {nums : List (F × Nat)} {n : F → Nat}
    {coder : F → Bool → Except Err (ContrastMatrix K)} {fis : List (F × FactorInfo F D K)} {x : F} {d : DesignInfo F D K}
    {rows : List (F → Option (Cell K))} {cols : List (List K)}
    (h : MadeMatrix hash nums n coder fis [⟨[]⟩, ⟨[x]⟩] d rows cols) (hx : dictGet nums x = some 1) :
    cols.length = 2 ∧ ∀ (b : Nat → K) i, weighted rows.length cols b i = b 0 + b 1 * numberAt rows[i] x 0 := by
  obtain ⟨name, h1⟩ := h.made
  obtain ⟨c, h2, h3⟩ := h.matrix
  have hm := madeCoding h1 h2
  have hi := hm.infos
  rw [infos_line hx] at hi
  obtain ⟨fis', infos⟩ := c
  cases hi
  have hcheck := hm.checked (⟨[x]⟩, [⟨[x], [], 1⟩]) (by simp) ⟨[x], [], 1⟩ (by simp)
  have hwidth : widthOf fis' [] x = 1 := by
    simpa [widths] using (checkSubterm_good hcheck).2.1
  have hcols : columnsOf (⟨fis', [(⟨[]⟩, [⟨[], [], 1⟩]), (⟨[x]⟩, [⟨[x], [], 1⟩])]⟩ : Coding F D K) =
      [(⟨[], [], 1⟩, []), (⟨[x], [], 1⟩, [0])] := by
    simp [columnsOf, List.flatMap_cons, List.flatMap_nil, List.append_nil, widths, List.map_nil, List.map_cons, digits, hwidth]
  have hlen : cols.length = 2 := by
    have := h3.length_eq
    rw [hcols] at this
    simpa using this.symm
  refine ⟨hlen, fun b i => ?_⟩
  have hval : ∀ (j : Nat) (hj : j < cols.length), (cols[j][i.1]?.getD 0) = if j = 0 then 1 else numberAt rows[i] x 0 := by
    intro j hj
    have hj2 : j < 2 := by omega
    interval_cases j
    · have := isMatrix_entry h3 (j := 0) hj (by rw [hcols]; rfl) i.2
      simpa [columnEntry, prodFrom] using this.symm
    · have := isMatrix_entry h3 (j := 1) hj (by rw [hcols]; rfl) i.2
      simpa using number_column hcheck this
  have : weighted rows.length cols b i = ∑ j : Fin cols.length, b j * if j.1 = 0 then 1 else numberAt rows[i] x 0 := by
    unfold weighted columnVectors
    refine Finset.sum_congr rfl fun j _ => ?_
    have := hval j.1 j.2
    simp only [Fin.getElem_fin, Fin.getElem?_fin] at this ⊢
    rw [this]
  refine this.trans ((Fin.sum_univ_eq_sum_range (fun j => b j * if j = 0 then 1 else numberAt rows[i] x 0) _).trans ?_)
  rw [hlen]
  simp [Finset.sum_range_succ]

theorem sum_deviation {n : Nat} (hn : n ≠ 0) (x : Fin n → K) : ∑ i, (x i - average x) = 0 := by
  have : (n : K) ≠ 0 := by exact_mod_cast hn
  simp only [Finset.sum_sub_distrib, Finset.sum_const, Finset.card_univ, Fintype.card_fin, nsmul_eq_mul, average]
  field_simp
  ring

/-- The two normal equations of a line, solved. -/
theorem line_solution {n : Nat} {x y : Fin n → K} (hx : ∃ i j, x i ≠ x j) {b0 b1 : K} :
    (∑ i, (y i - (b0 + b1 * x i)) = 0 ∧ ∑ i, (y i - (b0 + b1 * x i)) * x i = 0) ↔
      b1 = deviations x y / deviations x x ∧ b0 = average y - b1 * average x := by
  have hn : n ≠ 0 := by
    rintro rfl
    obtain ⟨i, _⟩ := hx
    exact i.elim0
  have hn' : (n : K) ≠ 0 := by exact_mod_cast hn
  have hs : deviations x x ≠ 0 := by
    intro h0
    have := (Finset.sum_eq_zero_iff_of_nonneg fun i _ => mul_self_nonneg (x i - average x)).mp h0
    obtain ⟨i, j, hij⟩ := hx
    apply hij
    have h1 := mul_self_eq_zero.mp (this i (by simp))
    have h2 := mul_self_eq_zero.mp (this j (by simp))
    linarith
  have h1 : ∑ i, (y i - (b0 + b1 * x i)) = n * (average y - b0 - b1 * average x) := by
    simp only [Finset.sum_sub_distrib, Finset.sum_add_distrib, Finset.sum_const, Finset.card_univ, Fintype.card_fin, nsmul_eq_mul,
      ← Finset.mul_sum, average]
    field_simp
    ring
  have h2 : ∑ i, (y i - (b0 + b1 * x i)) * x i =
      deviations x y - b1 * deviations x x + average x * ∑ i, (y i - (b0 + b1 * x i)) := by
    have hy := sum_deviation hn x
    have e : ∀ i, (y i - (b0 + b1 * x i)) * x i = (x i - average x) * (y i - average y) - b1 * ((x i - average x) * (x i - average x)) +
        average x * (y i - (b0 + b1 * x i)) + (average y - b0 - b1 * average x) * (x i - average x) := by
      intro i; ring
    rw [Finset.sum_congr rfl fun i _ => e i]
    simp only [Finset.sum_add_distrib, Finset.sum_sub_distrib, ← Finset.mul_sum] at hy ⊢
    rw [hy]
    simp only [deviations]
    ring
  rw [h2, h1]
  constructor
  · rintro ⟨e1, e2⟩
    rw [e1] at e2
    have e1 := (mul_eq_zero.mp e1).resolve_left hn'
    refine ⟨?_, by linear_combination -e1⟩
    rw [eq_div_iff hs]
    linear_combination -e2
  · rintro ⟨e1, e2⟩
    rw [eq_div_iff hs] at e1
    have : average y - b0 - b1 * average x = 0 := by rw [e2]; ring
    rw [this]
    exact ⟨by ring, by rw [e1]; ring⟩

/-- Least squares with an intercept and one numerical factor. -/
theorem solves_line {hash : Subterm F → H} {nums : List (F × Nat)} {n : F → Nat}
    {coder : F → Bool → Except Err (ContrastMatrix K)} {fis : List (F × FactorInfo F D K)} {x : F} {d : DesignInfo F D K}
    {rows : List (F → Option (Cell K))} {cols : List (List K)}
    (h : MadeMatrix hash nums n coder fis [⟨[]⟩, ⟨[x]⟩] d rows cols) (hx : dictGet nums x = some 1)
    (hne : ∃ i j : Fin rows.length, numberAt rows[i] x 0 ≠ numberAt rows[j] x 0) {y : Fin rows.length → K} {b : Nat → K} :
    Solves rows.length cols y b ↔
      b 1 = deviations (fun i : Fin rows.length => numberAt rows[i] x 0) y /
        deviations (fun i : Fin rows.length => numberAt rows[i] x 0) (fun i => numberAt rows[i] x 0) ∧
      b 0 = average y - b 1 * average fun i : Fin rows.length => numberAt rows[i] x 0 := by
  obtain ⟨hlen, hw⟩ := matrix_line h hx
  rw [← line_solution hne, Solves, normal_equations]
  have hmem : ∀ b : Nat → K, weighted rows.length cols b ∈ Submodule.span K (Set.range (columnVectors rows.length cols)) := by
    intro b
    have : weighted rows.length cols b = ∑ j : Fin cols.length, b j • columnVectors rows.length cols j := by
      funext i
      simp [weighted, Finset.sum_apply]
    rw [this]
    exact Submodule.sum_mem _ fun j _ => Submodule.smul_mem _ _ (Submodule.subset_span ⟨j, rfl⟩)
  have hcol : ∀ j : Fin cols.length, columnVectors rows.length cols j = weighted rows.length cols fun k => if k = j.1 then 1 else 0 := by
    intro j
    funext i
    simp [weighted, Fin.val_inj]
  simp only [hmem, true_and]
  constructor
  · intro h
    have h0 := h _ (hmem fun k => if k = 0 then 1 else 0)
    have h1 := h _ (hmem fun k => if k = 1 then 1 else 0)
    simp only [hw] at h0 h1
    constructor
    · simpa using h0
    · simpa using h1
  · rintro ⟨h0, h1⟩
    refine fun w hw' => orthogonal_span (r := fun i => y i - weighted rows.length cols b i) ?_ w hw'
    rintro _ ⟨j, rfl⟩
    rw [hcol]
    simp only [hw]
    rcases (show j.1 = 0 ∨ j.1 = 1 by omega) with e | e
    · simpa [e] using h0
    · simpa [e] using h1

section

variable {P : Setting F D K H} (hw : World P) (hcodes : CodesFit P) {isnan : K → Bool} {dataIndex : Option (List Label)}
  {data : D} {rt : ReturnType} {f : FormulaLike F D K} (hf : Sound data f) {m : ModelDesc F} (hm : modelOf f = some m)
  {t : Table F D K × Table F D K} (h : highLevelDesign P isnan dataIndex data rt f = .ok t)

include hw hcodes hf hm h

/-- **C83**, `1 + x` with a numerical factor that is not constant: the coefficient of `x` is the sum of the products of the
deviations of `x` and `y` from their means, divided by that of the squares of the deviations of `x`; the line goes through the point of the means. -/
theorem line_coefficients {x : F} (hrhs : m.rhs = [⟨[]⟩, ⟨[x]⟩]) : ∃ eval types n, Learned P data m eval types ∧
    RowCount P.na types (fun f => eval f data) (allFactors [m.lhs, m.rhs]) dataIndex n ∧
    t.2.mat.nrows = (modelRows P isnan data m eval types n).length ∧ (dictGet types.1 x = some 1 → ∀ xs,
      (∀ i : Fin (modelRows P isnan data m eval types n).length, numberAt (modelRows P isnan data m eval types n)[i] x 0 = xs i) →
      (∃ i j, xs i ≠ xs j) →
        t.2.mat.cols.length = 2 ∧
        ∀ y b, Solves (modelRows P isnan data m eval types n).length t.2.mat.cols y b ↔
          b 1 = deviations xs y / deviations xs xs ∧ b 0 = average y - b 1 * average xs) := by
  obtain ⟨eval, types, infos, n, he, ht, hn, _, h2, hmade⟩ := formula_made hw hcodes hf hm (sound_nodup hf hm) h
  refine ⟨eval, types, n, ⟨he, ht⟩, hn, h2, ?_⟩
  intro hty xs hxs hne
  obtain rfl : xs = _ := (funext hxs).symm
  have hwell : WellCoded P types m.rhs := by
    constructor
    · intro t ht f hf levels contrast hty'
      rw [hrhs] at ht
      simp only [List.mem_cons, List.not_mem_nil, or_false] at ht
      rcases ht with rfl | rfl
      · simp at hf
      · simp only [List.mem_cons, List.not_mem_nil, or_false] at hf
        subst hf
        have := (coderOf_type (default := P.default) hty').1
        rw [hty] at this
        cases this
    · have hS : ∀ S : Finset F, (∃ t ∈ m.rhs.map (·.factors), Contains (catPart (fun f => (dictGet types.1 f).isSome) t) S) → S = ∅ := by
        rintro S ⟨t, ht, hc⟩
        rw [hrhs] at ht
        simp only [List.map_cons, List.map_nil, List.mem_cons, List.not_mem_nil, or_false] at ht
        refine Finset.eq_empty_of_forall_notMem fun f hf => ?_
        rcases ht with rfl | rfl
        · simpa [catPart] using hc f hf
        · simpa [catPart, hty] using hc f hf
      intro S T h1 h2 _
      rw [hS S h1, hS T h2]
  have hmm := hmade m.rhs t.2.info t.2.mat (by simp) hwell.1 hwell.2
  have key : ∀ ts, m.rhs = ts → MadeMatrix P.hash types.1 (levelCount types) (coderOf P.default types.2) infos ts t.2.info
      (modelRows P isnan data m eval types n) t.2.mat.cols := by
    rintro _ rfl
    exact hmm
  replace hmm := key _ hrhs
  exact ⟨(matrix_line hmm hty).1, fun y b => solves_line hmm hty hne⟩

end

namespace LineSample

open BuilderSample HighSample FitSample

/-- `y ~ 1 + x`. -/
def line : ModelDesc String := ⟨[⟨["y"]⟩], [⟨[]⟩, ⟨["x"]⟩]⟩

def lineTypes : Types String ℚ := ([("y", 1), ("x", 1)], [])

theorem learned_line : Learned setting' FitSample.rows line look' lineTypes := ⟨rfl, rfl⟩

theorem line_ok : isOk (result line) = true := by decide +kernel

theorem rowCount_line : RowCount setting'.na lineTypes (fun f => look' f FitSample.rows) (allFactors [line.lhs, line.rhs]) none 7 := by
  refine ⟨?_, fun h => absurd h (by decide)⟩
  intro f hf r
  have : f = "y" ∨ f = "x" := by revert f; decide
  rcases this with rfl | rfl
  · have : factorCell setting'.na lineTypes (fun f => look' f FitSample.rows) r "y" =
      [[1], [2], [4], [1], [5], [9], [3]][r]?.map .num := rfl
    rw [this]
    simp
  · have : factorCell setting'.na lineTypes (fun f => look' f FitSample.rows) r "x" =
      [[1], [2], [4], [3], [99], [1], [7]][r]?.map .num := rfl
    rw [this]
    simp

def regressor : Fin 6 → ℚ := ![1, 2, 4, 3, 1, 7]

def outcomes : Fin 6 → ℚ := ![1, 2, 4, 1, 9, 3]

def lineCoefficients : Nat → ℚ
  | 0 => 157 / 39
  | _ => -3 / 13

end LineSample

open LineSample FitSample HighSample BuilderSample in
/-- Example for `line_coefficients`: `y ~ 1 + x` with seven rows, in one of which `x` is missing. -/
example : ∃ t, result line = .ok t ∧ t.1.mat.cols = [[1, 2, 4, 1, 9, 3]] ∧
    Solves 6 t.2.mat.cols outcomes lineCoefficients := by
  refine ⟨_, getOk_eq line_ok, by decide +kernel, ?_⟩
  obtain ⟨eval, ty, n, hl, hn, _, h2⟩ := line_coefficients world codesFit (sound line (by decide)) rfl
    (getOk_eq line_ok) (x := "x") rfl
  obtain rfl := learned_unique learned_line _ _ hl
  obtain ⟨h3, h4⟩ := hl
  cases h3
  obtain rfl := rowCount_unique (fun _ => Iff.rfl) (fun _ => rfl) rowCount_line hn
  have hx : ∀ i : Fin 6, numberAt ((modelRows setting' isnan FitSample.rows line look' lineTypes 7)[i]'i.2) "x" 0 = regressor i := by
    decide +kernel
  obtain ⟨_, h5⟩ := h2 rfl regressor hx ⟨(⟨0, by decide⟩ : Fin 6), (⟨1, by decide⟩ : Fin 6), by decide +kernel⟩
  exact (h5 outcomes lineCoefficients).mpr ⟨by decide +kernel, by decide +kernel⟩

end Patsy.Props
