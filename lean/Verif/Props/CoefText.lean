import Verif.Props.CellText
import Verif.Props.Line
import Verif.Props.Crossed

/-!
# C83 for formulas given as text: coefficients
-/

set_option linter.unusedSectionVars false

namespace Patsy.Props

open Patsy.Build Patsy.Desc Patsy.Cat Patsy.Spec Patsy.Contrast Patsy.Program Patsy.Tokens Patsy.EvalFactor Patsy.Passes

variable {D V A S K H : Type} [Field K] [LinearOrder K] [IsStrictOrderedRing K] [DecidableEq H]

/-- What has been proved about a model, for the text of a formula. -/
theorem text_carry {I : Interp D V A S K H} (hI : Sane I) {isnan : K → Bool}
    {dataIndex : Option (List Build.Label)} {data : D} {rt : ReturnType} {fin : RawEnd} {raw : List PyTok}
    (hfine : FineText I fin raw) {m : ModelDesc String} (hm : I.fromFormula fin raw = .ok m) {t : Table String D K × Table String D K}
    (h : I.dmatrices isnan dataIndex data rt fin raw = .ok t)
    {Q : Types String K → List (String → Option (Cell K)) → Prop}
    (hQ : Sound (K := K) data (.text (.ok m)) → highLevelDesign (I.setting [data]) isnan dataIndex data rt (.text (.ok m)) = .ok t →
      ∃ eval types n, Learned (I.setting [data]) data m eval types ∧
        RowCount (I.setting [data]).na types (fun f => eval f data) (allFactors [m.lhs, m.rhs]) dataIndex n ∧
        t.2.mat.nrows = (modelRows (I.setting [data]) isnan data m eval types n).length ∧
        Q types (modelRows (I.setting [data]) isnan data m eval types n)) :
    ∃ types n, StandsFor I dataIndex data fin raw m types n ∧
      t.2.mat.nrows = (Program.completeRows I isnan data m types n).length ∧ Q types (Program.completeRows I isnan data m types n) := by
  simp only [Interp.dmatrices, Build.dmatrices, Desc.bind_ok] at h
  obtain ⟨t', h1, h2⟩ := h
  split at h2 <;> cases h2
  rw [hm] at h1
  obtain ⟨hmean, hnorm, hcode⟩ := fromFormula_ok hfine hm
  have hsound : Sound (K := K) data (.text (.ok m)) := by
    intro m' hm' t ht
    cases hm'
    rcases List.mem_append.mp ht with ht | ht
    · exact hnorm.1.nodup t ht
    · exact hnorm.2.nodup t ht
  obtain ⟨eval, types, n, hl, hrows, hn, hq⟩ := hQ hsound h1
  have hgood : GoodCode I.stateful I.code (I.visit (allFactors [m.lhs, m.rhs])) fun f => (readTokens (I.code f)).getD .nil :=
    fine_good hfine fun f hf => hcode f ((hI.visits _).mem_iff.mp hf)
  have hcell := interp_cell hI hgood hl
  have hkept : modelRows (I.setting [data]) isnan data m eval types n = Program.completeRows I isnan data m types n := by
    unfold modelRows Program.completeRows keptCells
    rw [← hcell]
    rfl
  have hrows' : RowCount I.na types (I.value data) (allFactors [m.lhs, m.rhs]) dataIndex n := by
    unfold RowCount at hrows ⊢
    rw [← hcell]
    exact hrows
  rw [hkept] at hn hq
  exact ⟨types, n, ⟨hmean, hnorm, hcode, interp_typed hI hgood hl, hrows'⟩, hn, hq⟩

theorem treatment_wellCoded {I : Interp D V A S K H} (hI : Sane I) {readable : PyVal → String}
    (hdef : I.default = .coding (dummyCode readable) (treatment readable none)) {chunks : List D} {types : Types String K}
    {ts : List (Term String)} (h : ∀ t ∈ ts, ∀ f ∈ t.factors, ∃ levels, levels ≠ [] ∧ typeOf types f = some (.categorical levels none)) :
    WellCoded (I.setting chunks) types ts := by
  refine ⟨?_, fun _ _ _ _ h => Redundancy.minusPiece_injective (hI.hash h)⟩
  intro t ht f hf levels contrast hty
  obtain ⟨levels', hne, hty'⟩ := h t ht f hf
  rw [hty'] at hty
  cases hty
  have := (builtin_good (K := K) (default := .none) (levels := levels) hne
      (.treatment (readable := readable) (reference := none) (r := 0) rfl (List.length_pos_iff.mpr hne))).2.2.1
  show GoodContrast I.default levels _
  rw [hdef]
  exact this

section

variable {I : Interp D V A S K H} (hI : Sane I) {isnan : K → Bool}
  {dataIndex : Option (List Build.Label)} {data : D} {rt : ReturnType} {fin : RawEnd} {raw : List PyTok}
  (hfine : FineText I fin raw) {m : ModelDesc String} (hm : I.fromFormula fin raw = .ok m) {t : Table String D K × Table String D K}
  (h : I.dmatrices isnan dataIndex data rt fin raw = .ok t)

include hI hfine hm h

/-- **C83** for text that means an intercept and one factor, which turns out to be numerical, with one column. -/
theorem text_line {x : String} (hrhs : m.rhs = [⟨[]⟩, ⟨[x]⟩]) :
    ∃ types n, StandsFor I dataIndex data fin raw m types n ∧
      t.2.mat.nrows = (Program.completeRows I isnan data m types n).length ∧ (dictGet types.1 x = some 1 → ∀ xs,
        (∀ i : Fin (Program.completeRows I isnan data m types n).length,
          numberAt (Program.completeRows I isnan data m types n)[i] x 0 = xs i) → (∃ i j, xs i ≠ xs j) →
        t.2.mat.cols.length = 2 ∧
        ∀ y b, Solves (Program.completeRows I isnan data m types n).length t.2.mat.cols y b ↔
          b 1 = deviations xs y / deviations xs xs ∧ b 0 = average y - b 1 * average xs) :=
  text_carry hI hfine hm h (Q := fun types rows => dictGet types.1 x = some 1 → ∀ xs,
    (∀ i : Fin rows.length, numberAt rows[i] x 0 = xs i) → (∃ i j, xs i ≠ xs j) → t.2.mat.cols.length = 2 ∧
      ∀ y b, Solves rows.length t.2.mat.cols y b ↔ b 1 = deviations xs y / deviations xs xs ∧ b 0 = average y - b 1 * average xs)
    fun hs hh => line_coefficients (interp_world hI [data]) (interp_codes hI [data]) hs rfl hh hrhs

/-- **C83** for text that means an intercept and one factor, which turns out to be categorical, with the default contrast. -/
theorem text_treatment {readable : PyVal → String}
    (hdef : I.default = .coding (dummyCode readable) (treatment readable none)) {a : String} (hrhs : m.rhs = [⟨[]⟩, ⟨[a]⟩]) :
    ∃ types n, StandsFor I dataIndex data fin raw m types n ∧
      t.2.mat.nrows = (Program.completeRows I isnan data m types n).length ∧
      ∀ levels, typeOf types a = some (.categorical levels none) → levels ≠ [] →
        (∀ l < levels.length, (group (Program.completeRows I isnan data m types n) a l).Nonempty) →
        t.2.mat.cols.length = levels.length ∧
        ∀ y b μ, μ = groupMean (Program.completeRows I isnan data m types n) a y →
        (Solves (Program.completeRows I isnan data m types n).length t.2.mat.cols y b ↔
          b 0 = μ 0 ∧ ∀ j, 0 < j → j < levels.length → b j = μ j - μ 0) :=
  text_carry hI hfine hm h (Q := fun types rows => ∀ levels, typeOf types a = some (.categorical levels none) → levels ≠ [] →
      (∀ l < levels.length, (group rows a l).Nonempty) → t.2.mat.cols.length = levels.length ∧
      ∀ y b μ, μ = groupMean rows a y → (Solves rows.length t.2.mat.cols y b ↔
        b 0 = μ 0 ∧ ∀ j, 0 < j → j < levels.length → b j = μ j - μ 0))
    fun hs hh => by
      obtain ⟨eval, types, n, h1, h2, h3, h4⟩ := treatment_coefficients (interp_world hI [data]) (interp_codes hI [data]) hs rfl hh
        (readable := readable) hdef hrhs
      refine ⟨eval, types, n, h1, h2, h3, fun levels hty hne hocc => ?_⟩
      obtain ⟨h5, h6⟩ := h4 (treatment_wellCoded hI hdef (by
        rw [hrhs]; simp only [List.mem_cons, List.not_mem_nil, or_false]
        rintro t (rfl | rfl) f hf
        · simp at hf
        · simp at hf; subst hf; exact ⟨levels, hne, hty⟩)) levels hty hne hocc
      refine ⟨h5, ?_⟩
      rintro y b _ rfl
      exact h6 y b

/-- **C83** for text that means an intercept, two factors and their interaction, if the factors turn out to be categorical, with
the default contrasts. -/
theorem text_crossed {readable : PyVal → String}
    (hdef : I.default = .coding (dummyCode readable) (treatment readable none)) {a b : String}
    (hrhs : m.rhs = [⟨[]⟩, ⟨[a]⟩, ⟨[b]⟩, ⟨[a, b]⟩]) (hab : a ≠ b) :
    ∃ types n, StandsFor I dataIndex data fin raw m types n ∧
      t.2.mat.nrows = (Program.completeRows I isnan data m types n).length ∧
      ∀ levels levels', typeOf types a = some (.categorical levels none) → levels ≠ [] →
        typeOf types b = some (.categorical levels' none) → levels' ≠ [] →
        (∀ l < levels.length, ∀ k < levels'.length, (group2 (Program.completeRows I isnan data m types n) a b l k).Nonempty) →
        t.2.mat.cols.length = levels.length * levels'.length ∧
        ∀ y c μ, μ = groupMean2 (Program.completeRows I isnan data m types n) a b y →
        (Solves (Program.completeRows I isnan data m types n).length t.2.mat.cols y c ↔
          c 0 = μ 0 0 ∧
          (∀ i < levels.length - 1, c (1 + i) = μ (i + 1) 0 - μ 0 0) ∧
          (∀ j < levels'.length - 1, c (1 + (levels.length - 1) + j) = μ 0 (j + 1) - μ 0 0) ∧
          ∀ i < levels.length - 1, ∀ j < levels'.length - 1,
            c (1 + (levels.length - 1) + (levels'.length - 1) + (i + (levels.length - 1) * j)) =
              (μ (i + 1) (j + 1) - μ 0 (j + 1)) - (μ (i + 1) 0 - μ 0 0)) :=
  text_carry hI hfine hm h (Q := fun types rows => ∀ levels levels', typeOf types a = some (.categorical levels none) → levels ≠ [] →
        typeOf types b = some (.categorical levels' none) → levels' ≠ [] →
        (∀ l < levels.length, ∀ k < levels'.length, (group2 rows a b l k).Nonempty) →
        t.2.mat.cols.length = levels.length * levels'.length ∧
        ∀ y c μ, μ = groupMean2 rows a b y → (Solves rows.length t.2.mat.cols y c ↔
          c 0 = μ 0 0 ∧
          (∀ i < levels.length - 1, c (1 + i) = μ (i + 1) 0 - μ 0 0) ∧
          (∀ j < levels'.length - 1, c (1 + (levels.length - 1) + j) = μ 0 (j + 1) - μ 0 0) ∧
          ∀ i < levels.length - 1, ∀ j < levels'.length - 1,
            c (1 + (levels.length - 1) + (levels'.length - 1) + (i + (levels.length - 1) * j)) =
              (μ (i + 1) (j + 1) - μ 0 (j + 1)) - (μ (i + 1) 0 - μ 0 0)))
    fun hs hh => by
      obtain ⟨eval, types, n, h1, h2, h3, h4⟩ := crossed_treatment (interp_world hI [data]) (interp_codes hI [data]) hs rfl hh
        (readable := readable) hdef hrhs hab
      refine ⟨eval, types, n, h1, h2, h3, fun levels levels' hty hne hty' hne' hocc => ?_⟩
      exact h4 (treatment_wellCoded hI hdef (by
        rw [hrhs]; simp only [List.mem_cons, List.not_mem_nil, or_false]
        rintro t (rfl | rfl | rfl | rfl) f hf
        · simp at hf
        · simp at hf; subst hf; exact ⟨levels, hne, hty⟩
        · simp at hf; subst hf; exact ⟨levels', hne', hty'⟩
        · simp at hf
          rcases hf with rfl | rfl
          · exact ⟨levels, hne, hty⟩
          · exact ⟨levels', hne', hty'⟩)) levels levels' hty hne hty' hne' hocc

end

open FitSample FitSample2 in
/-- Example for `text_line`: `x ~ center(x + center(x))`, where `x` is 1, 2, 3, 6. -/
example : Sane ProgramSample.interp ∧ FineText ProgramSample.interp .exhausted ProgramSample.raw ∧
    ProgramSample.interp.fromFormula .exhausted ProgramSample.raw = .ok ⟨[⟨["x"]⟩], [⟨[]⟩, ⟨["center(x + center(x))"]⟩]⟩ ∧
    ∃ t, ProgramSample.interp.dmatrices isnan none FitSample2.rows .matrix .exhausted ProgramSample.raw = .ok t ∧
      t.2.mat = ⟨4, [[1, 1, 1, 1], [-4, -2, 0, 6]]⟩ :=
  ⟨ProgramSample.real.toSane, ProgramSample.fine_of ProgramSample.interp rfl rfl, eq_ok_of_okIs (by decide +kernel),
    getOk _ ProgramSample.ok, getOk_eq _, by decide +kernel⟩

namespace CoefSample

open FitSample2

/-- Numbers between 0 and 2 are seen as `p`, others as `q`. -/
def see (c : Col) : Seen ℚ :=
  ⟨.raw (.array .other 1 1 (c.map fun r => .str (if 0 < r () ∧ r () < 2 then "p" else "q"))), [], none⟩

/-- As `ProgramSample.interp`, but all values are categorical. -/
def interp : Interp Col Col (Unit × Col) (State.Center Unit ℚ) ℚ (Redundancy.Subterm String) := { ProgramSample.interp with see := see }

theorem sane : Sane interp where
  names _ := .refl _
  factors _ _ _ := .refl _
  visits l := l.reverse_perm
  order _ := .refl _
  hash _ _ h := h
  fits v l hl := by cases hl
  codes v cats codes hv := by cases hv

/-- The raw tokens of `x ~ x * center(x)`. -/
def raw : List PyTok := [exPy .name "x" 0, exPy .op "~" 1, exPy .name "x" 2, exPy .op "*" 3, exPy .name "center" 4, exPy .op "(" 5,
  exPy .name "x" 6, exPy .op ")" 7, exPy .newline "" 11, exPy .endmarker "" 12]

/-- The raw tokens of `x ~ center(x)`. -/
def oneRaw : List PyTok := [exPy .name "x" 0, exPy .op "~" 1, exPy .name "center" 4, exPy .op "(" 5,
  exPy .name "x" 6, exPy .op ")" 7, exPy .newline "" 11, exPy .endmarker "" 12]

theorem fine : FineText interp .exhausted raw :=
  ProgramSample.fine_body _ rfl rfl (body := raw.take 8) rfl (by decide) (by unfold ProgramSample.AllExpressions; decide +kernel)

theorem fine_one : FineText interp .exhausted oneRaw :=
  ProgramSample.fine_body _ rfl rfl (body := oneRaw.take 6) rfl (by decide) (by unfold ProgramSample.AllExpressions; decide +kernel)

/-- The mean is 1, and all four combinations occur. -/
def rows : Col := colOf [3 / 2, 1 / 2, 5 / 2, -1 / 2, 1]

theorem ok : isOk (interp.dmatrices FitSample.isnan none rows .matrix .exhausted raw) = true ∧
    isOk (interp.dmatrices FitSample.isnan none rows .matrix .exhausted oneRaw) = true := by decide +kernel

end CoefSample

open CoefSample in
/-- Example for `text_crossed`: `x ~ x * center(x)`, where all values are categorical. -/
example : Sane interp ∧ FineText interp .exhausted raw ∧
    interp.fromFormula .exhausted raw = .ok ⟨[⟨["x"]⟩], [⟨[]⟩, ⟨["x"]⟩, ⟨["center(x)"]⟩, ⟨["x", "center(x)"]⟩]⟩ ∧
    interp.default = .coding (dummyCode BuilderSample.readable) (treatment BuilderSample.readable none) ∧
    ∃ t, interp.dmatrices FitSample.isnan none CoefSample.rows .matrix .exhausted raw = .ok t ∧
      t.2.mat = ⟨5, [[1, 1, 1, 1, 1], [0, 0, 1, 1, 0], [0, 1, 0, 1, 1], [0, 0, 0, 1, 0]]⟩ :=
  ⟨sane, fine, eq_ok_of_okIs (by decide +kernel), rfl, getOk _ CoefSample.ok.1, getOk_eq _, by decide +kernel⟩

open CoefSample in
/-- Example for `text_treatment`: `x ~ center(x)`, where all values are categorical. -/
example : Sane interp ∧ FineText interp .exhausted oneRaw ∧
    interp.fromFormula .exhausted oneRaw = .ok ⟨[⟨["x"]⟩], [⟨[]⟩, ⟨["center(x)"]⟩]⟩ ∧
    ∃ t, interp.dmatrices FitSample.isnan none CoefSample.rows .matrix .exhausted oneRaw = .ok t ∧
      t.2.mat = ⟨5, [[1, 1, 1, 1, 1], [0, 1, 0, 1, 1]]⟩ :=
  ⟨sane, fine_one, eq_ok_of_okIs (by decide +kernel), getOk _ CoefSample.ok.2, getOk_eq _, by decide +kernel⟩

end Patsy.Props
