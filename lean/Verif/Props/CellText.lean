import Verif.Props.CellMeans
import Verif.Props.Program

/-!
# C83 for formulas given as text
-/

set_option linter.unusedSectionVars false

namespace Patsy.Props

open Patsy.Build Patsy.Desc Patsy.Cat Patsy.Spec Patsy.Contrast Patsy.Program Patsy.Tokens

variable {D V A S K H : Type} [Field K] [LinearOrder K] [IsStrictOrderedRing K] [DecidableEq H]

/-- **C83** for the text of a formula, with the meaning of C59: what least squares makes of the right-hand matrix. -/
theorem text_fit {I : Interp D V A S K H} (hI : Sane I) {isnan : K → Bool}
    {dataIndex : Option (List Build.Label)} {data : D} {rt : ReturnType} {fin : RawEnd} {raw : List PyTok}
    (hfine : FineText I fin raw) {t : Table String D K × Table String D K}
    (h : I.dmatrices isnan dataIndex data rt fin raw = .ok t) :
    ∃ m types n, StandsFor I dataIndex data fin raw m types n ∧
      t.2.mat.nrows = (Program.completeRows I isnan data m types n).length ∧
      (GoodCodings I.default types m.rhs → ∀ y v,
        (Fitted (Program.completeRows I isnan data m types n).length t.2.mat.cols y v ↔
          ModelFunction types m.rhs (Program.completeRows I isnan data m types n) v ∧
          ∀ u ∈ m.rhs, ∀ k, MonomialOf types.1 u k → ∀ i,
            ∑ i' ∈ cellRows (Program.completeRows I isnan data m types n)
                (u.factors.filter fun f => (dictGet types.1 f).isNone) i,
                monomial (Program.completeRows I isnan data m types n)[i'] k * v i' =
              ∑ i' ∈ cellRows (Program.completeRows I isnan data m types n)
                (u.factors.filter fun f => (dictGet types.1 f).isNone) i,
                monomial (Program.completeRows I isnan data m types n)[i'] k * y i') ∧
        (Fitted (Program.completeRows I isnan data m types n).length t.2.mat.cols y v →
          ∀ u ∈ m.rhs, (∀ f ∈ u.factors, dictGet types.1 f = none) → ∀ i,
            ∑ i' ∈ cellRows (Program.completeRows I isnan data m types n) u.factors i, v i' =
              ∑ i' ∈ cellRows (Program.completeRows I isnan data m types n) u.factors i, y i') ∧
        ∀ u ∈ m.rhs, (∀ s ∈ m.rhs, ∀ f ∈ s.factors, f ∈ u.factors) → (∀ f ∈ u.factors, dictGet types.1 f = none) →
          (Fitted (Program.completeRows I isnan data m types n).length t.2.mat.cols y v ↔
            ∀ i, v i = cellMean (Program.completeRows I isnan data m types n) u.factors y i)) := by
  obtain ⟨m, types, n, hs, _, h1, h2⟩ := text_to_matrices hI hfine h
  refine ⟨m, types, n, hs, h1, fun hg y v => ⟨fitted_cells (h2 hg).1, fun hv u hu hcat i => ?_,
    fun u hu hall hcat => fitted_means (h2 hg).1 hu hall hcat⟩⟩
  have := ((fitted_cells (h2 hg).1).mp hv).2 u hu ∅ (monomialOf_empty hcat) i
  rw [filter_none hcat] at this
  simpa [monomial] using this

open FitSample FitSample2 in
/-- Example for `text_fit`: `x ~ center(x + center(x))`. -/
example : Sane ProgramSample.interp ∧ FineText ProgramSample.interp .exhausted ProgramSample.raw ∧
    ∃ t, ProgramSample.interp.dmatrices isnan none FitSample2.rows .matrix .exhausted ProgramSample.raw = .ok t ∧
      ∃ m types n, StandsFor ProgramSample.interp none FitSample2.rows .exhausted ProgramSample.raw m types n ∧
        t.2.mat.nrows = (Program.completeRows ProgramSample.interp isnan FitSample2.rows m types n).length := by
  have hfine := ProgramSample.fine_of ProgramSample.interp rfl rfl
  refine ⟨ProgramSample.real.toSane, hfine, _, getOk_eq ProgramSample.ok, ?_⟩
  obtain ⟨m, types, n, h1, h2, _⟩ := text_fit ProgramSample.real.toSane hfine (getOk_eq ProgramSample.ok)
  exact ⟨m, types, n, h1, h2⟩

end Patsy.Props
