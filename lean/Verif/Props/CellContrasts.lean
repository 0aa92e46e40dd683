import Verif.Props.CellMeans

/-!
# C83: the coefficients of `1 + C(a, Helmert)` and `1 + C(a, Diff)`
-/

set_option linter.unusedSectionVars false

namespace Patsy.Props

open Patsy.Build Patsy.Desc Patsy.Cat Patsy.Spec Patsy.Contrast Patsy.Redundancy Patsy.Rank

variable {F D K H : Type} [DecidableEq F] [Field K] [LinearOrder K] [IsStrictOrderedRing K] [DecidableEq H]

section

variable {P : Setting F D K H} (hw : World P) (hcodes : CodesFit P) {isnan : K → Bool} {dataIndex : Option (List Label)}
  {data : D} {rt : ReturnType} {f : FormulaLike F D K} (hf : Sound data f) {m : ModelDesc F} (hm : modelOf f = some m)
  {t : Table F D K × Table F D K} (h : highLevelDesign P isnan dataIndex data rt f = .ok t)

include hw hcodes hf hm h

/-- **C83**, `1 + C(a, Helmert)`: the intercept is the mean of the group means; the coefficient of the level with number
`j + 1` is the difference of its group mean from the mean of the group means before it, divided by `j + 2`. -/
theorem helmert_coefficients {readable : PyVal → String} {a : F} (hrhs : m.rhs = [⟨[]⟩, ⟨[a]⟩]) :
    ∃ eval types n, Learned P data m eval types ∧
    RowCount P.na types (fun f => eval f data) (allFactors [m.lhs, m.rhs]) dataIndex n ∧
    t.2.mat.nrows = (modelRows P isnan data m eval types n).length ∧ (WellCoded P types m.rhs →
      ∀ levels c, c = .coding (helmertWith readable) (helmertWithout readable) → levels ≠ [] →
      typeOf types a = some (.categorical levels (some c)) ∨ typeOf types a = some (.categorical levels (some (.callable c))) →
      (∀ l < levels.length, (group (modelRows P isnan data m eval types n) a l).Nonempty) →
        t.2.mat.cols.length = levels.length ∧
        ∀ y b, Solves (modelRows P isnan data m eval types n).length t.2.mat.cols y b ↔
          b 0 = (∑ l ∈ Finset.range levels.length, groupMean (modelRows P isnan data m eval types n) a y l) / levels.length ∧
          ∀ j, j + 1 < levels.length → b (j + 1) = (groupMean (modelRows P isnan data m eval types n) a y (j + 1) -
            (∑ l ∈ Finset.range (j + 1), groupMean (modelRows P isnan data m eval types n) a y l) / (j + 1)) / (j + 2)) := by
  obtain ⟨eval, types, n, hl, hn, h1, h2⟩ := one_factor_coefficients hw hcodes hf hm h hrhs
  refine ⟨eval, types, n, hl, hn, h1, fun hwell levels c hc hne hty hocc => ?_⟩
  have hpos : 0 < levels.length := List.length_pos_iff.mpr hne
  obtain ⟨⟨cm, hcm, _, hred⟩, _⟩ := helmert_meaning (K := K) readable hne
  subst hc
  obtain ⟨contrast, hty, hcm'⟩ : ∃ contrast, typeOf types a = some (.categorical levels contrast) ∧
      codeContrastMatrix false levels (contrast.getD .none) P.default = .ok cm := by
    rcases hty with hty | hty
    · exact ⟨_, hty, hcm⟩
    · exact ⟨_, hty, hcm⟩
  obtain ⟨h3, _, h4⟩ := h2 hwell levels contrast hty hocc cm _ _ hcm' hred
  refine ⟨by omega, fun y b => (h4 y b).trans (and_congr_right fun _ => ⟨?_, ?_⟩)⟩
  · intro hb j hj
    rw [hb j (by omega), meanOf, Nat.cast_add_one]
  · intro hb j hj
    rw [hb j (by omega), meanOf, Nat.cast_add_one]

/-- **C83**, `1 + C(a, Diff)`: the intercept is the mean of the group means; the other coefficients are the differences
between the means of successive groups. -/
theorem diff_coefficients {readable : PyVal → String} {argsort : List Nat → List Nat} (hs : IsArgsort argsort) {a : F}
    (hrhs : m.rhs = [⟨[]⟩, ⟨[a]⟩]) :
    ∃ eval types n, Learned P data m eval types ∧
    RowCount P.na types (fun f => eval f data) (allFactors [m.lhs, m.rhs]) dataIndex n ∧
    t.2.mat.nrows = (modelRows P isnan data m eval types n).length ∧ (WellCoded P types m.rhs →
      ∀ levels c, c = .coding (diffWith readable argsort) (diffWithout readable argsort) → levels ≠ [] →
      typeOf types a = some (.categorical levels (some c)) ∨ typeOf types a = some (.categorical levels (some (.callable c))) →
      (∀ l < levels.length, (group (modelRows P isnan data m eval types n) a l).Nonempty) →
        t.2.mat.cols.length = levels.length ∧
        ∀ y b, Solves (modelRows P isnan data m eval types n).length t.2.mat.cols y b ↔
          b 0 = (∑ l ∈ Finset.range levels.length, groupMean (modelRows P isnan data m eval types n) a y l) / levels.length ∧
          ∀ j, j + 1 < levels.length → b (j + 1) = groupMean (modelRows P isnan data m eval types n) a y (j + 1) -
            groupMean (modelRows P isnan data m eval types n) a y j) := by
  obtain ⟨eval, types, n, hl, hn, h1, h2⟩ := one_factor_coefficients hw hcodes hf hm h hrhs
  refine ⟨eval, types, n, hl, hn, h1, fun hwell levels c hc hne hty hocc => ?_⟩
  have hpos : 0 < levels.length := List.length_pos_iff.mpr hne
  obtain ⟨⟨cm, hcm, _, hred⟩, _⟩ := diff_meaning (K := K) readable hs hne
  subst hc
  obtain ⟨contrast, hty, hcm'⟩ : ∃ contrast, typeOf types a = some (.categorical levels contrast) ∧
      codeContrastMatrix false levels (contrast.getD .none) P.default = .ok cm := by
    rcases hty with hty | hty
    · exact ⟨_, hty, hcm⟩
    · exact ⟨_, hty, hcm⟩
  obtain ⟨h3, _, h4⟩ := h2 hwell levels contrast hty hocc cm _ _ hcm' hred
  refine ⟨by omega, fun y b => (h4 y b).trans (and_congr_right fun _ => ⟨?_, ?_⟩)⟩
  · intro hb j hj
    exact hb j (by omega)
  · intro hb j hj
    exact hb j (by omega)

end

/-! ### Examples -/

namespace CellSample

open BuilderSample HighSample FitSample

/-- As `look'`, and a factor `C(a, X)` with the given contrast. -/
def lookX (c : Contrast.Spec ℚ) (f : String) (d : Data) : Except Err (Seen ℚ) :=
  if f = "C(a, X)" then .ok ⟨.box (.array .other 1 1 (d.map fun r => .str r.2.2)) (some (.callable c)) none, [], none⟩
  else look' f d

def settingX (c : Contrast.Spec ℚ) : Setting String Data ℚ (Redundancy.Subterm String) :=
  { setting with memorize := fun _ => .ok (lookX c) }

theorem worldX (c : Contrast.Spec ℚ) : World (settingX c) := by
  refine ⟨visits, ?_⟩
  intro fs eval h f d s hs l hl
  cases h
  have : s.index = none := by
    simp only [lookX, look', look, BuilderSample.number] at hs
    repeat' split at hs
    all_goals first | (cases hs; rfl) | cases hs
  rw [this] at hl
  cases hl

theorem codesFitX (c : Contrast.Spec ℚ) : CodesFit (settingX c) := by
  intro fs eval h f d s cats codes hs hv
  cases h
  simp only [lookX, look', look, BuilderSample.number] at hs
  repeat' split at hs
  all_goals first | (cases hs; cases hv) | cases hs

/-- `1 + C(a, X)`. -/
def contrasted : ModelDesc String := ⟨[], [⟨[]⟩, ⟨["C(a, X)"]⟩]⟩

def typesX (c : Contrast.Spec ℚ) : Types String ℚ :=
  ([], [("C(a, X)", [.str "u", .str "v", .str "w"], some (.callable c))])

theorem learnedX (c : Contrast.Spec ℚ) : Learned (settingX c) RecodeSample.rows contrasted (lookX c) (typesX c) := ⟨rfl, rfl⟩

def resultX (c : Contrast.Spec ℚ) : Except Err (Table String Data ℚ × Table String Data ℚ) :=
  highLevelDesign (settingX c) isnan none RecodeSample.rows .matrix (.desc contrasted)

theorem rowCountX (c : Contrast.Spec ℚ) : RowCount (settingX c).na (typesX c) (fun f => lookX c f RecodeSample.rows)
    (allFactors [contrasted.lhs, contrasted.rhs]) none 6 := by
  refine ⟨?_, fun h => absurd h (by decide)⟩
  intro f hf r
  have : f = "C(a, X)" := by
    have : allFactors [contrasted.lhs, contrasted.rhs] = ["C(a, X)"] := by decide
    rw [this] at hf
    simpa using hf
  subst this
  have : factorCell (settingX c).na (typesX c) (fun f => lookX c f RecodeSample.rows) r "C(a, X)" =
      [0, 0, 1, 1, 2, 2][r]?.map .code := rfl
  rw [this]
  simp

theorem wellCodedX {c : Contrast.Spec ℚ} (hc : Builtin BuilderSample.readable [.str "u", .str "v", .str "w"] c) :
    WellCoded (settingX c) (typesX c) contrasted.rhs := by
  refine ⟨?_, fun _ _ _ _ h => minusPiece_injective h⟩
  intro t _ f _ levels contrast hty
  by_cases hf : f = "C(a, X)"
  · subst hf
    cases hty
    exact (builtin_good (default := (settingX c).default) (levels := [.str "u", .str "v", .str "w"]) (by simp) hc).2.1
  · simp [typeOf, typesX, dictGet, Ne.symm hf] at hty

theorem occurX (c : Contrast.Spec ℚ) : ∀ l < [PyVal.str "u", .str "v", .str "w"].length,
    (group (modelRows (settingX c) isnan RecodeSample.rows contrasted (lookX c) (typesX c) 6) "C(a, X)" l).Nonempty := by
  intro l hl
  have : l = 0 ∨ l = 1 ∨ l = 2 := by simp at hl; omega
  rcases this with rfl | rfl | rfl
  · exact ⟨(⟨0, by decide⟩ : Fin 6), Finset.mem_filter.mpr ⟨Finset.mem_univ _, rfl⟩⟩
  · exact ⟨(⟨2, by decide⟩ : Fin 6), Finset.mem_filter.mpr ⟨Finset.mem_univ _, rfl⟩⟩
  · exact ⟨(⟨4, by decide⟩ : Fin 6), Finset.mem_filter.mpr ⟨Finset.mem_univ _, rfl⟩⟩

/-- `C(a, Helmert)`. -/
def helmertSpec : Contrast.Spec ℚ := .coding (helmertWith BuilderSample.readable) (helmertWithout BuilderSample.readable)

/-- `C(a, Diff)`. -/
def diffSpec : Contrast.Spec ℚ :=
  .coding (diffWith BuilderSample.readable sampleArgsort) (diffWithout BuilderSample.readable sampleArgsort)

theorem helmertX_ok : isOk (resultX helmertSpec) = true := by decide +kernel

theorem diffX_ok : isOk (resultX diffSpec) = true := by decide +kernel

/-- The means are 3/2, 5/2 and 6. -/
def helmertCoefficients : Nat → ℚ
  | 0 => 10 / 3
  | 1 => 1 / 2
  | _ => 4 / 3

def diffCoefficients : Nat → ℚ
  | 0 => 10 / 3
  | 1 => 1
  | _ => 7 / 2

end CellSample

open CellSample FitSample HighSample BuilderSample in
/-- Example for `helmert_coefficients`: the group means are 3/2, 5/2 and 6, so the coefficients are their mean 10/3,
(5/2 - 3/2) / 2 and (6 - 2) / 3. -/
example : ∃ t, resultX helmertSpec = .ok t ∧ Solves 6 t.2.mat.cols sumOutcome helmertCoefficients := by
  refine ⟨_, getOk_eq helmertX_ok, ?_⟩
  obtain ⟨eval, ty, n, hl, hn, h1, h2⟩ := helmert_coefficients (worldX _) (codesFitX _) (f := .desc contrasted)
    (fun m hm => by cases hm; decide) rfl (getOk_eq helmertX_ok) (readable := BuilderSample.readable) (a := "C(a, X)") rfl
  obtain ⟨h3, h4⟩ := hl
  cases h3
  obtain rfl : ty = typesX helmertSpec := Except.ok.inj (h4.symm.trans (learnedX _).2)
  obtain rfl := rowCount_unique (fun _ => Iff.rfl) (fun _ => rfl) (rowCountX _) hn
  obtain ⟨_, h5⟩ := h2 (wellCodedX .helmert) [.str "u", .str "v", .str "w"] helmertSpec rfl (by simp) (.inr rfl) (occurX _)
  refine (h5 sumOutcome helmertCoefficients).mpr ⟨by decide +kernel, fun j hj => ?_⟩
  have : j = 0 ∨ j = 1 := by simp at hj; omega
  rcases this with rfl | rfl <;> decide +kernel

open CellSample FitSample HighSample BuilderSample in
/-- Example for `diff_coefficients`: 10/3, 5/2 - 3/2 and 6 - 5/2. -/
example : ∃ t, resultX diffSpec = .ok t ∧ Solves 6 t.2.mat.cols sumOutcome diffCoefficients := by
  refine ⟨_, getOk_eq diffX_ok, ?_⟩
  obtain ⟨eval, ty, n, hl, hn, h1, h2⟩ := diff_coefficients (worldX _) (codesFitX _) (f := .desc contrasted)
    (fun m hm => by cases hm; decide) rfl (getOk_eq diffX_ok) (readable := BuilderSample.readable) sampleArgsort_isArgsort
    (a := "C(a, X)") rfl
  obtain ⟨h3, h4⟩ := hl
  cases h3
  obtain rfl : ty = typesX diffSpec := Except.ok.inj (h4.symm.trans (learnedX _).2)
  obtain rfl := rowCount_unique (fun _ => Iff.rfl) (fun _ => rfl) (rowCountX _) hn
  obtain ⟨_, h5⟩ := h2 (wellCodedX (.diff sampleArgsort_isArgsort)) [.str "u", .str "v", .str "w"] diffSpec rfl (by simp)
    (.inr rfl) (occurX _)
  refine (h5 sumOutcome diffCoefficients).mpr ⟨by decide +kernel, fun j hj => ?_⟩
  have : j = 0 ∨ j = 1 := by simp at hj; omega
  rcases this with rfl | rfl <;> decide +kernel

end Patsy.Props
