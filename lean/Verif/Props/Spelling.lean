import Verif.Lemmas.Spelling
import Verif.Props.OwnTerms

/-!
# C69: blanks in a formula do not matter

The model that a formula means, and so all matrices, depend on the Python tokens of the text alone, not on where they stand.

# C12 and C68 for texts

The texts that `ModelDesc.describe()` and `DesignInfo.describe()` make are read as the same model, down to Python's tokens.
-/

namespace Patsy.Props

open Patsy.Tokens Patsy.Desc Patsy.Spec Patsy.Program Patsy.Positions Patsy.Spell Patsy.Build Patsy.EvalFactor

variable {D V A S K H : Type} [DecidableEq H]

theorem plain_eq_zero {ts us : List PyTok} (h : plainTokens ts = plainTokens us) : ts.map zeroPy = us.map zeroPy := by
  rw [← at0_plain, ← at0_plain, h]

omit [DecidableEq H] in
/-- **C69**.  Formulas with the same Python tokens, at whatever positions, mean the same model or fail with the same error. -/
theorem blanks_irrelevant (I : Interp D V A S K H) (fin : RawEnd) {raw raw' : List PyTok} (h : plainTokens raw' = plainTokens raw) :
    I.fromFormula fin raw' = I.fromFormula fin raw := by
  rw [← fromFormula_zero I fin raw', ← fromFormula_zero I fin raw, plain_eq_zero h]

omit [DecidableEq H] in
/-- **C69**, ends of lines.  Nor do the ends of lines matter, and what comes after the end marker. -/
theorem line_ends_irrelevant (I : Interp D V A S K H) {fin fin' : RawEnd} {raw raw' : List PyTok} {ts : List PlainTok}
    (h : Spelled fin raw ts) (h' : Spelled fin' raw' ts) : I.fromFormula fin' raw' = I.fromFormula fin raw := by
  obtain ⟨b, h1, h2, h3⟩ := h
  obtain ⟨b', g1, g2, g3⟩ := h'
  have hp := (python_tokenize_iff fin raw _).mpr ⟨b, h1, h2, rfl⟩
  have hp' := (python_tokenize_iff fin' raw' _).mpr ⟨b', g1, g2, rfl⟩
  have hz := plain_eq_zero (h3.trans g3.symm)
  have hq := pythonTokenize_zero fin raw
  have hq' := pythonTokenize_zero fin' raw'
  rw [hp] at hq
  rw [hp'] at hq'
  simp only [Except.map] at hq hq'
  rw [← hz] at hq'
  rw [← fromFormula_zero I fin' raw', ← fromFormula_zero I fin raw]
  simp only [Interp.fromFormula, parseFormula, hq, hq']

/-- **C69**, matrices.  `dmatrices` and `dmatrix` return the same for formulas with the same Python tokens. -/
theorem blanks_irrelevant_matrices [Mul K] [One K] (I : Interp D V A S K H) (isnan : K → Bool) (dataIndex : Option (List Build.Label))
    (data : D) (rt : ReturnType) (fin : RawEnd) {raw raw' : List PyTok} (h : plainTokens raw' = plainTokens raw) :
    I.dmatrices isnan dataIndex data rt fin raw' = I.dmatrices isnan dataIndex data rt fin raw ∧
      I.dmatrix isnan dataIndex data rt fin raw' = I.dmatrix isnan dataIndex data rt fin raw := by
  unfold Interp.dmatrices Interp.dmatrix
  rw [blanks_irrelevant I fin h]
  exact ⟨rfl, rfl⟩

omit [DecidableEq H] in
/-- **C12**, texts.  If a formula means the model `m`, then every text with the Python tokens of `m.describe()` means `m` again. -/
theorem describe_roundtrip_text {I : Interp D V A S K H} {fin : RawEnd} {raw : List PyTok} (hfine : FineText I fin raw)
    {m : ModelDesc String} (h : I.fromFormula fin raw = .ok m) {fin' : RawEnd} {raw' : List PyTok}
    (h' : Spelled fin' raw' (modelSpelling I.code m)) : I.fromFormula fin' raw' = .ok m := by
  have hc := codes_of_formula hfine h
  obtain ⟨_, ⟨n1, n2⟩, hcode⟩ := fromFormula_ok hfine h
  have hmem : ∀ tl ∈ [m.lhs, m.rhs], ∀ t ∈ tl, ∀ f ∈ t.factors, f ∈ allFactors [m.lhs, m.rhs] :=
    fun tl htl t ht f hf => allFactors_mem.mpr ⟨tl, htl, t, ht, hf⟩
  have hmk : ∀ f ∈ allFactors [m.lhs, m.rhs], I.mkFactor (id f) = .ok f := by
    intro f hf
    obtain ⟨e, he, _⟩ := hcode f hf
    exact (embedded_factor hfine he).1
  obtain ⟨n, g1, g2⟩ := describe_roundtrip I.mkFactor I.toInt id m
    ⟨n1, fun t ht f hf => hmk f (hmem _ (by simp) t ht f hf)⟩ ⟨n2, fun t ht f hf => hmk f (hmem _ (by simp) t ht f hf)⟩
  rw [spelled_reads (item_model (fun t ht f hf => hc f (hmem _ (by simp) t ht f hf))
    fun t ht f hf => hc f (hmem _ (by simp) t ht f hf)) h' g1]
  exact g2

/-- **C68**, texts.  If `dmatrices` or `dmatrix` makes designs from a formula, and the right-hand side has an intercept, then every text
with the Python tokens of the descriptions of the designs, put together with a `~`, gives the same matrices with the same names. -/
theorem description_reproduces_text [Mul K] [One K] {I : Interp D V A S K H} (hI : Sane I) {fin : RawEnd} {raw : List PyTok}
    (hfine : FineText I fin raw) {isnan : K → Bool} {dataIndex : Option (List Build.Label)} {data : D} {rt : ReturnType}
    {t : Table String D K × Table String D K}
    (h : highLevelDesign (I.setting [data]) isnan dataIndex data rt (.text (I.fromFormula fin raw)) = .ok t) :
    ∃ l r, t.1.info.terms = some l ∧ t.2.info.terms = some r ∧ ((⟨[]⟩ : Term String) ∈ r → ∀ fin' raw',
      Spelled fin' raw' (designSpelling I.code l r) → I.fromFormula fin' raw' = .ok ⟨l, r⟩ ∧
      ∃ t', highLevelDesign (I.setting [data]) isnan dataIndex data rt (.text (I.fromFormula fin' raw')) = .ok t' ∧
        SameTable t.1 t'.1 ∧ SameTable t.2 t'.2) := by
  obtain ⟨l, r, h1, h2, ⟨m, hm, p1, p2⟩, h3, h4, t', h5, h6⟩ := own_terms_text hI hfine h
  refine ⟨l, r, h1, h2, fun hi fin' raw' hs => ?_⟩
  have hc := codes_of_formula hfine hm
  obtain ⟨n, hn, he⟩ := description_means I.mkFactor I.toInt id h3 h4 (by rintro rfl; cases hi)
  have hw : withIntercept r = r := by
    rw [withIntercept, if_pos]
    exact List.any_eq_true.mpr ⟨_, hi, rfl⟩
  rw [hw] at he
  have hf := spelled_reads (item_design
    (fun t ht f hf => hc f (allFactors_mem.mpr ⟨m.lhs, by simp, t, p1.mem_iff.mp ht, hf⟩))
    fun t ht f hf => hc f (allFactors_mem.mpr ⟨m.rhs, by simp, t, p2.mem_iff.mp ht, hf⟩)) hs hn
  rw [he] at hf
  refine ⟨hf, t', ?_, h6⟩
  rw [hf]
  obtain ⟨hrt, dl, dr, b, x, y, j1, j2, j3, j4⟩ := (highLevelDesign_model (m := ⟨l, r⟩) rfl).mp h5
  exact (highLevelDesign_model (m := ⟨l, r⟩) rfl).mpr ⟨hrt, dl, dr, b, x, y, j1, j2, j3, j4⟩

/-! ### Examples -/

namespace SpellingSample

open ProgramSample

/-- `x ~ center(x + center(x))` with other blanks. -/
def wide : List PyTok := raw.map fun t => ⟨t.type, t.str, ⟨3 * t.origin.start + 1, 3 * t.origin.stop⟩⟩

/-- The text `x ~ 1 + center(x + center(x))` of the designs of this formula. -/
def described : List PyTok :=
  (designSpelling interp.code [⟨["x"]⟩] [⟨[]⟩, ⟨["center(x + center(x))"]⟩]).map at0 ++ [⟨.newline, "", ⟨0, 0⟩⟩, ⟨.endmarker, "", ⟨0, 0⟩⟩]

theorem model_ok : interp.fromFormula .exhausted raw = .ok ⟨[⟨["x"]⟩], [⟨[]⟩, ⟨["center(x + center(x))"]⟩]⟩ :=
  eq_ok_of_okIs (by decide +kernel)

end SpellingSample

open SpellingSample ProgramSample in
/-- Example for `blanks_irrelevant`: other positions, the same model. -/
example : plainTokens wide = plainTokens raw ∧ wide ≠ raw ∧
    interp.fromFormula .exhausted wide = .ok ⟨[⟨["x"]⟩], [⟨[]⟩, ⟨["center(x + center(x))"]⟩]⟩ :=
  ⟨by decide +kernel, by decide +kernel, by rw [blanks_irrelevant (raw := raw) _ _ (by decide +kernel)]; exact model_ok⟩

open SpellingSample ProgramSample in
/-- Example for `describe_roundtrip_text` and `line_ends_irrelevant`: the model of `x ~ center(x + center(x))` is described by this
very text, `0 + x:z` on the right-hand side by `~ 0 + x:z`. -/
example : FineText interp .exhausted raw ∧
    modelSpelling interp.code ⟨[⟨["x"]⟩], [⟨[]⟩, ⟨["center(x + center(x))"]⟩]⟩ =
      [(.name, "x"), (.op, "~"), (.name, "center"), (.op, "("), (.name, "x"), (.op, "+"), (.name, "center"), (.op, "("), (.name, "x"),
        (.op, ")"), (.op, ")")] ∧
    Spelled .exhausted raw (modelSpelling interp.code ⟨[⟨["x"]⟩], [⟨[]⟩, ⟨["center(x + center(x))"]⟩]⟩) ∧
    modelSpelling (fun f => [(.name, f)]) ⟨[], [⟨["x", "z"]⟩]⟩ =
      [(.op, "~"), (.number, "0"), (.op, "+"), (.name, "x"), (.op, ":"), (.name, "z")] := by
  refine ⟨fine_of _ rfl rfl, by decide +kernel, ?_, by decide +kernel⟩
  obtain ⟨body, h1, h2, h3⟩ := (python_tokenize_iff .exhausted raw (getOk (pythonTokenize .exhausted raw) (by decide +kernel))).mp (getOk_eq _)
  refine ⟨body, h1, h2, ?_⟩
  rw [← h3]
  decide +kernel

open SpellingSample ProgramSample OwnTermsSample in
/-- Example for `description_reproduces_text`: `x ~ center(x + center(x))` is described as `x ~ 1 + center(x + center(x))`. -/
example : ∃ t, nested = .ok t ∧ Sane interp ∧ t.1.info.terms = some [⟨["x"]⟩] ∧
    t.2.info.terms = some [⟨[]⟩, ⟨["center(x + center(x))"]⟩] ∧
    Spelled .exhausted described (designSpelling interp.code [⟨["x"]⟩] [⟨[]⟩, ⟨["center(x + center(x))"]⟩]) ∧
    interp.fromFormula .exhausted described = .ok ⟨[⟨["x"]⟩], [⟨[]⟩, ⟨["center(x + center(x))"]⟩]⟩ := by
  refine ⟨_, getOk_eq nested_ok, real.toSane, by decide +kernel, by decide +kernel, ?_, eq_ok_of_okIs (by decide +kernel)⟩
  obtain ⟨body, h1, h2, h3⟩ := (python_tokenize_iff .exhausted described
    (getOk (pythonTokenize .exhausted described) (by decide +kernel))).mp (getOk_eq _)
  refine ⟨body, h1, h2, ?_⟩
  rw [← h3]
  decide +kernel

end Patsy.Props
