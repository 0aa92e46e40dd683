import Verif.Props.CompleteCases
import Verif.Props.ReorderText

/-!
# C80 for formulas given as text
-/

set_option linter.unusedSectionVars false

namespace Patsy.Props

open Patsy.Tokens Patsy.Desc Patsy.EvalFactor Patsy.Build Patsy.Cat Patsy.Spec Patsy.Calls Patsy.Formula Patsy.Program Patsy.Memorize Patsy.Passes

variable {D V A S K H : Type} [DecidableEq H] {n : Nat} {ks : List Nat}

/-- Code without stateful calls remembers nothing. -/
theorem no_calls_states {P : Python D V A} {classOf : String → Class S A V} {chunks chunks' : List D} {e : Expr String}
    (h : sites e = []) {σ : Nat → S} : Remembers P classOf chunks e σ → Remembers P classOf chunks' e σ := by
  intro _ k f body hs
  rw [sites_number, h] at hs
  simp at hs

/-- The setting for `{ I with na := na' }`. -/
theorem interp_thinned {I : Interp D V A S K H} (hI : Sane I) {na' : NAAction} (hna : na'.types = I.na.types)
    {data data' : D} {fs : List String} (hn : fs.Nodup)
    (hgood : GoodCode I.stateful I.code fs fun f => (readTokens (I.code f)).getD .nil)
    (hfs : ∀ f ∈ fs, ThinnedFactor I n ks data data' f) :
    Thinned n ks (I.setting [data]) (Interp.setting { I with na := na' } [data']) data data' fs where
  same := ⟨rfl, rfl, rfl, rfl, rfl⟩
  missing := hna
  memorize := by
    intro eval h
    simp only [Interp.setting] at h ⊢
    cases hm : memorizeFactors I.python I.stateful I.classOf I.visitNames I.visitFactors I.code [data] fs with
    | error e => rw [hm] at h; cases h
    | ok states =>
      rw [hm] at h
      cases h
      have h1 := memorized_states (P := I.python) (classOf := I.classOf) hgood hI.names hI.factors hn [data]
      have h2 := memorized_states (P := I.python) (classOf := I.classOf) hgood hI.names hI.factors hn [data']
      obtain ⟨states', hs'⟩ := h2.1.mpr fun f hf => by
        obtain ⟨τ, hτ, _⟩ := h1.2 states hm f hf
        exact ⟨τ, (hfs f hf).states τ hτ⟩
      refine ⟨fun f d => (evalMemorized I.python I.classOf states' f d).map I.see, ?_, fun f hf => ?_⟩
      · show Except.map _ (memorizeFactors I.python I.stateful I.classOf I.visitNames I.visitFactors I.code [data'] fs) = _
        rw [hs']
        rfl
      obtain ⟨τ, hτ, h3⟩ := h1.2 states hm f hf
      obtain ⟨τ', hτ', h4⟩ := h2.2 states' hs' f hf
      funext d
      simp only [h3, h4, valueWith_unique hτ' ((hfs f hf).states τ hτ) d]
  values := by
    intro eval h f hf s hs
    have hval := interp_value hI hn hgood h hf
    simp only [Interp.setting] at h
    cases hm : memorizeFactors I.python I.stateful I.classOf I.visitNames I.visitFactors I.code [data] fs with
    | error e => rw [hm] at h; cases h
    | ok states =>
      rw [hm] at h
      cases h
      obtain ⟨τ, hτ, h3⟩ := (memorized_states (P := I.python) (classOf := I.classOf) hgood hI.names hI.factors hn [data]).2
        states hm f hf
      have hs1 : I.value data f = .ok s := by
        rcases hval with ⟨s1, h4, h5⟩ | ⟨_, h5⟩
        · obtain rfl : s = s1 := Except.ok.inj (hs.symm.trans h5)
          exact h4
        · rw [hs] at h5; cases h5
      obtain ⟨s', h4, h5⟩ := (hfs f hf).values s hs1
      refine ⟨s', ?_, h5⟩
      have hv := remembers_one ((hfs f hf).states τ hτ)
      simp only [Interp.value, Interp.expression] at h4 hv
      simp only [h3, hv]
      cases hp : plainValue I.python I.classOf (readSource I.stateful false ((readTokens (I.code f)).getD .nil)) data' with
      | error e => rw [hp] at h4; cases h4
      | ok v => rw [hp] at h4; exact h4

/-- What the pipeline yields when incomplete rows have been removed. -/
theorem text_thinned [Field K] {I : Interp D V A S K H} (hI : Sane I) {na' : NAAction} (hna : na'.types = I.na.types)
    (hks : ks.Pairwise (· < ·)) {isnan : K → Bool} {dataIndex dataIndex' : Option (List Build.Label)}
    (hdi : PickedLabels n ks dataIndex dataIndex') {data data' : D} {rt : ReturnType} {fin : RawEnd} {raw : List PyTok}
    (hfine : FineText I fin raw)
    (hthin : ∀ m, I.fromFormula fin raw = .ok m → ∀ f ∈ allFactors [m.lhs, m.rhs], ThinnedFactor I n ks data data' f)
    (hleft : ∀ m types, I.fromFormula fin raw = .ok m → Typed I data m types →
      (∀ r, r < n → keeps I.na isnan types (I.value data) (allFactors [m.lhs, m.rhs]) r = true → r ∈ ks) ∧
      (na'.onNA = .raise → ∀ r ∈ ks, keeps I.na isnan types (I.value data) (allFactors [m.lhs, m.rhs]) r = true))
    {t : Table String D K × Table String D K}
    (h : highLevelDesign (I.setting [data]) isnan dataIndex data rt (.text (I.fromFormula fin raw)) = .ok t) :
    ∃ t' m types, I.fromFormula fin raw = .ok m ∧ Typed I data m types ∧
      highLevelDesign (Interp.setting { I with na := na' } [data']) isnan dataIndex' data' rt (.text (I.fromFormula fin raw)) = .ok t' ∧
      SameComplete n ks (keeps I.na isnan types (I.value data) (allFactors [m.lhs, m.rhs]))
        (Indexed dataIndex (allFactors [m.lhs, m.rhs]) (I.value data)) (rt = .dataframe) t.1 t'.1 ∧
      SameComplete n ks (keeps I.na isnan types (I.value data) (allFactors [m.lhs, m.rhs]))
        (Indexed dataIndex (allFactors [m.lhs, m.rhs]) (I.value data)) (rt = .dataframe) t.2 t'.2 := by
  cases hm : I.fromFormula fin raw with
  | error e =>
    rw [hm] at h
    simp only [highLevelDesign, tryIncrBuilders] at h
    split at h <;> cases h
  | ok m =>
    rw [hm] at h
    obtain ⟨_, hnorm, hcode⟩ := fromFormula_ok hfine hm
    have hsound : Sound (K := K) data (.text (.ok m)) := by
      intro m' hm' t ht
      cases hm'
      rcases List.mem_append.mp ht with ht | ht
      · exact hnorm.1.nodup t ht
      · exact hnorm.2.nodup t ht
    have hgood : GoodCode I.stateful I.code (I.visit (allFactors [m.lhs, m.rhs])) fun f => (readTokens (I.code f)).getD .nil :=
      fine_good hfine fun f hf => hcode f ((hI.visits _).mem_iff.mp hf)
    have hn : (I.visit (allFactors [m.lhs, m.rhs])).Nodup := (hI.visits _).nodup_iff.mpr (allFactors_nodup _)
    have hS := interp_thinned hI hna hn hgood fun f hf => hthin m hm f ((hI.visits _).mem_iff.mp hf)
    have hkeep : ∀ eval types, Learned (I.setting [data]) data m eval types →
        keeps (I.setting [data]).na isnan types (fun f => eval f data) (allFactors [m.lhs, m.rhs]) =
        keeps I.na isnan types (I.value data) (allFactors [m.lhs, m.rhs]) := by
      intro eval types hl
      funext r
      show keeps I.na isnan types (fun f => eval f data) _ r = _
      unfold keeps
      rw [interp_cell hI hgood hl]
    obtain ⟨t', eval, types, h1, hl, h2, h3⟩ := complete_cases (interp_world hI [data]) hI.order hks hdi hsound rfl hS
      (by
        intro eval types hl
        rw [hkeep eval types hl]
        exact hleft m types hm (interp_typed hI hgood hl)) h
    have hix : Indexed dataIndex (allFactors [m.lhs, m.rhs]) (fun f => eval f data) =
        Indexed dataIndex (allFactors [m.lhs, m.rhs]) (I.value data) := by
      unfold Indexed
      refine propext (or_congr Iff.rfl (exists_congr fun f => and_congr_right fun hf => exists_congr fun s => ?_))
      rcases interp_value hI hn hgood hl.1 ((hI.visits _).mem_iff.mpr hf) with ⟨s1, h4, h5⟩ | ⟨⟨e, h4⟩, h5⟩
      · show eval f data = _ ∧ _ ↔ _
        rw [h4, h5]
      · show eval f data = _ ∧ _ ↔ _
        rw [h4, h5]
        simp
    rw [hkeep eval types hl, hix] at h2 h3
    exact ⟨t', m, types, rfl, interp_typed hI hgood hl, h1, h2, h3⟩

/-- **C80** for `dmatrices` with the text of a formula.  `ks` lists the rows that are left after removing some of the
incomplete rows by hand (all of them, if the second call is made with `NA_action="raise"`).  If the factors are evaluated
row by row, their stateful calls remember the same states (in particular if they have none), and no level is lost
(`ThinnedFactor`), then the second call returns the same designs and the same matrices. -/
theorem text_complete_cases [Field K] {I : Interp D V A S K H} (hI : Sane I) {na' : NAAction} (hna : na'.types = I.na.types)
    (hks : ks.Pairwise (· < ·)) {isnan : K → Bool} {dataIndex dataIndex' : Option (List Build.Label)}
    (hdi : PickedLabels n ks dataIndex dataIndex') {data data' : D} {rt : ReturnType} {fin : RawEnd} {raw : List PyTok}
    (hfine : FineText I fin raw)
    (hthin : ∀ m, I.fromFormula fin raw = .ok m → ∀ f ∈ allFactors [m.lhs, m.rhs], ThinnedFactor I n ks data data' f)
    (hleft : ∀ m types, I.fromFormula fin raw = .ok m → Typed I data m types →
      (∀ r, r < n → keeps I.na isnan types (I.value data) (allFactors [m.lhs, m.rhs]) r = true → r ∈ ks) ∧
      (na'.onNA = .raise → ∀ r ∈ ks, keeps I.na isnan types (I.value data) (allFactors [m.lhs, m.rhs]) r = true))
    {t : Table String D K × Table String D K} (h : I.dmatrices isnan dataIndex data rt fin raw = .ok t) :
    ∃ t' m types, I.fromFormula fin raw = .ok m ∧ Typed I data m types ∧
      Interp.dmatrices { I with na := na' } isnan dataIndex' data' rt fin raw = .ok t' ∧
      SameComplete n ks (keeps I.na isnan types (I.value data) (allFactors [m.lhs, m.rhs]))
        (Indexed dataIndex (allFactors [m.lhs, m.rhs]) (I.value data)) (rt = .dataframe) t.1 t'.1 ∧
      SameComplete n ks (keeps I.na isnan types (I.value data) (allFactors [m.lhs, m.rhs]))
        (Indexed dataIndex (allFactors [m.lhs, m.rhs]) (I.value data)) (rt = .dataframe) t.2 t'.2 := by
  simp only [Interp.dmatrices, Build.dmatrices, bind_eq_ok] at h
  obtain ⟨t0, h1, h2⟩ := h
  split at h2
  · cases h2
  · rename_i hc
    cases h2
    obtain ⟨t', m, types, h3, h4, h5, h6, h7⟩ := text_thinned hI hna hks hdi hfine hthin hleft h1
    refine ⟨t', m, types, h3, h4, ?_, h6, h7⟩
    simp only [Interp.dmatrices, Build.dmatrices, bind_eq_ok]
    refine ⟨t', h5, if_neg ?_⟩
    rw [Table.ncols, h6.mat]
    exact hc

/-- **C80** for `dmatrix`. -/
theorem text_complete_cases_one [Field K] {I : Interp D V A S K H} (hI : Sane I) {na' : NAAction} (hna : na'.types = I.na.types)
    (hks : ks.Pairwise (· < ·)) {isnan : K → Bool} {dataIndex dataIndex' : Option (List Build.Label)}
    (hdi : PickedLabels n ks dataIndex dataIndex') {data data' : D} {rt : ReturnType} {fin : RawEnd} {raw : List PyTok}
    (hfine : FineText I fin raw)
    (hthin : ∀ m, I.fromFormula fin raw = .ok m → ∀ f ∈ allFactors [m.lhs, m.rhs], ThinnedFactor I n ks data data' f)
    (hleft : ∀ m types, I.fromFormula fin raw = .ok m → Typed I data m types →
      (∀ r, r < n → keeps I.na isnan types (I.value data) (allFactors [m.lhs, m.rhs]) r = true → r ∈ ks) ∧
      (na'.onNA = .raise → ∀ r ∈ ks, keeps I.na isnan types (I.value data) (allFactors [m.lhs, m.rhs]) r = true))
    {t : Table String D K} (h : I.dmatrix isnan dataIndex data rt fin raw = .ok t) :
    ∃ t' m types, I.fromFormula fin raw = .ok m ∧ Typed I data m types ∧
      Interp.dmatrix { I with na := na' } isnan dataIndex' data' rt fin raw = .ok t' ∧
      SameComplete n ks (keeps I.na isnan types (I.value data) (allFactors [m.lhs, m.rhs]))
        (Indexed dataIndex (allFactors [m.lhs, m.rhs]) (I.value data)) (rt = .dataframe) t t' := by
  simp only [Interp.dmatrix, Build.dmatrix, bind_eq_ok] at h
  obtain ⟨t0, h1, h2⟩ := h
  split at h2
  · cases h2
  · rename_i hc
    cases h2
    obtain ⟨t', m, types, h3, h4, h5, h6, h7⟩ := text_thinned hI hna hks hdi hfine hthin hleft h1
    refine ⟨t'.2, m, types, h3, h4, ?_, h7⟩
    simp only [Interp.dmatrix, Build.dmatrix, bind_eq_ok]
    refine ⟨t', h5, if_neg ?_⟩
    rw [Table.ncols, h6.mat]
    exact hc

/-! ### Example -/

namespace CompleteTextSample

open Patsy.State ProgramSample FitSample2

/-- The raw tokens of `x ~ x`. -/
def raw : List PyTok := [exPy .name "x" 0, exPy .op "~" 1, exPy .name "x" 2, exPy .newline "" 11, exPy .endmarker "" 12]

/-- The second value is missing. -/
def all : Col := colOf [1, 99, 3, 6]

def rest : Col := colOf [1, 3, 6]

/-- The same with `NA_action="raise"`. -/
abbrev strict : Interp Col Col (Unit × Col) (State.Center Unit ℚ) ℚ (Redundancy.Subterm String) :=
  { ReorderSample.interp with na := { onNA := .raise } }

theorem fine : FineText ReorderSample.interp .exhausted raw :=
  ProgramSample.fine_body _ rfl rfl (body := [exPy .name "x" 0, exPy .op "~" 1, exPy .name "x" 2]) rfl (by decide)
    (by unfold ProgramSample.AllExpressions; decide +kernel)

def model : ModelDesc String := ⟨[⟨["x"]⟩], [⟨[]⟩, ⟨["x"]⟩]⟩

theorem model_ok : ReorderSample.interp.fromFormula .exhausted raw = .ok model :=
  eq_ok_of_okIs (by decide +kernel)

theorem value (d : Col) : ReorderSample.interp.value d "x" = .ok (ReorderSample.see d) := rfl

theorem thinned : ThinnedFactor ReorderSample.interp 4 [0, 2, 3] all rest "x" where
  states _ := no_calls_states rfl
  values s hs := by
    rw [value] at hs
    cases hs
    exact ⟨_, value _, ⟨⟨rfl, rfl, rfl, fun _ => ⟨rfl, rfl⟩⟩, fun _ => ⟨rfl, rfl⟩, trivial⟩,
      by simp [LevelsLeft, sniffed, ReorderSample.see], by simp [Spec.Plain, sniffed, withBools, ReorderSample.see]⟩

theorem left (types : Types String ℚ) (h : Typed ReorderSample.interp all model types) (r : Nat) (hr : r < 4) :
    keeps ReorderSample.interp.na FitSample.isnan types (ReorderSample.interp.value all) (allFactors [model.lhs, model.rhs]) r = true ↔
      r ∈ [0, 2, 3] := by
  obtain ⟨s, T, h1, h2, h3⟩ := h "x" (by decide)
  rw [value] at h1
  cases h1
  cases h3
  have hfs : allFactors [model.lhs, model.rhs] = ["x"] := by decide
  rw [hfs]
  simp only [keeps, List.all_cons, List.all_nil, Bool.and_true, factorCell, h2, value]
  interval_cases r <;> decide +kernel

theorem both_ok : isOk (ReorderSample.interp.dmatrices FitSample.isnan none all .dataframe .exhausted raw) = true ∧
    isOk (strict.dmatrices FitSample.isnan none rest .dataframe .exhausted raw) = true ∧
    isOk (ReorderSample.interp.dmatrix FitSample.isnan none all .dataframe .exhausted (raw.drop 2)) = true ∧
    isOk (strict.dmatrix FitSample.isnan none rest .dataframe .exhausted (raw.drop 2)) = true := by decide +kernel

end CompleteTextSample

open CompleteTextSample in
/-- Example for `text_complete_cases`: `x ~ x` where one value of `x` is missing.  If this row is removed by hand, the call with
`NA_action="raise"` gives the same matrices. -/
example : Sane ReorderSample.interp ∧ FineText ReorderSample.interp .exhausted raw ∧
    (∀ m, ReorderSample.interp.fromFormula .exhausted raw = .ok m → ∀ f ∈ allFactors [m.lhs, m.rhs],
      ThinnedFactor ReorderSample.interp 4 [0, 2, 3] all rest f) ∧
    (∀ m types, ReorderSample.interp.fromFormula .exhausted raw = .ok m → Typed ReorderSample.interp all m types →
      ∀ r, r < 4 → (keeps ReorderSample.interp.na FitSample.isnan types (ReorderSample.interp.value all)
        (allFactors [m.lhs, m.rhs]) r = true ↔ r ∈ [0, 2, 3])) ∧
    ∃ t t', ReorderSample.interp.dmatrices FitSample.isnan none all .dataframe .exhausted raw = .ok t ∧
      strict.dmatrices FitSample.isnan none rest .dataframe .exhausted raw = .ok t' ∧
      t.2.mat = ⟨3, [[1, 1, 1], [1, 3, 6]]⟩ ∧ t'.2.mat = t.2.mat ∧ t'.1.mat = t.1.mat := by
  refine ⟨ReorderSample.real.toSane, fine, ?_, ?_, getOk _ both_ok.1, getOk _ both_ok.2.1, getOk_eq _, getOk_eq _,
    by decide +kernel, by decide +kernel, by decide +kernel⟩
  · intro m hm f hf
    cases model_ok.symm.trans hm
    obtain rfl : f = "x" := by
      have : allFactors [model.lhs, model.rhs] = ["x"] := by decide
      rw [this] at hf
      simpa using hf
    exact thinned
  · intro m types hm ht
    cases model_ok.symm.trans hm
    exact left types ht

open CompleteTextSample in
/-- Example for `text_complete_cases_one`: the same for `x`, without a left-hand side. -/
example : ∃ t t', ReorderSample.interp.dmatrix FitSample.isnan none all .dataframe .exhausted (raw.drop 2) = .ok t ∧
      strict.dmatrix FitSample.isnan none rest .dataframe .exhausted (raw.drop 2) = .ok t' ∧
      t.mat = ⟨3, [[1, 1, 1], [1, 3, 6]]⟩ ∧ t'.mat = t.mat ∧
      t.index = some [.row 0, .row 2, .row 3] ∧ t'.index = some [.row 0, .row 1, .row 2] :=
  ⟨getOk _ both_ok.2.2.1, getOk _ both_ok.2.2.2, getOk_eq _, getOk_eq _, by decide +kernel, by decide +kernel,
    by decide +kernel, by decide +kernel⟩

end Patsy.Props
