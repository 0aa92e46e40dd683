import Verif.Props.ChunkedDesign
import Verif.Props.ReorderText

/-!
# C66 for formulas given as text
-/

set_option linter.unusedSectionVars false

namespace Patsy.Props

open Patsy.Tokens Patsy.Desc Patsy.EvalFactor Patsy.Build Patsy.Cat Patsy.Spec Patsy.Calls Patsy.Formula Patsy.Program Patsy.Memorize Patsy.Passes

variable {D V A S K H : Type} [DecidableEq H] {n : Nat}

/-- Factors that do not care about chunks. -/
theorem interp_chunked {I : Interp D V A S K H} (hI : Sane I) {J : Joins n D V A}
    (hsee : ∀ v w, J.value v w → JoinedSeen (List.ofFn fun i => I.see (v i)) (I.see w)) {d : Fin n → D} {whole : D}
    (hd : J.data d whole) {fs : List String} (hn : fs.Nodup)
    (hgood : GoodCode I.stateful I.code fs fun f => (readTokens (I.code f)).getD .nil)
    (hfs : ∀ f ∈ fs, Chunkable I J whole f) : Chunked (I.setting (List.ofFn d)) (I.setting [whole]) (List.ofFn d) whole fs := by
  have hmem : ∀ eval, (I.setting (List.ofFn d)).memorize fs = .ok eval →
      ∃ eval', (I.setting [whole]).memorize fs = .ok eval' ∧ ∀ f ∈ fs, eval' f = eval f := by
    intro eval h
    simp only [Interp.setting] at h ⊢
    cases hm : memorizeFactors I.python I.stateful I.classOf I.visitNames I.visitFactors I.code (List.ofFn d) fs with
    | error e => rw [hm] at h; cases h
    | ok states =>
      rw [hm] at h
      cases h
      have h1 := memorized_states (P := I.python) (classOf := I.classOf) hgood hI.names hI.factors hn (List.ofFn d)
      have h2 := memorized_states (P := I.python) (classOf := I.classOf) hgood hI.names hI.factors hn [whole]
      have hmove : ∀ f ∈ fs, ∀ τ, Remembers I.python I.classOf (List.ofFn d) (I.expression f) τ →
          Remembers I.python I.classOf [whole] (I.expression f) τ := by
        intro f hf τ hτ
        exact remembers_joined hd (hfs f hf).code (hfs f hf).classes hτ
      obtain ⟨states', hs'⟩ := h2.1.mpr fun f hf => by
        obtain ⟨τ, hτ, _⟩ := h1.2 states hm f hf
        exact ⟨τ, hmove f hf τ hτ⟩
      refine ⟨fun f d => (evalMemorized I.python I.classOf states' f d).map I.see, by rw [hs']; rfl, fun f hf => ?_⟩
      obtain ⟨τ, hτ, h3⟩ := h1.2 states hm f hf
      obtain ⟨τ', hτ', h4⟩ := h2.2 states' hs' f hf
      funext d
      simp only [h3, h4, valueWith_unique hτ' (hmove f hf τ hτ) d]
  refine ⟨⟨rfl, rfl, rfl, rfl, rfl, rfl⟩, hmem, ?_⟩
  intro eval h f hf ss hss
  obtain ⟨eval', h', hee⟩ := hmem eval h
  have hval := interp_value hI hn hgood h' hf
  rw [hee f hf] at hval
  simp only [Interp.setting] at h
  cases hm : memorizeFactors I.python I.stateful I.classOf I.visitNames I.visitFactors I.code (List.ofFn d) fs with
  | error e => rw [hm] at h; cases h
  | ok states =>
    rw [hm] at h
    cases h
    beta_reduce at hss hval ⊢
    obtain ⟨s, rfl, hs⟩ := mapM_ofFn hss
    have : ∀ i, ∃ v, evalMemorized I.python I.classOf states f (d i) = .ok v ∧ I.see v = s i := by
      intro i
      have := hs i
      cases hc : evalMemorized I.python I.classOf states f (d i) with
      | error e => rw [hc] at this; cases this
      | ok v => rw [hc] at this; exact ⟨v, rfl, Except.ok.inj this⟩
    choose v hv hvs using this
    obtain ⟨w, h1, h2⟩ := (chunked_values hgood hI.names hI.factors hn hd hm hf (hfs f hf).code (hfs f hf).classes).2 v hv
    refine ⟨I.see w, by rw [h2]; rfl, ?_, ?_⟩
    · have := hsee v w h1
      simpa only [hvs] using this
    · rw [h2] at hval
      rcases hval with ⟨s1, h4, h5⟩ | ⟨_, h5⟩
      · cases h5
        exact (hfs f hf).unmixed _ h4
      · cases h5

/-- What a text yields, and what is known about its factors. -/
theorem text_chunked {I : Interp D V A S K H} (hI : Sane I) {J : Joins n D V A}
    (hsee : ∀ v w, J.value v w → JoinedSeen (List.ofFn fun i => I.see (v i)) (I.see w)) {d : Fin n → D} {whole : D}
    (hd : J.data d whole) {fin : RawEnd} {raw : List PyTok} (hfine : FineText I fin raw) {m : ModelDesc String}
    (hm : I.fromFormula fin raw = .ok m) (hun : ∀ f ∈ allFactors [m.lhs, m.rhs], Chunkable I J whole f) :
    Sound (K := K) whole (.text (.ok m)) ∧
    Chunked (I.setting (List.ofFn d)) (I.setting [whole]) (List.ofFn d) whole (I.visit (allFactors [m.lhs, m.rhs])) ∧
    ∀ dataIndex eval, (I.setting [whole]).memorize (I.visit (allFactors [m.lhs, m.rhs])) = .ok eval →
      Indexed dataIndex (allFactors [m.lhs, m.rhs]) (fun f => eval f whole) =
        Indexed dataIndex (allFactors [m.lhs, m.rhs]) (I.value whole) := by
  obtain ⟨_, hnorm, hcode⟩ := fromFormula_ok hfine hm
  have hgood : GoodCode I.stateful I.code (I.visit (allFactors [m.lhs, m.rhs])) fun f => (readTokens (I.code f)).getD .nil :=
    fine_good hfine fun f hf => hcode f ((hI.visits _).mem_iff.mp hf)
  have hn : (I.visit (allFactors [m.lhs, m.rhs])).Nodup := (hI.visits _).nodup_iff.mpr (allFactors_nodup _)
  refine ⟨?_, interp_chunked hI hsee hd hn hgood fun f hf => hun f ((hI.visits _).mem_iff.mp hf), ?_⟩
  · intro m' hm' t ht
    cases hm'
    rcases List.mem_append.mp ht with ht | ht
    · exact hnorm.1.nodup t ht
    · exact hnorm.2.nodup t ht
  · intro dataIndex eval he
    unfold Indexed
    refine propext (or_congr Iff.rfl (exists_congr fun f => and_congr_right fun hf => exists_congr fun s => ?_))
    rcases interp_value hI hn hgood he ((hI.visits _).mem_iff.mpr hf) with ⟨s1, h4, h5⟩ | ⟨⟨e, h4⟩, h5⟩
    · show eval f whole = _ ∧ _ ↔ _
      rw [h4, h5]
    · show eval f whole = _ ∧ _ ↔ _
      rw [h4, h5]
      simp

/-- **C66**.  A formula given as text, and data in chunks.  If the code of the factors works row by row and its stateful
transforms do not mind the chunks (`Chunkable`), then the designs that `incr_dbuilders` makes of the chunks are those that
`dmatrices` makes of the whole data, and the matrices of `dmatrices` are those that `build_design_matrices` builds from the
chunks, one above the other. -/
theorem text_chunks [Field K] {I : Interp D V A S K H} (hI : Sane I) {isnan : K → Bool} {J : Joins (n + 1) D V A}
    (hsee : ∀ v w, J.value v w → JoinedSeen (List.ofFn fun i => I.see (v i)) (I.see w)) {parts : Fin (n + 1) → Part D K}
    {whole : D} (hd : J.data (fun i => (parts i).data) whole) {dataIndex : Option (List Build.Label)}
    (hdi : JoinedLabels (List.ofFn fun i => (parts i).index) dataIndex) {rt : ReturnType} (hrt : rt ≠ .other) {fin : RawEnd}
    {raw : List PyTok} (hfine : FineText I fin raw)
    (hun : ∀ m, I.fromFormula fin raw = .ok m → ∀ f ∈ allFactors [m.lhs, m.rhs], Chunkable I J whole f)
    {l r : DesignInfo String D K}
    (h : incrDbuilders (I.setting (List.ofFn fun i => (parts i).data)) (List.ofFn fun i => (parts i).data)
      (.text (I.fromFormula fin raw)) = .ok (l, r))
    (hb : ∀ i, buildDesignMatrices isnan I.na (rt = .dataframe) (parts i).index [l, r] (parts i).data = .ok (parts i).built) :
    ∃ t m, I.fromFormula fin raw = .ok m ∧ I.dmatrices isnan dataIndex whole rt fin raw = .ok t ∧ t.1.info = l ∧ t.2.info = r ∧
      StackedTable (rt = .dataframe) (Indexed dataIndex (allFactors [m.lhs, m.rhs]) (I.value whole)) (List.ofFn parts) 0 t.1 ∧
      StackedTable (rt = .dataframe) (Indexed dataIndex (allFactors [m.lhs, m.rhs]) (I.value whole)) (List.ofFn parts) 1 t.2 := by
  cases hm : I.fromFormula fin raw with
  | error e =>
    rw [hm] at h
    cases h
  | ok m =>
    rw [hm] at h
    obtain ⟨hsound, hS, hix⟩ := text_chunked hI hsee hd hfine hm (hun m hm)
    have e1 : (List.ofFn parts).map (·.data) = List.ofFn fun i => (parts i).data := by rw [List.map_ofFn]; rfl
    have e2 : (List.ofFn parts).map (·.index) = List.ofFn fun i => (parts i).index := by rw [List.map_ofFn]; rfl
    rw [← e1] at hS
    rw [← e2] at hdi
    obtain ⟨t, eval, h1, h2, h3, h4, h5, h6⟩ := chunks_together (interp_world hI _) (by simp [List.ofFn_succ]) hsound rfl hS
      (by rw [e1]; exact h) hrt hdi (by
        intro p hp
        obtain ⟨i, rfl⟩ := List.mem_ofFn.mp hp
        exact hb i)
    rw [hix dataIndex eval h4] at h5 h6
    refine ⟨t, m, rfl, ?_, h2, h3, h5, h6⟩
    simp only [Interp.dmatrices, hm]
    exact h1

/-- **C66** for `incr_dbuilder` and `dmatrix`. -/
theorem text_chunks_one [Field K] {I : Interp D V A S K H} (hI : Sane I) {isnan : K → Bool} {J : Joins (n + 1) D V A}
    (hsee : ∀ v w, J.value v w → JoinedSeen (List.ofFn fun i => I.see (v i)) (I.see w)) {parts : Fin (n + 1) → Part D K}
    {whole : D} (hd : J.data (fun i => (parts i).data) whole) {dataIndex : Option (List Build.Label)}
    (hdi : JoinedLabels (List.ofFn fun i => (parts i).index) dataIndex) {rt : ReturnType} (hrt : rt ≠ .other) {fin : RawEnd}
    {raw : List PyTok} (hfine : FineText I fin raw)
    (hun : ∀ m, I.fromFormula fin raw = .ok m → m.lhs = [] ∧ ∀ f ∈ allFactors [m.lhs, m.rhs], Chunkable I J whole f)
    {r : DesignInfo String D K}
    (h : incrDbuilder (I.setting (List.ofFn fun i => (parts i).data)) (List.ofFn fun i => (parts i).data)
      (.text (I.fromFormula fin raw)) = .ok r)
    (hb : ∀ i, buildDesignMatrices isnan I.na (rt = .dataframe) (parts i).index [r] (parts i).data = .ok (parts i).built) :
    ∃ t m, I.fromFormula fin raw = .ok m ∧ I.dmatrix isnan dataIndex whole rt fin raw = .ok t ∧ t.info = r ∧
      StackedTable (rt = .dataframe) (Indexed dataIndex (allFactors [m.lhs, m.rhs]) (I.value whole)) (List.ofFn parts) 0 t := by
  cases hm : I.fromFormula fin raw with
  | error e =>
    rw [hm] at h
    cases h
  | ok m =>
    rw [hm] at h
    obtain ⟨hsound, hS, hix⟩ := text_chunked hI hsee hd hfine hm (hun m hm).2
    have e1 : (List.ofFn parts).map (·.data) = List.ofFn fun i => (parts i).data := by rw [List.map_ofFn]; rfl
    have e2 : (List.ofFn parts).map (·.index) = List.ofFn fun i => (parts i).index := by rw [List.map_ofFn]; rfl
    rw [← e1] at hS
    rw [← e2] at hdi
    obtain ⟨t, eval, h1, h2, h3, h4⟩ := chunks_together_one (interp_world hI _) (by simp [List.ofFn_succ]) hsound rfl (hun m hm).1 hS
      (by rw [e1]; exact h) hrt hdi (by
        intro p hp
        obtain ⟨i, rfl⟩ := List.mem_ofFn.mp hp
        exact hb i)
    rw [hix dataIndex eval h3] at h4
    refine ⟨t, m, rfl, ?_, h2, h4⟩
    simp only [Interp.dmatrix, hm]
    exact h1

/-! ### Example -/

namespace ReorderSample

open ProgramSample FitSample2

theorem chunkable (whole : Col) (f : String) : Chunkable interp colJoins whole f where
  code := sample_rowwise _
  classes _ _ := center_chunkFree (n := 1) _
  unmixed s hs := by
    have : ∃ c, s = see c := by
      simp only [Interp.value] at hs
      cases hp : plainValue interp.python interp.classOf (interp.expression f) whole with
      | error e => rw [hp] at hs; cases hs
      | ok c => rw [hp] at hs; exact ⟨c, (Except.ok.inj hs).symm⟩
    obtain ⟨c, rfl⟩ := this
    exact .inr (by simp [sniffed, withBools, see])

theorem see_joined (v : Fin 2 → Col) (w : Col) (h : colJoins.value v w) :
    JoinedSeen (List.ofFn fun i => interp.see (v i)) (interp.see w) := by
  simp only [colJoins, rowJoins] at h
  subst h
  refine ⟨⟨List.ofFn fun i => .array .number 1 1 ((v i).map fun r => .float (r ())), ?_, le_rfl,
    List.ofFn fun i => (v i).map fun r => .float (r ()), ?_, fun _ => ?_⟩, fun _ => ?_, ?_⟩
  · simp [List.map_ofFn, Function.comp_def, interp, see]
  · simp [List.map_ofFn, Function.comp_def]
  · exact map_flatten_ofFn _ _
  · show (List.ofFn v).flatten.map _ = _
    rw [map_flatten_ofFn]
    simp [List.map_ofFn, Function.comp_def, interp, see]
  · simp [JoinedLabels, interp, see]

def two (i : Fin 2) : Col := if i = 0 then colOf [1, 2] else colOf [3, 6]

def textDesigns : Except Err (DesignInfo String Col ℚ × DesignInfo String Col ℚ) :=
  incrDbuilders (interp.setting (List.ofFn two)) (List.ofFn two) (.text (interp.fromFormula .exhausted raw))

def textBuilt (i : Fin 2) : Except Err (Built ℚ) := do
  let p ← textDesigns
  buildDesignMatrices FitSample.isnan interp.na false none [p.1, p.2] (two i)

theorem text_built_ok : isOk textDesigns = true ∧ isOk (textBuilt 0) = true ∧ isOk (textBuilt 1) = true := by decide +kernel

def oneDesign : Except Err (DesignInfo String Col ℚ) :=
  incrDbuilder (interp.setting (List.ofFn two)) (List.ofFn two) (.text (interp.fromFormula .exhausted oneRaw))

def oneBuilt (i : Fin 2) : Except Err (Built ℚ) := do
  let p ← oneDesign
  buildDesignMatrices FitSample.isnan interp.na false none [p] (two i)

theorem one_built_ok : isOk oneDesign = true ∧ isOk (oneBuilt 0) = true ∧ isOk (oneBuilt 1) = true := by decide +kernel

end ReorderSample

open ReorderSample in
/-- Example for `text_chunks`: `x ~ center(x + center(x))` on the chunks 1, 2 and 3, 6. -/
example : Sane interp ∧ (∀ v w, colJoins.value v w → JoinedSeen (List.ofFn fun i => interp.see (v i)) (interp.see w)) ∧
    colJoins.data two FitSample2.rows ∧ FineText interp .exhausted ProgramSample.raw ∧
    (∀ f, Chunkable interp colJoins FitSample2.rows f) ∧ (∃ p, textDesigns = .ok p) ∧
    (∃ b, textBuilt 0 = .ok b ∧ b.mats = [⟨2, [[1, 2]]⟩, ⟨2, [[1, 1], [-4, -2]]⟩]) ∧
    (∃ b, textBuilt 1 = .ok b ∧ b.mats = [⟨2, [[3, 6]]⟩, ⟨2, [[1, 1], [0, 6]]⟩]) ∧
    ∃ t, interp.dmatrices FitSample.isnan none FitSample2.rows .matrix .exhausted ProgramSample.raw = .ok t ∧
      t.1.mat = ⟨4, [[1, 2, 3, 6]]⟩ ∧ t.2.mat = ⟨4, [[1, 1, 1, 1], [-4, -2, 0, 6]]⟩ :=
  ⟨real.toSane, see_joined, rfl, ProgramSample.fine_of _ rfl rfl, chunkable _, ⟨_, getOk_eq text_built_ok.1⟩,
    ⟨_, getOk_eq text_built_ok.2.1, by decide +kernel⟩, ⟨_, getOk_eq text_built_ok.2.2, by decide +kernel⟩,
    getOk _ text_ok.1, getOk_eq _, by decide +kernel, by decide +kernel⟩

open ReorderSample in
/-- Example for `text_chunks_one`: the same without the left side. -/
example : FineText interp .exhausted oneRaw ∧ (∃ d, oneDesign = .ok d) ∧
    (∃ b, oneBuilt 0 = .ok b ∧ b.mats = [⟨2, [[1, 1], [-4, -2]]⟩]) ∧
    (∃ b, oneBuilt 1 = .ok b ∧ b.mats = [⟨2, [[1, 1], [0, 6]]⟩]) ∧
    ∃ t, interp.dmatrix FitSample.isnan none FitSample2.rows .matrix .exhausted oneRaw = .ok t ∧
      t.mat = ⟨4, [[1, 1, 1, 1], [-4, -2, 0, 6]]⟩ :=
  ⟨one_fine, ⟨_, getOk_eq one_built_ok.1⟩,
    ⟨_, getOk_eq one_built_ok.2.1, by decide +kernel⟩, ⟨_, getOk_eq one_built_ok.2.2, by decide +kernel⟩,
    getOk _ one_ok.1, getOk_eq _, by decide +kernel⟩

end Patsy.Props
