import Verif.Props.Recode
import Verif.Props.Predict

/-! # C74: predictions do not depend on how the variables are coded -/

set_option linter.unusedSectionVars false

namespace Patsy.Props

open Patsy.Build Patsy.Desc Patsy.Cat Patsy.Spec Patsy.Contrast Patsy.Redundancy

variable {F D K H : Type} [DecidableEq F] [Field K] [DecidableEq H]

/-! ### Parts of the rows -/

theorem expressed_restrict {n k : Nat} {nums nums' : List (F × Nat)} {ts ts' : List (Term F)}
    {row row' : Fin n → F → Option (Cell K)} {τ : F → F} (h : Expressed nums ts row nums' ts' row' τ) (g : Fin k → Fin n) :
    Expressed nums ts (fun i => row (g i)) nums' ts' (fun i => row' (g i)) τ where
  terms := h.terms
  distinct := h.distinct
  kinds := h.kinds
  levels := fun t' ht' f hf hn i i' => h.levels t' ht' f hf hn (g i) (g i')
  columns := by
    intro t' ht' f hf m m' hm hm' j hj
    obtain ⟨q, a, hq, ha⟩ := h.columns t' ht' f hf m m' hm hm' j hj
    exact ⟨q, a, hq, fun i => ha (g i)⟩

theorem ofFn_prefix {A : Type} {n : Nat} {rows new : List A} {row : Fin n → A} (h : rows ++ new = List.ofFn row)
    (hn : rows.length ≤ n) : rows = List.ofFn fun i : Fin rows.length => row ⟨i, by omega⟩ := by
  apply List.ext_getElem
  · simp
  · intro i h1 h2
    have h3 : (rows ++ new)[i]? = some rows[i] := by rw [List.getElem?_append_left h1, List.getElem?_eq_getElem h1]
    rw [h, List.getElem?_ofFn, dif_pos (by omega)] at h3
    simpa using (Option.some.inj h3).symm

theorem recoded_prefix {nums nums' : List (F × Nat)} {ts ts' : List (Term F)}
    {rows new rows' new' : List (F → Option (Cell K))} (hl : rows.length = rows'.length)
    (h : Recoded nums ts (rows ++ new) nums' ts' (rows' ++ new')) : Recoded nums ts rows nums' ts' rows' := by
  obtain ⟨n, row, row', σ, τ, hr, hr', h1, h2⟩ := h
  have hn : rows.length ≤ n := by
    have := congrArg List.length hr
    simp at this
    omega
  refine ⟨rows.length, fun i => row ⟨i, by omega⟩, fun i => row' ⟨i, by omega⟩, σ, τ, ofFn_prefix hr hn, ?_,
    expressed_restrict h1 _, expressed_restrict h2 _⟩
  refine (ofFn_prefix hr' (by omega)).trans ?_
  exact List.ofFn_congr hl.symm _

theorem modelFunction_of_rows {n : Nat} {types : Types F K} {ts : List (Term F)} {rows : List (F → Option (Cell K))}
    {row : Fin n → F → Option (Cell K)} (hr : rows = List.ofFn row) (hn : rows.length = n) (w : Fin n → K) :
    ModelFunction types ts rows (fun i => w ⟨i, by omega⟩) ↔ w ∈ termSpace types.1 ts row := by
  subst hn
  rw [ModelFunction, termSpace_eq]
  have : (fun i : Fin rows.length => rows[i]) = row := by
    funext i
    have : rows[i.val]? = some (row i) := (congrArg (fun l => l[i.val]?) hr).trans (by simp)
    simpa using this
  rw [this]

/-- The predictions of two matrices on new rows, if the rows of the second model can be computed from those of the first. -/
theorem extends_computed {types types' : Types F K} {ts ts' : List (Term F)}
    {rows new rows' new' : List (F → Option (Cell K))} {cols cols' c c' : List (List K)} (hl : cols.length = cols'.length)
    (h : Extends types ts rows new cols cols') (h' : Extends types' ts' rows' new' c c')
    (hi : LinearIndependent K (columnVectors rows.length cols)) (hrows : rows.length = rows'.length)
    (hc : Computed types.1 ts (rows ++ new) types'.1 ts' (rows' ++ new')) {b b' : Nat → K}
    (he : weighted rows.length cols b = weighted rows.length c b') :
    new.length = new'.length ∧ weighted new.length cols' b = weighted new.length c' b' := by
  obtain ⟨n, row, row', τ, hr, hr', hex⟩ := hc
  have hn : rows.length + new.length = n := by simpa using congrArg List.length hr
  have hn' : rows'.length + new'.length = n := by simpa using congrArg List.length hr'
  have hnew : new.length = new'.length := by omega
  refine ⟨hnew, ?_⟩
  let w : Fin n → K := fun i => if hlt : i.1 < rows.length then weighted rows.length c b' ⟨i, hlt⟩ else
    weighted new.length c' b' ⟨i.1 - rows.length, by omega⟩
  have hw' : ModelFunction types' ts' (rows' ++ new')
      (fun i => w ⟨i, by have := i.2; simp only [List.length_append] at this; omega⟩) := by
    refine (h' _).mpr ⟨b', ?_, ?_⟩
    · funext i
      have := i.2
      simp only [oldPart, w, hrows, i.2, dite_true]
      rfl
    · funext i
      have := i.2
      have hge : ¬ rows'.length + i.1 < rows.length := by omega
      simp only [newPart, w, dif_neg hge]
      have : rows'.length + i.1 - rows.length = i.1 := by omega
      simp only [this]
      rfl
  have hw : ModelFunction types ts (rows ++ new)
      (fun i => w ⟨i, by have := i.2; simp only [List.length_append] at this; omega⟩) := by
    rw [modelFunction_of_rows hr (by simpa using hn)]
    exact expressed_le hex ((modelFunction_of_rows hr' (by simpa using hn') w).mp hw')
  have := prediction_unique hl h hi hw (b := b) ?_
  · rw [← this]
    funext i
    simp [newPart, w]
  · rw [he]
    funext i
    simp [oldPart, w]

/-- A model on data, and the number of rows of new data. -/
def FitsBoth (P : Setting F D K H) (dataIndex : Option (List Label)) (data : D) (m : ModelDesc F) (na : NAAction)
    (newIndex : Option (List Label)) (new : D) (eval : F → D → Except Err (Seen K)) (types : Types F K) (n k : Nat) : Prop :=
  Fits P dataIndex data m eval types n ∧ RowCount na types (fun f => eval f new) (allFactors [m.rhs]) newIndex k

/-- The rows of the new data that are kept. -/
def newRowsOf (na : NAAction) (isnan : K → Bool) (m : ModelDesc F) (new : D) (eval : F → D → Except Err (Seen K))
    (types : Types F K) (k : Nat) : List (F → Option (Cell K)) :=
  keptCells na isnan types (fun f => eval f new) (allFactors [m.rhs]) k

/-- **C74**.  Two models on two descriptions of the same old and new rows.  If the second description can be computed from the
first, by the same rule on the old and on the new rows, and the columns of the first matrix are independent, then
coefficients that give the same values on the old rows give the same predictions on the new rows. -/
theorem computed_same_predictions {P P' : Setting F D K H} (hw : World P) (hw' : World P') (hcodes : CodesFit P)
    (hcodes' : CodesFit P') {isnan isnan' : K → Bool} {dataIndex dataIndex' : Option (List Label)} {data data' : D}
    {rt rt' : ReturnType} {f f' : FormulaLike F D K} (hf : Sound data f) (hf' : Sound data' f') {m m' : ModelDesc F}
    (hm : modelOf f = some m) (hm' : modelOf f' = some m') {t t' : Table F D K × Table F D K}
    (h : highLevelDesign P isnan dataIndex data rt f = .ok t)
    (h' : highLevelDesign P' isnan' dataIndex' data' rt' f' = .ok t')
    {na na' : NAAction} {frame frame' : Bool} {newIndex newIndex' : Option (List Label)} {new new' : D} {b b' : Built K}
    (hb : buildDesignMatrices isnan na frame newIndex [t.2.info] new = .ok b)
    (hb' : buildDesignMatrices isnan' na' frame' newIndex' [t'.2.info] new' = .ok b')
    (hgood : ∀ eval types n k eval' types' n' k', FitsBoth P dataIndex data m na newIndex new eval types n k →
      FitsBoth P' dataIndex' data' m' na' newIndex' new' eval' types' n' k' →
      WellCoded P types m.rhs ∧ WellCoded P' types' m'.rhs ∧
      (modelRows P isnan data m eval types n).length = (modelRows P' isnan' data' m' eval' types' n').length ∧
      Computed types.1 m.rhs (modelRows P isnan data m eval types n ++ newRowsOf na isnan m new eval types k)
        types'.1 m'.rhs (modelRows P' isnan' data' m' eval' types' n' ++ newRowsOf na' isnan' m' new' eval' types' k'))
    (hind : LinearIndependent K (columnVectors t.2.mat.nrows t.2.mat.cols)) :
    ∃ mat mat', b.mats = [mat] ∧ b'.mats = [mat'] ∧ t.2.mat.nrows = t'.2.mat.nrows ∧ mat.nrows = mat'.nrows ∧
      ∀ β β', weighted t.2.mat.nrows t.2.mat.cols β = weighted t.2.mat.nrows t'.2.mat.cols β' →
        weighted mat.nrows mat.cols β = weighted mat.nrows mat'.cols β' := by
  obtain ⟨eval, types, n, hl, hn, hr, hall⟩ := predictions_extend hw hcodes hf hm h
  obtain ⟨eval', types', n', hl', hn', hr', hall'⟩ := predictions_extend hw' hcodes' hf' hm' h'
  obtain ⟨mat, k, e1, hk, hrk, hext⟩ := hall _ _ _ _ _ hb
  obtain ⟨mat', k', e1', hk', hrk', hext'⟩ := hall' _ _ _ _ _ hb'
  obtain ⟨hc, hc', hlen, hcomp⟩ := hgood _ _ _ _ _ _ _ _ ⟨⟨hl, hn⟩, hk⟩ ⟨⟨hl', hn'⟩, hk'⟩
  obtain ⟨hlc, hext⟩ := hext hc
  obtain ⟨_, hext'⟩ := hext' hc'
  have hnew : mat.nrows = mat'.nrows := by
    rw [hrk, hrk']
    obtain ⟨j, row, row', τ, ha, ha', _⟩ := hcomp
    have h1 := congrArg List.length ha
    have h2 := congrArg List.length ha'
    simp only [List.length_append, List.length_ofFn, newRowsOf] at h1 h2
    omega
  refine ⟨mat, mat', e1, e1', hr.trans (hlen.trans hr'.symm), hnew, ?_⟩
  rw [hr] at hind ⊢
  rw [hrk]
  intro β β' he
  exact (extends_computed hlc hext hext' hind hlen hcomp he).2

/-- **C74**.  Other units, another origin, another basis of the same curves, other names of the levels, for the old and the
new rows alike: linear regression gives the same predictions. -/
theorem recoded_same_regression {K : Type} [Field K] [LinearOrder K] [IsStrictOrderedRing K] {P P' : Setting F D K H}
    (hw : World P) (hw' : World P') (hcodes : CodesFit P) (hcodes' : CodesFit P') {isnan isnan' : K → Bool}
    {dataIndex dataIndex' : Option (List Label)} {data data' : D} {rt rt' : ReturnType} {f f' : FormulaLike F D K}
    (hf : Sound data f) (hf' : Sound data' f') {m m' : ModelDesc F} (hm : modelOf f = some m) (hm' : modelOf f' = some m')
    {t t' : Table F D K × Table F D K} (h : highLevelDesign P isnan dataIndex data rt f = .ok t)
    (h' : highLevelDesign P' isnan' dataIndex' data' rt' f' = .ok t')
    {na na' : NAAction} {frame frame' : Bool} {newIndex newIndex' : Option (List Label)} {new new' : D} {b b' : Built K}
    (hb : buildDesignMatrices isnan na frame newIndex [t.2.info] new = .ok b)
    (hb' : buildDesignMatrices isnan' na' frame' newIndex' [t'.2.info] new' = .ok b')
    (hgood : ∀ eval types n k eval' types' n' k', FitsBoth P dataIndex data m na newIndex new eval types n k →
      FitsBoth P' dataIndex' data' m' na' newIndex' new' eval' types' n' k' →
      WellCoded P types m.rhs ∧ WellCoded P' types' m'.rhs ∧
      (modelRows P isnan data m eval types n).length = (modelRows P' isnan' data' m' eval' types' n').length ∧
      Recoded types.1 m.rhs (modelRows P isnan data m eval types n ++ newRowsOf na isnan m new eval types k)
        types'.1 m'.rhs (modelRows P' isnan' data' m' eval' types' n' ++ newRowsOf na' isnan' m' new' eval' types' k'))
    (hind : LinearIndependent K (columnVectors t.2.mat.nrows t.2.mat.cols)) :
    ∃ mat mat', b.mats = [mat] ∧ b'.mats = [mat'] ∧ mat.nrows = mat'.nrows ∧
      ∀ y β β', Fitted t.2.mat.nrows t.2.mat.cols y (weighted t.2.mat.nrows t.2.mat.cols β) →
        Fitted t.2.mat.nrows t'.2.mat.cols y (weighted t.2.mat.nrows t'.2.mat.cols β') →
        weighted mat.nrows mat.cols β = weighted mat.nrows mat'.cols β' := by
  obtain ⟨mat, mat', e1, e1', _, hrows, hall⟩ :=
    computed_same_predictions hw hw' hcodes hcodes' hf hf' hm hm' h h' hb hb' (by
      intro eval types n k eval' types' n' k' hx hx'
      obtain ⟨h1, h2, h3, j, row, row', σ, τ, hr, hr', hex, _⟩ := hgood eval types n k eval' types' n' k' hx hx'
      exact ⟨h1, h2, h3, j, row, row', τ, hr, hr', hex⟩) hind
  refine ⟨mat, mat', e1, e1', hrows, fun y β β' hβ hβ' => hall β β' ?_⟩
  refine (recoded_same_fit hw hw' hcodes hcodes' hf hf' hm hm' h h' ?_).2 y _ _ hβ hβ'
  intro eval types n eval' types' n' hx hx'
  obtain ⟨eval1, types1, n1, hl, hn, _, hall1⟩ := predictions_extend hw hcodes hf hm h
  obtain ⟨eval1', types1', n1', hl', hn', _, hall1'⟩ := predictions_extend hw' hcodes' hf' hm' h'
  obtain rfl : eval1 = eval := Except.ok.inj (hl.1.symm.trans hx.1.1)
  obtain rfl : eval1' = eval' := Except.ok.inj (hl'.1.symm.trans hx'.1.1)
  obtain rfl : types1 = types := Except.ok.inj (hl.2.symm.trans hx.1.2)
  obtain rfl : types1' = types' := Except.ok.inj (hl'.2.symm.trans hx'.1.2)
  obtain ⟨_, k, _, hk, _⟩ := hall1 _ _ _ _ _ hb
  obtain ⟨_, k', _, hk', _⟩ := hall1' _ _ _ _ _ hb'
  obtain ⟨h1, h2, h3, h4⟩ := hgood _ _ _ _ _ _ _ _ ⟨hx, hk⟩ ⟨hx', hk'⟩
  exact ⟨h1, h2, recoded_prefix h3 h4⟩

/-! ### Examples -/

namespace RecodePredictSample

open BuilderSample HighSample RecodeSample

/-- New data, in which `a` does not have all levels, and one value of `x` is missing. -/
def newRows : Data := [(1, 5, "v"), (2, 10, "u"), (0, 99, "u")]

/-- The same with the other names of the levels.  The mean of the old data is subtracted from `x`: 102 becomes the 99 that
stands for NaN. -/
def newRenamed : Data := [(1, 5, "v"), (2, 10, "z"), (0, 102, "z")]

def build : Except Err (Built ℚ) :=
  buildDesignMatrices FitSample.isnan {} false none [(getOk _ result_ok).2.info] newRows

def buildC : Except Err (Built ℚ) :=
  buildDesignMatrices FitSample.isnan {} false none [(getOk _ resultC_ok).2.info] newRenamed

theorem build_ok : isOk build = true := by decide +kernel
theorem buildC_ok : isOk buildC = true := by decide +kernel

theorem newCount : RowCount {} types (fun f => look' f newRows) (allFactors [FitSample.one.rhs]) none 3 := by
  refine ⟨?_, fun h => absurd h (by decide)⟩
  intro f hf r
  have : allFactors [FitSample.one.rhs] = ["a", "x"] := by decide
  rw [this] at hf
  simp only [List.mem_cons, List.not_mem_nil, or_false] at hf
  rcases hf with rfl | rfl
  · have : factorCell {} types (fun f => look' f newRows) r "a" = [1, 0, 0][r]?.map .code := rfl
    rw [this]
    simp
  · have : factorCell {} types (fun f => look' f newRows) r "x" = [[5], [10], [99]][r]?.map .num := rfl
    rw [this]
    simp

theorem newCountC : RowCount {} typesC (fun f => lookC f newRenamed) (allFactors [centred.rhs]) none 3 := by
  refine ⟨?_, fun h => absurd h (by decide)⟩
  intro f hf r
  have : allFactors [centred.rhs] = ["a", "center(x)"] := by decide
  rw [this] at hf
  simp only [List.mem_cons, List.not_mem_nil, or_false] at hf
  rcases hf with rfl | rfl
  · have : factorCell {} typesC (fun f => lookC f newRenamed) r "a" = [1, 2, 2][r]?.map .code := rfl
    rw [this]
    simp
  · have : factorCell {} typesC (fun f => lookC f newRenamed) r "center(x)" =
      [[5 - 3], [10 - 3], [102 - 3]][r]?.map .num := rfl
    rw [this]
    simp

def both (i : Fin 8) : String → Option (Cell ℚ) :=
  if i < 6 then factorCell setting'.na types (fun f => look' f rows) i
  else factorCell {} types (fun f => look' f newRows) (i - 6)

def bothC (i : Fin 8) : String → Option (Cell ℚ) :=
  if i < 6 then factorCell settingC.na typesC (fun f => lookC f renamed) i
  else factorCell {} typesC (fun f => lookC f newRenamed) (i - 6)

theorem newKept : newRowsOf {} FitSample.isnan FitSample.one newRows look' types 3 =
    [0, 1].map (factorCell {} types fun f => look' f newRows) := by
  have : ((List.range 3).filter fun r => (allFactors [FitSample.one.rhs]).all fun f =>
      (factorCell {} types (fun f => look' f newRows) r f).all fun c =>
        !cellMissing {} FitSample.isnan c) = [0, 1] := by decide +kernel
  unfold newRowsOf keptCells
  rw [this]

theorem newKeptC : newRowsOf {} FitSample.isnan centred newRenamed lookC typesC 3 =
    [0, 1].map (factorCell {} typesC fun f => lookC f newRenamed) := by
  have : ((List.range 3).filter fun r => (allFactors [centred.rhs]).all fun f =>
      (factorCell {} typesC (fun f => lookC f newRenamed) r f).all fun c =>
        !cellMissing {} FitSample.isnan c) = [0, 1] := by decide +kernel
  unfold newRowsOf keptCells
  rw [this]

theorem recodedBoth : ∀ eval ty n k eval' ty' n' k',
    FitsBoth setting' none rows FitSample.one {} none newRows eval ty n k →
    FitsBoth settingC none renamed centred {} none newRenamed eval' ty' n' k' → WellCoded setting' ty FitSample.one.rhs ∧
    WellCoded settingC ty' centred.rhs ∧
    (modelRows setting' FitSample.isnan rows FitSample.one eval ty n).length =
      (modelRows settingC FitSample.isnan renamed centred eval' ty' n').length ∧
    Recoded ty.1 FitSample.one.rhs (modelRows setting' FitSample.isnan rows FitSample.one eval ty n ++
        newRowsOf {} FitSample.isnan FitSample.one newRows eval ty k)
      ty'.1 centred.rhs (modelRows settingC FitSample.isnan renamed centred eval' ty' n' ++
        newRowsOf {} FitSample.isnan centred newRenamed eval' ty' k') := by
  rintro eval ty n k eval' ty' n' k' ⟨⟨⟨h1, h2⟩, h3⟩, h4⟩ ⟨⟨⟨h1', h2'⟩, h3'⟩, h4'⟩
  cases h1
  cases h1'
  obtain rfl : ty = types := Except.ok.inj (h2.symm.trans learned.2)
  obtain rfl : ty' = typesC := Except.ok.inj (h2'.symm.trans learnedC.2)
  obtain rfl := rowCount_unique (fun _ => Iff.rfl) (fun _ => rfl) rowCount h3
  obtain rfl := rowCount_unique (fun _ => Iff.rfl) (fun _ => rfl) rowCountC h3'
  obtain rfl := rowCount_unique (fun _ => Iff.rfl) (fun _ => rfl) newCount h4
  obtain rfl := rowCount_unique (fun _ => Iff.rfl) (fun _ => rfl) newCountC h4'
  rw [kept, keptC, newKept, newKeptC]
  exact ⟨good (by simp) rfl rfl (by decide) rfl _, good (by simp) rfl rfl (by decide) rfl _, by simp,
    8, both, bothC, RecodeSample.new, old, rfl, rfl, expressed_of (by decide +kernel) (by decide +kernel),
    expressedC_of (by decide +kernel) (by decide +kernel)⟩

theorem independent : LinearIndependent ℚ
    (columnVectors (getOk _ result_ok).2.mat.nrows (getOk _ result_ok).2.mat.cols) := by
  have h1 : (getOk _ result_ok).2.mat = ⟨6, [[1, 1, 1, 1, 1, 1], [0, 0, 1, 1, 0, 0], [0, 0, 0, 0, 1, 1],
    [1, 2, 0, 0, 0, 0], [0, 0, 4, 3, 0, 0], [0, 0, 0, 0, 1, 7]]⟩ := by decide +kernel
  rw [h1, Fintype.linearIndependent_iff]
  intro g hg
  have e0 := congrFun hg (0 : Fin 6)
  have e1 := congrFun hg (1 : Fin 6)
  have e2 := congrFun hg (2 : Fin 6)
  have e3 := congrFun hg (3 : Fin 6)
  have e4 := congrFun hg (4 : Fin 6)
  have e5 := congrFun hg (5 : Fin 6)
  simp [columnVectors, Fin.sum_univ_succ] at e0 e1 e2 e3 e4 e5
  intro i
  fin_cases i <;> simp <;> linarith

/-- As `look'`, and a function `own` in the formula that subtracts the mean of whatever data it is called with. -/
def lookOwn (f : String) (d : Data) : Except Err (Seen ℚ) :=
  if f = "own(x)" then .ok (number (d.map fun r => r.2.1 - (d.map fun r => r.2.1).sum / d.length)) else look' f d

def settingOwn : Setting String Data ℚ (Redundancy.Subterm String) := { setting with memorize := fun _ => .ok lookOwn }

def ownRows : Data := [(0, 1, "u"), (0, 2, "u"), (0, 6, "u")]

def ownNew : Data := [(0, 4, "u"), (0, 6, "u")]

def ownResult (f : String) : Except Err (Table String Data ℚ × Table String Data ℚ) :=
  highLevelDesign settingOwn FitSample.isnan none ownRows .matrix (.desc ⟨[], [⟨[]⟩, ⟨[f]⟩]⟩)

theorem own_ok : isOk (ownResult "x") = true ∧ isOk (ownResult "own(x)") = true := by decide +kernel

theorem ownBuild_ok :
    isOk (buildDesignMatrices FitSample.isnan {} false none [(getOk _ own_ok.1).2.info] ownNew) = true ∧
    isOk (buildDesignMatrices FitSample.isnan {} false none [(getOk _ own_ok.2).2.info] ownNew) = true := by
  decide +kernel

theorem weighted_two (n : Nat) (c d : List ℚ) (β : Nat → ℚ) (i : Fin n) :
    weighted n [c, d] β i = β 0 * (c[i]?).getD 0 + β 1 * (d[i]?).getD 0 :=
  Fin.sum_univ_two _

end RecodePredictSample

open RecodePredictSample RecodeSample HighSample in
/-- Example for `computed_same_predictions` and `recoded_same_regression`: `1 + a + a:x`, and `1 + a + a:center(x)` on data
with other names of the levels. -/
example : ∃ t t' b b', RecodeSample.result = .ok t ∧ resultC = .ok t' ∧
    buildDesignMatrices FitSample.isnan {} false none [t.2.info] newRows = .ok b ∧
    buildDesignMatrices FitSample.isnan {} false none [t'.2.info] newRenamed = .ok b' ∧
    b.mats = [⟨2, [[1, 1], [1, 0], [0, 0], [0, 10], [5, 0], [0, 0]]⟩] ∧
    b'.mats = [⟨2, [[1, 1], [1, 0], [0, 1], [0, 0], [2, 0], [0, 7]]⟩] ∧
    ∃ mat mat', b.mats = [mat] ∧ b'.mats = [mat'] ∧ mat.nrows = mat'.nrows ∧
      ∀ y β β', Fitted t.2.mat.nrows t.2.mat.cols y (weighted t.2.mat.nrows t.2.mat.cols β) →
        Fitted t.2.mat.nrows t'.2.mat.cols y (weighted t.2.mat.nrows t'.2.mat.cols β') →
        weighted mat.nrows mat.cols β = weighted mat.nrows mat'.cols β' := by
  refine ⟨_, _, _, _, getOk_eq result_ok, getOk_eq resultC_ok, getOk_eq build_ok, getOk_eq buildC_ok, by decide +kernel,
    by decide +kernel, ?_⟩
  have hs : ∀ (d : BuilderSample.Data) (m : ModelDesc String), (∀ t ∈ m.lhs ++ m.rhs, t.factors.Nodup) →
      Sound d (.desc m : FormulaLike String BuilderSample.Data ℚ) := by
    rintro d m h m' ⟨⟩
    exact h
  exact recoded_same_regression world worldC FitSample.codesFit codesFitC (hs _ _ (by decide)) (hs _ _ (by decide)) rfl rfl
    (getOk_eq result_ok) (getOk_eq resultC_ok) (getOk_eq build_ok) (getOk_eq buildC_ok) recodedBoth independent

open RecodePredictSample RecodeSample HighSample in
/-- **C74**.  The rule has to be the same on the old and on the new rows.  A function that subtracts the mean of the data it is
called with, where `center` subtracts the mean of the old data: the models `1 + x` and `1 + own(x)` have the same column
space on the old data, but coefficients that give the same values there give different predictions. -/
theorem own_mean_predictions : ∃ t t' b b', ownResult "x" = .ok t ∧ ownResult "own(x)" = .ok t' ∧
    buildDesignMatrices FitSample.isnan {} false none [t.2.info] ownNew = .ok b ∧
    buildDesignMatrices FitSample.isnan {} false none [t'.2.info] ownNew = .ok b' ∧
    t.2.mat = ⟨3, [[1, 1, 1], [1, 2, 6]]⟩ ∧ t'.2.mat = ⟨3, [[1, 1, 1], [-2, -1, 3]]⟩ ∧
    b.mats = [⟨2, [[1, 1], [4, 6]]⟩] ∧ b'.mats = [⟨2, [[1, 1], [-1, 1]]⟩] ∧
    ∃ β β', weighted 3 t.2.mat.cols β = weighted 3 t'.2.mat.cols β' ∧
      weighted 2 [[1, 1], [4, 6]] β ≠ weighted 2 [[1, 1], [-1, (1 : ℚ)]] β' := by
  have h1 : (getOk _ own_ok.1).2.mat = ⟨3, [[1, 1, 1], [1, 2, 6]]⟩ := by decide +kernel
  have h2 : (getOk _ own_ok.2).2.mat = ⟨3, [[1, 1, 1], [-2, -1, 3]]⟩ := by decide +kernel
  refine ⟨_, _, _, _, getOk_eq own_ok.1, getOk_eq own_ok.2, getOk_eq ownBuild_ok.1, getOk_eq ownBuild_ok.2, h1, h2,
    by decide +kernel, by decide +kernel, fun j => if j = 1 then 1 else 0, fun j => if j = 0 then 3 else 1, ?_, ?_⟩
  · rw [h1, h2]
    funext i
    fin_cases i <;> norm_num [weighted_two]
  · intro h
    have := congrFun h 0
    norm_num [weighted_two] at this

end Patsy.Props
