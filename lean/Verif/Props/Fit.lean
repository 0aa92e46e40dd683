import Verif.Lemmas.Fit
import Mathlib.Algebra.Order.BigOperators.Group.Finset
import Mathlib.Algebra.Order.Ring.Basic
import Mathlib.LinearAlgebra.Finsupp.LinearCombination

/-!
# C54: what the matrices of a formula are good for

From the text of a formula to the space of fitted values: this puts together the theorems about formulas (C53), about the
types of factors (C47), about missing values (C15) and about ranks (C03).
-/

set_option linter.unusedSectionVars false

namespace Patsy.Props

open Patsy.Build Patsy.Desc Patsy.Cat Patsy.Spec Patsy.Contrast Patsy.Redundancy

variable {F D K H : Type} [DecidableEq F] [Field K] [DecidableEq H]

theorem sound_nodup {data : D} {f : FormulaLike F D K} (hf : Sound data f) {m : ModelDesc F} (hm : modelOf f = some m) :
    ∀ t ∈ m.lhs ++ m.rhs, t.factors.Nodup := by
  cases f with
  | provider _ => exact hf m hm
  | text _ => exact hf m hm
  | desc _ => exact hf m hm
  | _ => cases hm

/-- **C54**.  What `dmatrices` and `dmatrix` return for a formula.  On both sides, the columns of the matrix span the space
of the functions that the terms describe on the rows without missing values, and they are linearly independent if the data
are rich enough; provided that the contrasts are good and that the hash function does its job. -/
theorem model_on_data {P : Setting F D K H} (hw : World P) (hcodes : CodesFit P) {isnan : K → Bool}
    {dataIndex : Option (List Label)} {data : D} {rt : ReturnType} {f : FormulaLike F D K} (hf : Sound data f)
    {m : ModelDesc F} (hm : modelOf f = some m) {t : Table F D K × Table F D K}
    (h : highLevelDesign P isnan dataIndex data rt f = .ok t) :
    ∃ eval types n, Learned P data m eval types ∧
      RowCount P.na types (fun f => eval f data) (allFactors [m.lhs, m.rhs]) dataIndex n ∧
      ∀ ts mat, (ts, mat) = (m.lhs, t.1.mat) ∨ (ts, mat) = (m.rhs, t.2.mat) →
        mat.nrows = (modelRows P isnan data m eval types n).length ∧
        (WellCoded P types ts →
          Submodule.span K (Set.range (columnVectors (modelRows P isnan data m eval types n).length mat.cols)) =
            Submodule.span K (⋃ u ∈ ts, termFunctions types.1 (modelRows P isnan data m eval types n) u) ∧
          (Rich types.1 ts (levelCount types) (modelRows P isnan data m eval types n) →
            LinearIndependent K (columnVectors (modelRows P isnan data m eval types n).length mat.cols))) := by
  obtain ⟨eval, types, infos, n, he, ht, hn, h1, h2, hmade⟩ := formula_made hw hcodes hf hm (sound_nodup hf hm) h
  refine ⟨eval, types, n, ⟨he, ht⟩, hn, ?_⟩
  have key : ∀ ts d mat, (ts, d, mat) ∈ [(m.lhs, t.1.info, t.1.mat), (m.rhs, t.2.info, t.2.mat)] → WellCoded P types ts →
      Submodule.span K (Set.range (columnVectors (modelRows P isnan data m eval types n).length mat.cols)) =
        Submodule.span K (⋃ u ∈ ts, termFunctions types.1 (modelRows P isnan data m eval types n) u) ∧
      (Rich types.1 ts (levelCount types) (modelRows P isnan data m eval types n) →
        LinearIndependent K (columnVectors (modelRows P isnan data m eval types n).length mat.cols)) := by
    intro ts d mat hmem hwell
    have hmm := hmade ts d mat hmem hwell.1 hwell.2
    refine ⟨hmm.span, fun hr => ?_⟩
    obtain ⟨name, h1⟩ := hmm.made
    obtain ⟨c, h2, h3⟩ := hmm.matrix
    exact columns_independent hmm.nodup hmm.separates hmm.fit hmm.coded h1 h2 h3 hr
  rintro ts mat (h3 | h3)
  · cases h3
    exact ⟨h1, key _ t.1.info _ (by simp)⟩
  · cases h3
    exact ⟨h2, key _ t.2.info _ (by simp)⟩

/-! ### Equivalent formulas -/

/-- The two models memorise their common factors alike (see C24). -/
def MemorisedAlike (P : Setting F D K H) (m m' : ModelDesc F) : Prop :=
  ∀ eval eval', P.memorize (P.visit (allFactors [m.lhs, m.rhs])) = .ok eval →
    P.memorize (P.visit (allFactors [m'.lhs, m'.rhs])) = .ok eval' →
    ∀ f ∈ allFactors [m.lhs, m.rhs], f ∈ allFactors [m'.lhs, m'.rhs] → eval f = eval' f

/-- The two models have the same factors. -/
def SameFactors (m m' : ModelDesc F) : Prop := ∀ f, f ∈ allFactors [m.lhs, m.rhs] ↔ f ∈ allFactors [m'.lhs, m'.rhs]

theorem learned_alike {P : Setting F D K H} (hw : World P) {data : D} {m m' : ModelDesc F} (hfac : SameFactors m m')
    (hmem : MemorisedAlike P m m') {eval eval' : F → D → Except Err (Seen K)} {types types' : Types F K}
    (h : Learned P data m eval types) (h' : Learned P data m' eval' types') :
    (∀ f, typeOf types f = typeOf types' f) ∧
      ∀ na d r, factorCell na types (fun f => eval f d) r = factorCell na types' (fun f => eval' f d) r := by
  have hev : ∀ f ∈ allFactors [m.lhs, m.rhs], eval f = eval' f := fun f hf => hmem _ _ h.1 h'.1 f hf ((hfac f).mp hf)
  have hn : ∀ m : ModelDesc F, (P.visit (allFactors [m.lhs, m.rhs])).Nodup := fun m =>
    (hw.visits _).nodup_iff.mpr (allFactors_nodup _)
  have htype : ∀ f, typeOf types f = typeOf types' f := by
    intro f
    by_cases hf : f ∈ allFactors [m.lhs, m.rhs]
    · exact examined_independent hw.visits hw.visits (hn m) (hn m') h.2 h'.2 ((hw.visits _).mem_iff.mpr hf)
        ((hw.visits _).mem_iff.mpr ((hfac f).mp hf)) (by rw [hev f hf])
    · rw [typeOf_none hw.visits h.2 (fun hm => hf ((hw.visits _).mem_iff.mp hm)),
        typeOf_none hw.visits h'.2 (fun hm => hf ((hfac f).mpr ((hw.visits _).mem_iff.mp hm)))]
  refine ⟨htype, fun na d r => funext fun f => ?_⟩
  unfold factorCell
  rw [htype f]
  by_cases hf : f ∈ allFactors [m.lhs, m.rhs]
  · simp only [hev f hf]
  · rw [typeOf_none hw.visits h'.2 (fun hm => hf ((hfac f).mpr ((hw.visits _).mem_iff.mp hm)))]

theorem rowCount_unique {na : NAAction} {types types' : Types F K} {ev ev' : F → Except Err (Seen K)} {fs fs' : List F}
    {dataIndex : Option (List Label)} {n n' : Nat} (hfac : ∀ f, f ∈ fs ↔ f ∈ fs')
    (hcell : ∀ r, factorCell na types ev r = factorCell na types' ev' r)
    (h : RowCount na types ev fs dataIndex n) (h' : RowCount na types' ev' fs' dataIndex n') : n = n' := by
  cases fs with
  | nil =>
    have hnil : fs' = [] := by
      rw [List.eq_nil_iff_forall_not_mem]
      intro f hf
      exact absurd ((hfac f).mpr hf) (by simp)
    obtain ⟨l, h1, h2⟩ := h.2 rfl
    obtain ⟨l', h1', h2'⟩ := h'.2 hnil
    obtain rfl : l = l' := Option.some.inj (h1.symm.trans h1')
    exact h2.symm.trans h2'
  | cons f fs =>
    have key : ∀ r, r < n ↔ r < n' := by
      intro r
      rw [h.1 f (by simp) r, h'.1 f ((hfac f).mp (by simp)) r, hcell r]
    rcases Nat.lt_trichotomy n n' with hlt | heq | hlt
    · exact absurd ((key n).mpr hlt) (Nat.lt_irrefl _)
    · exact heq
    · exact absurd ((key n').mp hlt) (Nat.lt_irrefl _)

theorem modelRows_alike {P : Setting F D K H} (hw : World P) {isnan : K → Bool} {dataIndex : Option (List Label)} {data : D}
    {m m' : ModelDesc F} (hfac : SameFactors m m') (hmem : MemorisedAlike P m m') {eval eval' : F → D → Except Err (Seen K)}
    {types types' : Types F K} (h : Learned P data m eval types) (h' : Learned P data m' eval' types') {n n' : Nat}
    (hn : RowCount P.na types (fun f => eval f data) (allFactors [m.lhs, m.rhs]) dataIndex n)
    (hn' : RowCount P.na types' (fun f => eval' f data) (allFactors [m'.lhs, m'.rhs]) dataIndex n') :
    modelRows P isnan data m eval types n = modelRows P isnan data m' eval' types' n' := by
  obtain ⟨_, hcell⟩ := learned_alike hw hfac hmem h h'
  have hcell := hcell P.na data
  obtain rfl := rowCount_unique hfac hcell hn hn'
  have hfun : (factorCell P.na types fun f => eval f data) = factorCell P.na types' fun f => eval' f data := funext hcell
  unfold modelRows keptCells
  rw [hfun]
  congr 1
  refine List.filter_congr fun r _ => ?_
  rw [Bool.eq_iff_iff, List.all_eq_true, List.all_eq_true]
  exact ⟨fun hall f hf => hall f ((hfac f).mpr hf), fun hall f hf => hall f ((hfac f).mp hf)⟩

theorem termFunctions_nums {nums nums' : List (F × Nat)} (h : ∀ f, dictGet nums f = dictGet nums' f)
    (rows : List (F → Option (Cell K))) (t : Term F) : termFunctions nums rows t = termFunctions nums' rows t := by
  unfold termFunctions MonomialOf
  simp only [h]

/-- **C54**.  Two formulas with the same factors, and terms that are marginal to each other: on the same data, the rows
that are kept are the same, and so are the spaces that the columns span. -/
theorem same_column_space {P : Setting F D K H} (hw : World P) (hcodes : CodesFit P) {isnan : K → Bool}
    {dataIndex : Option (List Label)} {data : D} {rt rt' : ReturnType} {f f' : FormulaLike F D K} (hf : Sound data f)
    (hf' : Sound data f') {m m' : ModelDesc F} (hm : modelOf f = some m) (hm' : modelOf f' = some m')
    {t t' : Table F D K × Table F D K} (h : highLevelDesign P isnan dataIndex data rt f = .ok t)
    (h' : highLevelDesign P isnan dataIndex data rt' f' = .ok t') (hfac : SameFactors m m') (hmem : MemorisedAlike P m m')
    (hgood : ∀ eval types, Learned P data m eval types → WellCoded P types m.rhs ∧
      (∀ u ∈ m.rhs, ∃ u' ∈ m'.rhs, Marginal types.1 u u') ∧ ∀ u ∈ m'.rhs, ∃ u' ∈ m.rhs, Marginal types.1 u u')
    (hgood' : ∀ eval types, Learned P data m' eval types → WellCoded P types m'.rhs) :
    t.2.mat.nrows = t'.2.mat.nrows ∧
      Submodule.span K (Set.range (columnVectors t.2.mat.nrows t.2.mat.cols)) =
        Submodule.span K (Set.range (columnVectors t.2.mat.nrows t'.2.mat.cols)) := by
  obtain ⟨eval, types, n, hl, hn, hall⟩ := model_on_data hw hcodes hf hm h
  obtain ⟨eval', types', n', hl', hn', hall'⟩ := model_on_data hw hcodes hf' hm' h'
  have hrows := modelRows_alike (isnan := isnan) hw hfac hmem hl hl' hn hn'
  have hnums : ∀ g, dictGet types'.1 g = dictGet types.1 g := fun g =>
    typeOf_nums ((learned_alike hw hfac hmem hl hl').1 g).symm
  obtain ⟨h1, h2⟩ := hall m.rhs t.2.mat (.inr rfl)
  obtain ⟨h1', h2'⟩ := hall' m'.rhs t'.2.mat (.inr rfl)
  obtain ⟨hw1, hs1, hs2⟩ := hgood _ _ hl
  have e1 := (h2 hw1).1
  have e2 := (h2' (hgood' _ _ hl')).1
  rw [← hrows] at h1' e2
  refine ⟨h1.trans h1'.symm, ?_⟩
  rw [h1, e1, e2]
  simp only [termFunctions_nums hnums]
  refine le_antisymm (Submodule.span_mono ?_) (Submodule.span_mono ?_)
  · intro v hv
    simp only [Set.mem_iUnion] at hv ⊢
    obtain ⟨u, hu, hv⟩ := hv
    obtain ⟨u', hu', hmar⟩ := hs1 u hu
    exact ⟨u', hu', termFunctions_marginal hmar _ hv⟩
  · intro v hv
    simp only [Set.mem_iUnion] at hv ⊢
    obtain ⟨u, hu, hv⟩ := hv
    obtain ⟨u', hu', hmar⟩ := hs2 u hu
    exact ⟨u', hu', termFunctions_marginal hmar _ hv⟩

theorem termSets_marginal {ts ts' : List (Term F)} (h : termSets ts = termSets ts') (nums : List (F × Nat)) :
    ∀ u ∈ ts, ∃ u' ∈ ts', Marginal nums u u' := by
  intro u hu
  have hmem : {f | f ∈ u.factors} ∈ termSets ts := ⟨u, hu, fun f => Iff.rfl⟩
  rw [h] at hmem
  obtain ⟨u', hu', he⟩ := hmem
  exact ⟨u', hu', fun f hf => (he f).mpr hf, fun f hf _ => (he f).mp hf⟩

theorem termSets_factors {m m' : ModelDesc F} (hl : termSets m.lhs = termSets m'.lhs) (hr : termSets m.rhs = termSets m'.rhs) :
    SameFactors m m' := by
  have key : ∀ {m : ModelDesc F} {f : F}, f ∈ allFactors [m.lhs, m.rhs] ↔
      (∃ S ∈ termSets m.lhs, f ∈ S) ∨ ∃ S ∈ termSets m.rhs, f ∈ S := by
    intro m f
    have one : ∀ ts : List (Term F), (∃ t ∈ ts, f ∈ t.factors) ↔ ∃ S ∈ termSets ts, f ∈ S := by
      intro ts
      constructor
      · rintro ⟨t, ht, hf⟩
        exact ⟨{g | g ∈ t.factors}, ⟨t, ht, fun _ => Iff.rfl⟩, hf⟩
      · rintro ⟨S, ⟨t, ht, he⟩, hf⟩
        exact ⟨t, ht, (he f).mpr hf⟩
    rw [allFactors_mem, ← one, ← one]
    simp
  intro f
  rw [key, key, hl, hr]

/-- **C54**.  Formulas that mean the same (C53) give the same rows and the same column space on the same data: nothing but
the set of terms matters, neither the order of the terms nor that of the factors in a term. -/
theorem equivalent_formulas {P : Setting F D K H} (hw : World P) (hcodes : CodesFit P) {isnan : K → Bool}
    {dataIndex : Option (List Label)} {data : D} {rt rt' : ReturnType} {f f' : FormulaLike F D K} (hf : Sound data f)
    (hf' : Sound data f') {m m' : ModelDesc F} (hm : modelOf f = some m) (hm' : modelOf f' = some m')
    {t t' : Table F D K × Table F D K} (h : highLevelDesign P isnan dataIndex data rt f = .ok t)
    (h' : highLevelDesign P isnan dataIndex data rt' f' = .ok t') (hl : termSets m.lhs = termSets m'.lhs)
    (hr : termSets m.rhs = termSets m'.rhs) (hmem : MemorisedAlike P m m')
    (hgood : ∀ eval types, Learned P data m eval types → WellCoded P types m.rhs)
    (hgood' : ∀ eval types, Learned P data m' eval types → WellCoded P types m'.rhs) :
    t.2.mat.nrows = t'.2.mat.nrows ∧
      Submodule.span K (Set.range (columnVectors t.2.mat.nrows t.2.mat.cols)) =
        Submodule.span K (Set.range (columnVectors t.2.mat.nrows t'.2.mat.cols)) :=
  same_column_space hw hcodes hf hf' hm hm' h h' (termSets_factors hl hr) hmem
    (fun eval types hlearn => ⟨hgood eval types hlearn, termSets_marginal hr _, termSets_marginal hr.symm _⟩) hgood'

/-! ### Fitted values -/

theorem mem_columnSpace {n : Nat} {cols : List (List K)} {v : Fin n → K} :
    v ∈ Submodule.span K (Set.range (columnVectors n cols)) ↔
      ∃ b : Fin cols.length → K, v = fun i => ∑ j, b j * columnVectors n cols j i := by
  rw [Submodule.mem_span_range_iff_exists_fun]
  refine exists_congr fun b => ?_
  rw [funext_iff, funext_iff]
  simp only [Finset.sum_apply, Pi.smul_apply, smul_eq_mul]
  exact forall_congr' fun i => eq_comm

theorem fitted_iff {K : Type} [Field K] [LinearOrder K] [IsStrictOrderedRing K] {n : Nat} {cols : List (List K)}
    {y v : Fin n → K} : Fitted n cols y v ↔ v ∈ Submodule.span K (Set.range (columnVectors n cols)) ∧
      ∀ w ∈ Submodule.span K (Set.range (columnVectors n cols)), ∑ i, (y i - v i) ^ 2 ≤ ∑ i, (y i - w i) ^ 2 := by
  refine and_congr_right fun _ => ⟨?_, ?_⟩
  · intro h w hw
    obtain ⟨b, rfl⟩ := mem_columnSpace.mp hw
    exact h b
  · intro h b
    exact h _ (mem_columnSpace.mpr ⟨b, rfl⟩)

/-- The fitted values are unique, whether the columns are independent or not. -/
theorem fitted_unique {K : Type} [Field K] [LinearOrder K] [IsStrictOrderedRing K] {n : Nat} {cols : List (List K)}
    {y v w : Fin n → K} (hv : Fitted n cols y v) (hw : Fitted n cols y w) : v = w := by
  rw [fitted_iff] at hv hw
  have hmid : (fun i => (v i + w i) / 2) ∈ Submodule.span K (Set.range (columnVectors n cols)) := by
    have := Submodule.smul_mem _ (1 / 2 : K) (Submodule.add_mem _ hv.1 hw.1)
    have heq : (1 / 2 : K) • (v + w) = fun i => (v i + w i) / 2 := by
      funext i
      simp only [Pi.smul_apply, Pi.add_apply, smul_eq_mul]
      ring
    rwa [heq] at this
  have h1 := hv.2 _ hmid
  have h2 := hw.2 _ hmid
  have hpar : ∑ i, (y i - (v i + w i) / 2) ^ 2 * 4 + ∑ i, (v i - w i) ^ 2 =
      ∑ i, (y i - v i) ^ 2 * 2 + ∑ i, (y i - w i) ^ 2 * 2 := by
    rw [← Finset.sum_add_distrib, ← Finset.sum_add_distrib]
    exact Finset.sum_congr rfl fun i _ => by ring
  rw [← Finset.sum_mul, ← Finset.sum_mul, ← Finset.sum_mul] at hpar
  have hz : ∑ i, (v i - w i) ^ 2 = 0 := by
    refine le_antisymm ?_ (Finset.sum_nonneg fun i _ => sq_nonneg _)
    linarith
  rw [Finset.sum_eq_zero_iff_of_nonneg fun i _ => sq_nonneg _] at hz
  funext i
  have := pow_eq_zero_iff (n := 2) (by simp) |>.mp (hz i (Finset.mem_univ i))
  linarith

/-- **C54**.  Formulas that mean the same give the same fitted values in linear regression, for every outcome. -/
theorem same_fit {K : Type} [Field K] [LinearOrder K] [IsStrictOrderedRing K] {P : Setting F D K H} (hw : World P)
    (hcodes : CodesFit P) {isnan : K → Bool} {dataIndex : Option (List Label)} {data : D} {rt rt' : ReturnType}
    {f f' : FormulaLike F D K} (hf : Sound data f) (hf' : Sound data f') {m m' : ModelDesc F} (hm : modelOf f = some m)
    (hm' : modelOf f' = some m') {t t' : Table F D K × Table F D K}
    (h : highLevelDesign P isnan dataIndex data rt f = .ok t)
    (h' : highLevelDesign P isnan dataIndex data rt' f' = .ok t') (hl : termSets m.lhs = termSets m'.lhs)
    (hr : termSets m.rhs = termSets m'.rhs) (hmem : MemorisedAlike P m m')
    (hgood : ∀ eval types, Learned P data m eval types → WellCoded P types m.rhs)
    (hgood' : ∀ eval types, Learned P data m' eval types → WellCoded P types m'.rhs) :
    t.2.mat.nrows = t'.2.mat.nrows ∧ ∀ y v v' : Fin t.2.mat.nrows → K,
      Fitted t.2.mat.nrows t.2.mat.cols y v → Fitted t.2.mat.nrows t'.2.mat.cols y v' → v = v' := by
  obtain ⟨h1, h2⟩ := equivalent_formulas hw hcodes hf hf' hm hm' h h' hl hr hmem hgood hgood'
  refine ⟨h1, fun y v v' hv hv' => ?_⟩
  refine fitted_unique hv ?_
  rw [fitted_iff] at hv' ⊢
  rwa [h2]

/-- **C54** for the text of formulas: replacing the right-hand side by one with the same meaning, for example by one of the
laws of C53, changes neither what is accepted by the parser nor the fitted values. -/
theorem law_same_fit {K : Type} [Field K] [LinearOrder K] [IsStrictOrderedRing K] {P : Setting F D K H} (hw : World P)
    (hcodes : CodesFit P) {isnan : K → Bool} {dataIndex : Option (List Label)} {data : D} {rt : ReturnType}
    {mkFactor : String → Except Err F} {toInt : String → Option Int} {a a' : FTree} (hsame : Same mkFactor toInt a a')
    (y : FTree) {t t' : Table F D K × Table F D K}
    (h : highLevelDesign P isnan dataIndex data rt (.text (fromTree mkFactor toInt (op "~" y a))) = .ok t)
    (h' : highLevelDesign P isnan dataIndex data rt (.text (fromTree mkFactor toInt (op "~" y a'))) = .ok t')
    (hmem : ∀ m m', MemorisedAlike P m m')
    (hgood : ∀ m, fromTree mkFactor toInt (op "~" y a) = .ok m ∨ fromTree mkFactor toInt (op "~" y a') = .ok m →
      ∀ eval types, Learned P data m eval types → WellCoded P types m.rhs) :
    t.2.mat.nrows = t'.2.mat.nrows ∧ ∀ y v v' : Fin t.2.mat.nrows → K,
      Fitted t.2.mat.nrows t.2.mat.cols y v → Fitted t.2.mat.nrows t'.2.mat.cols y v' → v = v' := by
  have hsound : ∀ n : FTree, Sound data (.text (fromTree mkFactor toInt n) : FormulaLike F D K) := by
    intro n m hm u hu
    cases hd : fromTree mkFactor toInt n with
    | error e => rw [hd] at hm; cases hm
    | ok d =>
      rw [hd] at hm
      cases hm
      obtain ⟨n1, n2⟩ := eval_normal mkFactor toInt n _ hd
      rcases List.mem_append.mp hu with hu | hu
      · exact n1.nodup u hu
      · exact n2.nodup u hu
  cases hd : fromTree mkFactor toInt (op "~" y a) with
  | error e =>
    rw [hd] at h
    simp only [highLevelDesign, tryIncrBuilders] at h
    split at h <;> cases h
  | ok m =>
    obtain ⟨m', hd', e1, e2⟩ := same_model hsame y m hd
    refine same_fit hw hcodes (hsound _) (hsound _) (m := m) (m' := m') ?_ ?_ h h' e1.symm e2.symm (hmem _ _)
      (hgood m (.inl hd)) (hgood m' (.inr hd'))
    · rw [hd]; rfl
    · rw [hd']; rfl

/-! ### Examples -/

namespace FitSample

open BuilderSample HighSample

/-- `1 + a + a:x`. -/
def one : ModelDesc String := ⟨[], [⟨[]⟩, ⟨["a"]⟩, ⟨["a", "x"]⟩]⟩

/-- `1 + a + a:x + y`. -/
def more : ModelDesc String := ⟨[], [⟨[]⟩, ⟨["a"]⟩, ⟨["a", "x"]⟩, ⟨["y"]⟩]⟩

/-- `y + x:a + 1 + a`. -/
def other : ModelDesc String := ⟨[], [⟨["y"]⟩, ⟨["x", "a"]⟩, ⟨[]⟩, ⟨["a"]⟩]⟩

/-- Two rows for each level of `a`, and one in which `x` is missing. -/
def rows : Data := [(1, 1, "u"), (2, 2, "u"), (4, 4, "v"), (1, 3, "v"), (5, 99, "w"), (9, 1, "w"), (3, 7, "w")]

/-- 99 stands for NaN. -/
def isnan (x : ℚ) : Bool := x = 99

theorem codesFit : CodesFit setting' := by
  intro fs eval h f d s cats codes hs hv
  cases h
  simp only [look', look, number] at hs
  repeat' split at hs
  all_goals first | (cases hs; cases hv) | cases hs

def seen (f : String) (d : Data) : Except Err (CatValue (Contrast.Spec ℚ)) := do pure (← look' f d).value

def types : Types String ℚ := ([("x", 1)], [("a", [.str "u", .str "v", .str "w"], none)])

theorem learned_one : Learned setting' rows one look' types := ⟨rfl, rfl⟩

def moreTypes : Types String ℚ := ([("x", 1), ("y", 1)], [("a", [.str "u", .str "v", .str "w"], none)])

theorem learned_more : Learned setting' rows more look' moreTypes := ⟨rfl, rfl⟩

def otherTypes : Types String ℚ := ([("y", 1), ("x", 1)], [("a", [.str "u", .str "v", .str "w"], none)])

theorem learned_other : Learned setting' rows other look' otherTypes := ⟨rfl, rfl⟩

theorem learned_unique {m : ModelDesc String} {types : Types String ℚ} (h : Learned setting' rows m look' types) :
    ∀ eval ty, Learned setting' rows m eval ty → ty = types := by
  rintro eval ty ⟨h1, h2⟩
  cases h1
  exact Except.ok.inj (h2.symm.trans h.2)

theorem wellCoded {types : Types String ℚ} (hx : "a" ∉ types.1.map Prod.fst)
    (ht : types.2 = [("a", [.str "u", .str "v", .str "w"], none)]) (ts : List (Term String)) :
    WellCoded setting' types ts := by
  refine ⟨?_, fun _ _ _ _ h => minusPiece_injective h⟩
  intro t _ f _ levels contrast hty
  by_cases ha : "a" = f
  · subst ha
    have h2 : dictGet types.2 "a" = some ([.str "u", .str "v", .str "w"], none) := by rw [ht]; rfl
    simp only [typeOf, dictGet_none hx, h2, Option.map_some, Option.some.injEq, FactorType.categorical.injEq] at hty
    obtain ⟨rfl, rfl⟩ := hty
    exact (builtin_good (default := .none) (levels := [.str "u", .str "v", .str "w"]) (by simp)
      (.treatment (readable := BuilderSample.readable) (reference := none) (r := 0) rfl (by decide))).2.2.1
  · simp only [typeOf] at hty
    cases hd : dictGet types.1 f with
    | some n => simp [hd] at hty
    | none =>
      have h2 : dictGet types.2 f = none := by rw [ht]; simp [dictGet, ha]
      simp [hd, h2] at hty

theorem sound (m : ModelDesc String) (h : ∀ t ∈ m.lhs ++ m.rhs, t.factors.Nodup) :
    Sound rows (.desc m : FormulaLike String Data ℚ) := by
  rintro m' ⟨⟩
  exact h

/-- The six rows that are kept. -/
theorem kept : modelRows setting' isnan rows one look' types 7 =
    [0, 1, 2, 3, 5, 6].map (factorCell setting'.na types fun f => look' f rows) := rfl

theorem rowCount : RowCount setting'.na types (fun f => look' f rows) (allFactors [one.lhs, one.rhs]) none 7 := by
  refine ⟨?_, ?_⟩
  · intro f hf r
    have : f = "a" ∨ f = "x" := by
      revert hf
      have : allFactors [one.lhs, one.rhs] = ["a", "x"] := by decide
      rw [this]
      simp
    rcases this with rfl | rfl
    · have : factorCell setting'.na types (fun f => look' f rows) r "a" = [0, 0, 1, 1, 2, 2, 2][r]?.map .code := rfl
      rw [this]
      simp
    · have : factorCell setting'.na types (fun f => look' f rows) r "x" =
        [[1], [2], [4], [3], [99], [1], [7]][r]?.map .num := rfl
      rw [this]
      simp
  · intro h
    exact absurd h (by decide)

theorem one_monomial {k : Finset (String × Nat)} (h : ∃ t ∈ one.rhs, MonomialOf types.1 t k) :
    k = ∅ ∨ k = {("x", 0)} := by
  obtain ⟨t, ht, j, hj, rfl⟩ := h
  simp only [one, List.mem_cons, List.not_mem_nil, or_false] at ht
  rcases ht with rfl | rfl | rfl
  · exact .inl rfl
  · exact .inl rfl
  · have : j "x" = 0 := by
      have := hj "x" (by simp) 1 rfl
      omega
    refine .inr ?_
    have hfil : (["a", "x"].filter fun f => (dictGet types.1 f).isSome) = ["x"] := by decide
    rw [hfil]
    simp [this]

theorem rich : Rich types.1 one.rhs (levelCount types) (modelRows setting' isnan rows one look' types 7) := by
  intro g hg
  have ha : g "a" < 3 := hg ⟨["a"]⟩ (by decide) "a" (by decide) (by decide)
  rw [kept]
  let R := [0, 1, 2, 3, 5, 6].map (factorCell setting'.na types fun f => look' f rows)
  show LinearIndepOn ℚ (fun (k : Finset (String × Nat)) (i : {i : Fin R.length // HasLevels types.1 one.rhs g R[i]}) =>
      monomial R[i.1] k) {k | ∃ t ∈ one.rhs, MonomialOf types.1 t k}
  suffices hs : LinearIndepOn ℚ (fun (k : Finset (String × Nat))
      (i : {i : Fin R.length // HasLevels types.1 one.rhs g R[i]}) => monomial R[i.1] k)
      {∅, {("x", 0)}} from hs.mono fun k hk => one_monomial hk
  have hrow : ∀ i : Nat, (hi : i < R.length) → levelAt R[i] "a" = g "a" → HasLevels types.1 one.rhs g R[i] := by
    intro i hi h t ht f hf hn
    simp only [one, List.mem_cons, List.not_mem_nil, or_false] at ht
    have hx : f ≠ "x" := by
      rintro rfl
      exact absurd hn (by decide)
    have hfa : f = "a" := by
      rcases ht with rfl | rfl | rfl
      · simp at hf
      · simpa using hf
      · simpa [hx] using hf
    rw [hfa]
    exact h
  rw [LinearIndepOn.pair_iff _ (by decide)]
  intro u v h
  have key : ∀ i : Nat, (hi : i < R.length) → levelAt R[i] "a" = g "a" → u + v * numberAt R[i] "x" 0 = 0 := by
    intro i hi hl
    have := congrFun h ⟨⟨i, hi⟩, hrow i hi hl⟩
    simpa [monomial] using this
  have h2 : g "a" = 0 ∨ g "a" = 1 ∨ g "a" = 2 := by omega
  rcases h2 with h2 | h2 | h2
  · have e1 : u + v * 1 = 0 := key 0 (by decide) (by rw [h2]; rfl)
    have e2 : u + v * 2 = 0 := key 1 (by decide) (by rw [h2]; rfl)
    constructor <;> linarith
  · have e1 : u + v * 4 = 0 := key 2 (by decide) (by rw [h2]; rfl)
    have e2 : u + v * 3 = 0 := key 3 (by decide) (by rw [h2]; rfl)
    constructor <;> linarith
  · have e1 : u + v * 1 = 0 := key 4 (by decide) (by rw [h2]; rfl)
    have e2 : u + v * 7 = 0 := key 5 (by decide) (by rw [h2]; rfl)
    constructor <;> linarith

def result (m : ModelDesc String) : Except Err (Table String Data ℚ × Table String Data ℚ) :=
  highLevelDesign setting' isnan none rows .matrix (.desc m)

theorem one_ok : isOk (result one) = true := by decide +kernel
theorem more_ok : isOk (result more) = true := by decide +kernel
theorem other_ok : isOk (result other) = true := by decide +kernel

end FitSample

open FitSample HighSample BuilderSample in
/-- Example for `model_on_data`: `1 + a + a:x`, where `a` has three levels and one value of `x` is missing.  All hypotheses
are met; the matrix has six rows and six linearly independent columns. -/
example : ∃ t, result one = .ok t ∧ t.2.mat.nrows = 6 ∧ t.2.mat.cols =
      [[1, 1, 1, 1, 1, 1], [0, 0, 1, 1, 0, 0], [0, 0, 0, 0, 1, 1], [1, 2, 0, 0, 0, 0], [0, 0, 4, 3, 0, 0], [0, 0, 0, 0, 1, 7]] ∧
    LinearIndependent ℚ (columnVectors t.2.mat.nrows t.2.mat.cols) := by
  refine ⟨_, getOk_eq one_ok, by decide +kernel, by decide +kernel, ?_⟩
  obtain ⟨eval, ty, n, hl, hn, hall⟩ := model_on_data world codesFit (sound one (by decide)) rfl (getOk_eq one_ok)
  obtain rfl := learned_unique learned_one _ _ hl
  obtain ⟨h1, h2⟩ := hl
  cases h1
  obtain rfl := rowCount_unique (fun _ => Iff.rfl) (fun _ => rfl) rowCount hn
  obtain ⟨h3, h4⟩ := hall one.rhs _ (.inr rfl)
  rw [h3]
  exact (h4 (wellCoded (by decide) rfl _)).2 rich

open FitSample HighSample BuilderSample in
/-- Example for `same_fit`: the same terms in another order.  All hypotheses are met, although the matrices differ. -/
example : ∃ t t', result more = .ok t ∧ result other = .ok t' ∧ t.2.mat.cols ≠ t'.2.mat.cols ∧
    termSets more.lhs = termSets other.lhs ∧ termSets more.rhs = termSets other.rhs ∧ MemorisedAlike setting' more other ∧
    (∀ eval ty, Learned setting' FitSample.rows more eval ty → WellCoded setting' ty more.rhs) ∧
    (∀ eval ty, Learned setting' FitSample.rows other eval ty → WellCoded setting' ty other.rhs) ∧
    ∀ y v v' : Fin t.2.mat.nrows → ℚ,
      Fitted t.2.mat.nrows t.2.mat.cols y v → Fitted t.2.mat.nrows t'.2.mat.cols y v' → v = v' := by
  have hl : termSets more.lhs = termSets other.lhs := rfl
  have hr : termSets more.rhs = termSets other.rhs := by
    ext S
    simp only [termSets, more, other, List.mem_cons, List.not_mem_nil, or_false, exists_eq_or_imp, exists_eq_left]
    constructor
    · rintro (h | h | h | h)
      · exact .inr (.inr (.inl h))
      · exact .inr (.inr (.inr h))
      · exact .inr (.inl fun f => by rw [← h f]; exact or_comm)
      · exact .inl h
    · rintro (h | h | h | h)
      · exact .inr (.inr (.inr h))
      · exact .inr (.inr (.inl fun f => by rw [← h f]; exact or_comm))
      · exact .inl h
      · exact .inr (.inl h)
  have hmem : MemorisedAlike setting' more other := by
    intro e e' h h' f _ _
    cases h
    cases h'
    rfl
  have hw1 : ∀ eval ty, Learned setting' FitSample.rows more eval ty → WellCoded setting' ty more.rhs := by
    intro eval ty h
    obtain rfl := learned_unique learned_more _ _ h
    exact wellCoded (by decide) rfl _
  have hw2 : ∀ eval ty, Learned setting' FitSample.rows other eval ty → WellCoded setting' ty other.rhs := by
    intro eval ty h
    obtain rfl := learned_unique learned_other _ _ h
    exact wellCoded (by decide) rfl _
  refine ⟨_, _, getOk_eq more_ok, getOk_eq other_ok, by decide +kernel, hl, hr, hmem, hw1, hw2, ?_⟩
  exact (same_fit world codesFit (sound more (by decide)) (sound other (by decide)) rfl rfl (getOk_eq more_ok) (getOk_eq other_ok)
    hl hr hmem hw1 hw2).2

namespace FitSample

open BuilderSample HighSample

def treeOne : FTree := op "~" (v "y") (op "+" (v "a") (v "x"))

def treeOther : FTree := op "~" (v "y") (op "+" (v "x") (v "a"))

theorem parsed_one : fromTree mkEx intEx treeOne = .ok ⟨[⟨["y"]⟩], [⟨[]⟩, ⟨["a"]⟩, ⟨["x"]⟩]⟩ := by rfl

theorem parsed_other : fromTree mkEx intEx treeOther = .ok ⟨[⟨["y"]⟩], [⟨[]⟩, ⟨["x"]⟩, ⟨["a"]⟩]⟩ := by rfl

theorem same_trees : Same mkEx intEx (op "+" (v "a") (v "x")) (op "+" (v "x") (v "a")) := by
  have lit : ∀ s, ¬ IsLit "ZERO" (v s) := by intro s; simp [IsLit, v, Infix.Node.token]
  have keep : ∀ s, Keeps mkEx intEx (v s) := by
    intro s m h
    rw [means_unique h (means_v s)]; simp [Meaning.factor]
  exact plus_comm _ _ (lit _) (lit _) (keep _) (keep _)

def textResult (n : FTree) : Except Err (Table String Data ℚ × Table String Data ℚ) :=
  highLevelDesign setting' isnan none rows .matrix (.text (fromTree mkEx intEx n))

theorem text_one_ok : isOk (textResult treeOne) = true := by
  unfold textResult
  rw [parsed_one]
  decide +kernel

theorem text_other_ok : isOk (textResult treeOther) = true := by
  unfold textResult
  rw [parsed_other]
  decide +kernel

theorem learned_text_one : ∃ ty, Learned setting' rows ⟨[⟨["y"]⟩], [⟨[]⟩, ⟨["a"]⟩, ⟨["x"]⟩]⟩ look' ty ∧
    "a" ∉ ty.1.map Prod.fst ∧ ty.2 = [("a", [.str "u", .str "v", .str "w"], none)] := ⟨_, ⟨rfl, rfl⟩, by decide, rfl⟩

theorem learned_text_other : ∃ ty, Learned setting' rows ⟨[⟨["y"]⟩], [⟨[]⟩, ⟨["x"]⟩, ⟨["a"]⟩]⟩ look' ty ∧
    "a" ∉ ty.1.map Prod.fst ∧ ty.2 = [("a", [.str "u", .str "v", .str "w"], none)] := ⟨_, ⟨rfl, rfl⟩, by decide, rfl⟩

end FitSample

open FitSample HighSample BuilderSample in
/-- Example for `law_same_fit`: `y ~ a + x` and `y ~ x + a`. -/
example : ∃ t t', textResult treeOne = .ok t ∧ textResult treeOther = .ok t' ∧
    ∀ y v v' : Fin t.2.mat.nrows → ℚ,
      Fitted t.2.mat.nrows t.2.mat.cols y v → Fitted t.2.mat.nrows t'.2.mat.cols y v' → v = v' := by
  refine ⟨_, _, getOk_eq text_one_ok, getOk_eq text_other_ok, ?_⟩
  refine (law_same_fit world codesFit same_trees (v "y") (getOk_eq text_one_ok) (getOk_eq text_other_ok) ?_ ?_).2
  · intro m m' e e' h h' f _ _
    cases h
    cases h'
    rfl
  · rintro m (h | h) eval ty hl
    · have hm := Except.ok.inj (h.symm.trans parsed_one)
      subst hm
      obtain ⟨ty', h1, h2, h3⟩ := learned_text_one
      obtain rfl := learned_unique h1 _ _ hl
      exact wellCoded h2 h3 _
    · have hm := Except.ok.inj (h.symm.trans parsed_other)
      subst hm
      obtain ⟨ty', h1, h2, h3⟩ := learned_text_other
      obtain rfl := learned_unique h1 _ _ hl
      exact wellCoded h2 h3 _

end Patsy.Props
