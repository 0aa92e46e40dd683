import Verif.Spec.Predict
import Verif.Props.Fit
import Verif.Props.Chunks
import Verif.Props.Program
import Verif.Spec.Outcome

/-!
# C60: predictions

The `design_info` of a matrix is used to build the matrix of new data.
-/

set_option linter.unusedSectionVars false

namespace Patsy.Props

open Patsy.Build Patsy.Desc Patsy.Cat Patsy.Spec Patsy.Contrast Patsy.Redundancy

variable {F D K H : Type} [DecidableEq F] [Field K] [DecidableEq H]

/-! ### Matrices on top of each other -/

theorem mapM_option_length {A B : Type} {f : A → Option B} : ∀ {l : List A} {m : List B}, l.mapM f = some m →
    m.length = l.length := by
  intro l
  induction l with
  | nil => intro m h; cases h; rfl
  | cons a l ih =>
    intro m h
    simp only [List.mapM_cons, Option.bind_eq_bind, Option.bind_eq_some_iff, pure, Option.some.injEq] at h
    obtain ⟨b, _, l', h2, rfl⟩ := h
    simp [ih h2]

theorem isMatrix_lengths {c : Coding F D K} {rows : List (F → Option (Cell K))} {cols : List (List K)}
    (h : IsMatrix c rows cols) : ∀ col ∈ cols, col.length = rows.length := by
  intro col hcol
  obtain ⟨x, _, hx⟩ := exists_mem_of_forall₂' h hcol
  exact mapM_option_length hx

theorem weighted_fin {n : Nat} {cols : List (List K)} (b : Fin cols.length → K) :
    ∃ b' : Nat → K, weighted n cols b' = fun i => ∑ j, b j * columnVectors n cols j i := by
  refine ⟨fun j => if h : j < cols.length then b ⟨j, h⟩ else 0, ?_⟩
  funext i
  unfold weighted
  refine Finset.sum_congr rfl fun j _ => ?_
  simp

theorem weighted_stack {n n' : Nat} {cols cols' : List (List K)} (h : ∀ c ∈ cols, c.length = n)
    (hl : cols.length = cols'.length) (b : Nat → K) :
    (∀ (i : Nat) (hi : i < n) (hi' : i < n + n'),
      weighted (n + n') (List.zipWith (· ++ ·) cols cols') b ⟨i, hi'⟩ = weighted n cols b ⟨i, hi⟩) ∧
    ∀ (i : Nat) (hi : i < n') (hi' : n + i < n + n'),
      weighted (n + n') (List.zipWith (· ++ ·) cols cols') b ⟨n + i, hi'⟩ = weighted n' cols' b ⟨i, hi⟩ := by
  have hlen : (List.zipWith (· ++ ·) cols cols').length = cols.length := by simp [hl]
  constructor
  · intro i hi hi'
    unfold weighted columnVectors
    rw [← Fin.sum_congr' _ hlen]
    refine Finset.sum_congr rfl fun j _ => ?_
    have hj : (cols[j.1]'(by omega)).length = n := h _ (List.getElem_mem _)
    simp only [Fin.val_cast, Fin.getElem_fin, Fin.getElem?_fin, List.getElem_zipWith]
    rw [List.getElem?_append_left (by omega)]
  · intro i hi hi'
    unfold weighted columnVectors
    rw [← Fin.sum_congr' _ (hlen.trans hl)]
    refine Finset.sum_congr rfl fun j _ => ?_
    have hj : (cols[j.1]'(by have := j.2; omega)).length = n := h _ (List.getElem_mem _)
    simp only [Fin.val_cast, Fin.getElem_fin, Fin.getElem?_fin, List.getElem_zipWith]
    rw [List.getElem?_append_right (by omega)]
    congr 3
    omega

/-- Matrices of one design on old and new rows. -/
theorem madeMatrix_extends {hash : Subterm F → H} {types : Types F K} {n : F → Nat}
    {coder : F → Bool → Except Err (ContrastMatrix K)} {fis : List (F × FactorInfo F D K)} {ts : List (Term F)}
    {d : DesignInfo F D K} {rows rows' : List (F → Option (Cell K))} {cols cols' : List (List K)}
    (h : MadeMatrix hash types.1 n coder fis ts d rows cols) (h' : MadeMatrix hash types.1 n coder fis ts d rows' cols') :
    cols.length = cols'.length ∧ Extends types ts rows rows' cols cols' := by
  obtain ⟨c, hc, hm⟩ := h.matrix
  obtain ⟨c', hc', hm'⟩ := h'.matrix
  obtain rfl : c = c' := Option.some.inj (hc.symm.trans hc')
  have hl : cols.length = cols'.length := by
    rw [← List.Forall₂.length_eq hm, ← List.Forall₂.length_eq hm']
  have hstack : MadeMatrix hash types.1 n coder fis ts d (rows ++ rows') (List.zipWith (· ++ ·) cols cols') :=
    ⟨h.made, h.nodup, h.separates, h.fit, h.coded, ⟨c, hc, isMatrix_append.mpr ⟨_, _, hm, hm', rfl⟩⟩, by
      intro cells hcells
      rcases List.mem_append.mp hcells with hcells | hcells
      · exact h.levels cells hcells
      · exact h'.levels cells hcells⟩
  obtain ⟨hold, hnew⟩ : _ ∧ _ := ⟨fun b => (weighted_stack (n' := rows'.length) (isMatrix_lengths hm) hl b).1,
    fun b => (weighted_stack (n' := rows'.length) (isMatrix_lengths hm) hl b).2⟩
  refine ⟨hl, fun v => ?_⟩
  rw [ModelFunction, ← hstack.span, mem_columnSpace]
  have hlen := List.length_append (as := rows) (bs := rows')
  have hsplit : ∀ b : Nat → K, (v = weighted _ (List.zipWith (· ++ ·) cols cols') b) ↔
      oldPart v = weighted rows.length cols b ∧ newPart v = weighted rows'.length cols' b := by
    intro b
    have key : ∀ N (hN : N = rows.length + rows'.length) (v : Fin N → K),
        v = weighted N (List.zipWith (· ++ ·) cols cols') b ↔
        (∀ i (hi : i < rows.length), v ⟨i, by omega⟩ = weighted rows.length cols b ⟨i, hi⟩) ∧
        ∀ i (hi : i < rows'.length), v ⟨rows.length + i, by omega⟩ = weighted rows'.length cols' b ⟨i, hi⟩ := by
      rintro N rfl v
      constructor
      · rintro rfl
        exact ⟨fun i hi => hold b i hi _, fun i hi => hnew b i hi _⟩
      · rintro ⟨h1, h2⟩
        funext i
        by_cases hi : i.1 < rows.length
        · exact (h1 i hi).trans (hold b i hi _).symm
        · have h3 : i.1 - rows.length < rows'.length := by have := i.2; omega
          have h4 : i = ⟨rows.length + (i.1 - rows.length), by have := i.2; omega⟩ := Fin.ext (by simp; omega)
          rw [h4]
          exact (h2 _ h3).trans (hnew b _ h3 _).symm
    rw [key _ hlen v]
    constructor
    · rintro ⟨h1, h2⟩
      exact ⟨funext fun i => h1 i i.2, funext fun i => h2 i i.2⟩
    · rintro ⟨h1, h2⟩
      exact ⟨fun i hi => congrFun h1 ⟨i, hi⟩, fun i hi => congrFun h2 ⟨i, hi⟩⟩
  constructor
  · rintro ⟨b, hb⟩
    obtain ⟨b', hb'⟩ := weighted_fin (n := (rows ++ rows').length) b
    exact ⟨b', (hsplit b').mp (hb.trans hb'.symm)⟩
  · rintro ⟨b, hb⟩
    exact ⟨fun j => b j, (hsplit b).mpr hb⟩

/-! ### One design, several data sets -/

theorem model_nodup {m : ModelDesc F} (hnd : ∀ t ∈ m.lhs ++ m.rhs, t.factors.Nodup) :
    ∀ tl ∈ [m.lhs, m.rhs], ∀ t ∈ tl, t.factors.Nodup := by
  intro tl htl t ht
  simp only [List.mem_cons, List.not_mem_nil, or_false] at htl
  rcases htl with rfl | rfl
  · exact hnd t (by simp [ht])
  · exact hnd t (by simp [ht])

/-- **C60**, for designs made from data in chunks.  The matrices that a design gives on two data sets, with any two
`NA_action`s, belong to the same model: the types, levels and states of the factors are those of the chunks that the design
was made from, and with the same coefficients the two matrices give exactly the functions of the model on the rows of both
data sets together. -/
theorem builds_extend {P : Setting F D K H} (hw : World P) (hcodes : CodesFit P) {chunks : List D}
    {tls : List (List (Term F))} (hnd : ∀ tl ∈ tls, ∀ t ∈ tl, t.factors.Nodup) {dis : List (DesignInfo F D K)}
    (h : designMatrixBuilders P chunks tls = .ok dis) :
    ∃ eval types, LearnedFrom P chunks tls eval types ∧
      ∀ (isnan : K → Bool) ts d, (ts, d) ∈ tls.zip dis → ∀ na frame dataIndex data b na' frame' dataIndex' data' b',
        buildDesignMatrices isnan na frame dataIndex [d] data = .ok b →
        buildDesignMatrices isnan na' frame' dataIndex' [d] data' = .ok b' →
        ∃ mat mat' n n', b.mats = [mat] ∧ b'.mats = [mat'] ∧
          RowCount na types (fun f => eval f data) (allFactors [ts]) dataIndex n ∧
          RowCount na' types (fun f => eval f data') (allFactors [ts]) dataIndex' n' ∧
          mat.nrows = (keptCells na isnan types (fun f => eval f data) (allFactors [ts]) n).length ∧
          mat'.nrows = (keptCells na' isnan types (fun f => eval f data') (allFactors [ts]) n').length ∧
          (WellCoded P types ts → mat.cols.length = mat'.cols.length ∧
            Extends types ts (keptCells na isnan types (fun f => eval f data) (allFactors [ts]) n)
              (keptCells na' isnan types (fun f => eval f data') (allFactors [ts]) n') mat.cols mat'.cols) := by
  obtain ⟨eval, types, infos, he, ht, hall⟩ := designs_made hw hcodes hnd h
  refine ⟨eval, types, ⟨he, ht⟩, ?_⟩
  intro isnan ts d hd na frame dataIndex data b na' frame' dataIndex' data' b' hb hb'
  obtain ⟨n, hn, hm⟩ := hall isnan na frame dataIndex data [(ts, d)] (by simp) (by simpa using hd) b hb
  obtain ⟨n', hn', hm'⟩ := hall isnan na' frame' dataIndex' data' [(ts, d)] (by simp) (by simpa using hd) b' hb'
  obtain ⟨mat, hb1, h1, h2⟩ := forall₂_one hm
  obtain ⟨mat', hb1', h1', h2'⟩ := forall₂_one hm'
  exact ⟨mat, mat', n, n', hb1, hb1', hn, hn', h1, h1', fun hg => madeMatrix_extends (h2 hg.1 hg.2) (h2' hg.1 hg.2)⟩

/-- **C60**.  The `design_info` of the matrix that `dmatrix` or `dmatrices` returns for a formula, applied to new data with
any `NA_action`: the new matrix has a row for every new row in which no factor of the right-hand side is missing, the
factors are read with the types, levels and states of the old data, and with the same coefficients the old and the new
matrix give exactly the functions of the model on the old and the new rows together. -/
theorem predictions_extend {P : Setting F D K H} (hw : World P) (hcodes : CodesFit P) {isnan : K → Bool}
    {dataIndex : Option (List Label)} {data : D} {rt : ReturnType} {f : FormulaLike F D K} (hf : Sound data f)
    {m : ModelDesc F} (hm : modelOf f = some m) {t : Table F D K × Table F D K}
    (h : highLevelDesign P isnan dataIndex data rt f = .ok t) :
    ∃ eval types n, Learned P data m eval types ∧
      RowCount P.na types (fun f => eval f data) (allFactors [m.lhs, m.rhs]) dataIndex n ∧
      t.2.mat.nrows = (modelRows P isnan data m eval types n).length ∧
      ∀ na frame dataIndex' data' b, buildDesignMatrices isnan na frame dataIndex' [t.2.info] data' = .ok b →
        ∃ mat n', b.mats = [mat] ∧ RowCount na types (fun f => eval f data') (allFactors [m.rhs]) dataIndex' n' ∧
          mat.nrows = (keptCells na isnan types (fun f => eval f data') (allFactors [m.rhs]) n').length ∧
          (WellCoded P types m.rhs → t.2.mat.cols.length = mat.cols.length ∧
            Extends types m.rhs (modelRows P isnan data m eval types n)
              (keptCells na isnan types (fun f => eval f data') (allFactors [m.rhs]) n') t.2.mat.cols mat.cols) := by
  obtain ⟨_, _, hbuild, _, cl, cr, hp, _, _, hb⟩ := highLevel_built hw hf (hasDesigns_of_model hm) h
  obtain ⟨eval, types, infos, he, ht, hall⟩ := designs_made hw hcodes (model_nodup (sound_nodup hf hm)) (hb m hm)
  obtain ⟨n, hn, hmats⟩ := hall isnan _ _ _ _ [(m.lhs, t.1.info), (m.rhs, t.2.info)] (by simp) (by simp) _ hbuild
  obtain ⟨x, y, hxy, ⟨a1, a2⟩, b1, b2⟩ := forall₂_two hmats
  simp only [List.cons.injEq, and_true] at hxy
  obtain ⟨rfl, rfl⟩ := hxy
  refine ⟨eval, types, n, ⟨he, ht⟩, hn, b1, ?_⟩
  intro na frame dataIndex' data' b hb'
  obtain ⟨n', hn', hm'⟩ := hall isnan na frame dataIndex' data' [(m.rhs, t.2.info)] (by simp) (by simp) b hb'
  obtain ⟨mat', hb1', h1', h2'⟩ := forall₂_one hm'
  exact ⟨mat', n', hb1', hn', h1', fun hg => madeMatrix_extends (b2 hg.1 hg.2) (h2' hg.1 hg.2)⟩

/-! ### Predictions are determined by the fitted values -/

theorem weighted_inj {n : Nat} {cols : List (List K)} (h : LinearIndependent K (columnVectors n cols)) {b b' : Nat → K}
    (he : weighted n cols b = weighted n cols b') : ∀ j < cols.length, b j = b' j := by
  rw [Fintype.linearIndependent_iff] at h
  intro j hj
  have := h (fun j => b j - b' j) (by
    funext i
    have := congrFun he i
    simp only [weighted] at this
    simp only [Finset.sum_apply, Pi.smul_apply, smul_eq_mul, sub_mul, Finset.sum_sub_distrib, this, sub_self, Pi.zero_apply])
    ⟨j, hj⟩
  exact sub_eq_zero.mp this

theorem weighted_congr {n : Nat} {cols : List (List K)} {b b' : Nat → K} (h : ∀ j < cols.length, b j = b' j) :
    weighted n cols b = weighted n cols b' := by
  funext i
  unfold weighted
  exact Finset.sum_congr rfl fun j _ => by rw [h j j.2]

/-- **C60**, predictions.  If the columns are independent on the old rows, the predictions on the new rows are the only
ones possible: every function of the model that has the fitted values on the old rows has the predicted values on the new
rows. -/
theorem prediction_unique {types : Types F K} {ts : List (Term F)} {rows rows' : List (F → Option (Cell K))}
    {cols cols' : List (List K)} (hl : cols.length = cols'.length) (h : Extends types ts rows rows' cols cols')
    (hi : LinearIndependent K (columnVectors rows.length cols)) {v : Fin (rows ++ rows').length → K}
    (hv : ModelFunction types ts (rows ++ rows') v) {b : Nat → K} (hb : oldPart v = weighted rows.length cols b) :
    newPart v = weighted rows'.length cols' b := by
  obtain ⟨b', h1, h2⟩ := (h v).mp hv
  rw [h2]
  have := weighted_inj hi (hb.symm.trans h1)
  exact weighted_congr fun j hj => (this j (by omega)).symm

/-- Two matrices of the same model, in whatever coding, give the same predictions if they give the same fitted values. -/
theorem extends_alike {types types' : Types F K} {ts ts' : List (Term F)} {rows rows' : List (F → Option (Cell K))}
    {cols cols' c c' : List (List K)} (hl : cols.length = cols'.length) (h : Extends types ts rows rows' cols cols')
    (h' : Extends types' ts' rows rows' c c') (hi : LinearIndependent K (columnVectors rows.length cols))
    (hsub : ∀ v, ModelFunction types' ts' (rows ++ rows') v → ModelFunction types ts (rows ++ rows') v)
    {b b' : Nat → K} (he : weighted rows.length cols b = weighted rows.length c b') :
    weighted rows'.length cols' b = weighted rows'.length c' b' := by
  obtain ⟨v, hold, hnew⟩ : ∃ v : Fin (rows ++ rows').length → K, oldPart v = weighted rows.length c b' ∧
      newPart v = weighted rows'.length c' b' := by
    refine ⟨fun i => if hlt : i.1 < rows.length then weighted rows.length c b' ⟨i, hlt⟩ else
      weighted rows'.length c' b' ⟨i.1 - rows.length, by
        have := i.2; have := List.length_append (as := rows) (bs := rows'); omega⟩, ?_, ?_⟩
    · funext i
      simp [oldPart]
    · funext i
      simp [newPart]
  have hv := hsub v ((h' v).mpr ⟨b', hold, hnew⟩)
  exact (prediction_unique hl h hi hv (hold.trans he.symm)).symm.trans hnew

/-! ### Equivalent formulas -/

theorem modelFunction_marginal {types types' : Types F K} (hnums : ∀ f, dictGet types'.1 f = dictGet types.1 f)
    {ts ts' : List (Term F)} (hs : ∀ u ∈ ts', ∃ u' ∈ ts, Marginal types.1 u u') (rows : List (F → Option (Cell K)))
    (v : Fin rows.length → K) (hv : ModelFunction types' ts' rows v) : ModelFunction types ts rows v := by
  unfold ModelFunction at hv ⊢
  simp only [termFunctions_nums hnums] at hv
  refine Submodule.span_mono ?_ hv
  intro w hw
  simp only [Set.mem_iUnion] at hw ⊢
  obtain ⟨u, hu, hw⟩ := hw
  obtain ⟨u', hu', hmar⟩ := hs u hu
  exact ⟨u', hu', termFunctions_marginal hmar _ hw⟩

theorem marginal_factors {nums : List (F × Nat)} {ts ts' : List (Term F)}
    (hs : ∀ u ∈ ts, ∃ u' ∈ ts', Marginal nums u u') (hs' : ∀ u ∈ ts', ∃ u' ∈ ts, Marginal nums u u') :
    ∀ f, f ∈ allFactors [ts] ↔ f ∈ allFactors [ts'] := by
  have key : ∀ {ts ts' : List (Term F)}, (∀ u ∈ ts, ∃ u' ∈ ts', Marginal nums u u') →
      ∀ f, f ∈ allFactors [ts] → f ∈ allFactors [ts'] := by
    intro ts ts' hs f hf
    obtain ⟨tl, htl, u, hu, hf⟩ := allFactors_mem.mp hf
    cases List.mem_singleton.mp htl
    obtain ⟨u', hu', hmar⟩ := hs u hu
    exact allFactors_mem.mpr ⟨ts', by simp, u', hu', hmar.1 f hf⟩
  exact fun f => ⟨key hs f, key hs' f⟩

/-- **C60**, equivalent formulas.  Two formulas with the same factors, and right-hand sides with terms that are marginal to
each other (as in C54).  If the columns of the first are independent on the old data, then coefficients that give the same
fitted values on the old data give the same predictions on new data, whatever the codings of the categorical factors in the
two matrices are. -/
theorem same_predictions {P : Setting F D K H} (hw : World P) (hcodes : CodesFit P) {isnan : K → Bool}
    {dataIndex : Option (List Label)} {data : D} {rt rt' : ReturnType} {f f' : FormulaLike F D K} (hf : Sound data f)
    (hf' : Sound data f') {m m' : ModelDesc F} (hm : modelOf f = some m) (hm' : modelOf f' = some m')
    {t t' : Table F D K × Table F D K} (h : highLevelDesign P isnan dataIndex data rt f = .ok t)
    (h' : highLevelDesign P isnan dataIndex data rt' f' = .ok t') (hfac : SameFactors m m') (hmem : MemorisedAlike P m m')
    (hgood : ∀ eval types, Learned P data m eval types → WellCoded P types m.rhs ∧
      (∀ u ∈ m.rhs, ∃ u' ∈ m'.rhs, Marginal types.1 u u') ∧ ∀ u ∈ m'.rhs, ∃ u' ∈ m.rhs, Marginal types.1 u u')
    (hgood' : ∀ eval types, Learned P data m' eval types → WellCoded P types m'.rhs)
    (hind : LinearIndependent K (columnVectors t.2.mat.nrows t.2.mat.cols))
    {na : NAAction} {frame frame' : Bool} {newIndex : Option (List Label)} {new : D} {b b' : Built K}
    (hb : buildDesignMatrices isnan na frame newIndex [t.2.info] new = .ok b)
    (hb' : buildDesignMatrices isnan na frame' newIndex [t'.2.info] new = .ok b') :
    ∃ mat mat', b.mats = [mat] ∧ b'.mats = [mat'] ∧ t.2.mat.nrows = t'.2.mat.nrows ∧ mat.nrows = mat'.nrows ∧
      ∀ β β', weighted t.2.mat.nrows t.2.mat.cols β = weighted t.2.mat.nrows t'.2.mat.cols β' →
        weighted mat.nrows mat.cols β = weighted mat.nrows mat'.cols β' := by
  obtain ⟨eval, types, n, hl, hn, hr, hall⟩ := predictions_extend hw hcodes hf hm h
  obtain ⟨eval', types', n', hl', hn', hr', hall'⟩ := predictions_extend hw hcodes hf' hm' h'
  obtain ⟨mat, k, e1, hk, hrk, hext⟩ := hall _ _ _ _ _ hb
  obtain ⟨mat', k', e1', hk', hrk', hext'⟩ := hall' _ _ _ _ _ hb'
  obtain ⟨hw1, hs1, hs2⟩ := hgood _ _ hl
  have hrows := modelRows_alike (isnan := isnan) hw hfac hmem hl hl' hn hn'
  obtain ⟨htype, hcell⟩ := learned_alike hw hfac hmem hl hl'
  have hnums : ∀ g, dictGet types'.1 g = dictGet types.1 g := fun g => typeOf_nums (htype g).symm
  have hfr := marginal_factors hs1 hs2
  obtain rfl := rowCount_unique hfr (hcell na new) hk hk'
  have hnew : keptCells na isnan types' (fun f => eval' f new) (allFactors [m'.rhs]) k =
      keptCells na isnan types (fun f => eval f new) (allFactors [m.rhs]) k := by
    have hfun : (factorCell na types fun f => eval f new) = factorCell na types' fun f => eval' f new :=
      funext (hcell na new)
    unfold keptCells
    rw [hfun]
    congr 1
    refine List.filter_congr fun r _ => ?_
    rw [Bool.eq_iff_iff, List.all_eq_true, List.all_eq_true]
    exact ⟨fun hall f hf => hall f ((hfr f).mp hf), fun hall f hf => hall f ((hfr f).mpr hf)⟩
  obtain ⟨hlen, hext⟩ := hext hw1
  obtain ⟨_, hext'⟩ := hext' (hgood' _ _ hl')
  rw [hnew] at hext' hrk'
  rw [← hrows] at hext' hr'
  refine ⟨mat, mat', e1, e1', hr.trans hr'.symm, hrk.trans hrk'.symm, ?_⟩
  rw [hr] at hind ⊢
  rw [hrk]
  intro β β' he
  exact extends_alike hlen hext hext' hind (modelFunction_marginal hnums hs2 _) he

/-- **C60**, regression.  Fitting two equivalent formulas by least squares gives the same predictions on new data. -/
theorem same_regression {K : Type} [Field K] [LinearOrder K] [IsStrictOrderedRing K] {P : Setting F D K H} (hw : World P)
    (hcodes : CodesFit P) {isnan : K → Bool} {dataIndex : Option (List Label)} {data : D} {rt rt' : ReturnType}
    {f f' : FormulaLike F D K} (hf : Sound data f) (hf' : Sound data f') {m m' : ModelDesc F} (hm : modelOf f = some m)
    (hm' : modelOf f' = some m') {t t' : Table F D K × Table F D K}
    (h : highLevelDesign P isnan dataIndex data rt f = .ok t)
    (h' : highLevelDesign P isnan dataIndex data rt' f' = .ok t') (hfac : SameFactors m m') (hmem : MemorisedAlike P m m')
    (hgood : ∀ eval types, Learned P data m eval types → WellCoded P types m.rhs ∧
      (∀ u ∈ m.rhs, ∃ u' ∈ m'.rhs, Marginal types.1 u u') ∧ ∀ u ∈ m'.rhs, ∃ u' ∈ m.rhs, Marginal types.1 u u')
    (hgood' : ∀ eval types, Learned P data m' eval types → WellCoded P types m'.rhs)
    (hind : LinearIndependent K (columnVectors t.2.mat.nrows t.2.mat.cols))
    {na : NAAction} {frame frame' : Bool} {newIndex : Option (List Label)} {new : D} {b b' : Built K}
    (hb : buildDesignMatrices isnan na frame newIndex [t.2.info] new = .ok b)
    (hb' : buildDesignMatrices isnan na frame' newIndex [t'.2.info] new = .ok b') :
    ∃ mat mat', b.mats = [mat] ∧ b'.mats = [mat'] ∧ mat.nrows = mat'.nrows ∧
      ∀ y β β', Fitted t.2.mat.nrows t.2.mat.cols y (weighted t.2.mat.nrows t.2.mat.cols β) →
        Fitted t.2.mat.nrows t'.2.mat.cols y (weighted t.2.mat.nrows t'.2.mat.cols β') →
        weighted mat.nrows mat.cols β = weighted mat.nrows mat'.cols β' := by
  obtain ⟨mat, mat', e1, e1', _, hrows, hall⟩ :=
    same_predictions hw hcodes hf hf' hm hm' h h' hfac hmem hgood hgood' hind hb hb'
  refine ⟨mat, mat', e1, e1', hrows, fun y β β' hβ hβ' => hall β β' ?_⟩
  obtain ⟨_, h2⟩ := same_column_space hw hcodes hf hf' hm hm' h h' hfac hmem hgood hgood'
  refine fitted_unique hβ ?_
  rw [fitted_iff] at hβ' ⊢
  rwa [h2]

/-! ### From the text of a formula -/

section Text

open Patsy.Tokens Patsy.EvalFactor Patsy.Program

variable {V A S : Type}

/-- Memorised factors use on all data what their transforms remember of the training data. -/
theorem interp_remembered {I : Interp D V A S K H} (hI : Sane I) {fs : List String} (hn : fs.Nodup)
    (hgood : GoodCode I.stateful I.code fs fun f => (readTokens (I.code f)).getD .nil) {data : D}
    {eval : String → D → Except Err (Seen K)} (h : (I.setting [data]).memorize fs = .ok eval) :
    ∃ σ : String → Nat → S, (∀ f ∈ fs, Remembers I.python I.classOf [data] (I.expression f) (σ f)) ∧
      ∀ f ∈ fs, ∀ d, (∃ s, I.remembered σ d f = .ok s ∧ eval f d = .ok s) ∨
        (∃ e, I.remembered σ d f = .error e) ∧ eval f d = .error .patsyError := by
  simp only [Interp.setting] at h
  cases hm : memorizeFactors I.python I.stateful I.classOf I.visitNames I.visitFactors I.code [data] fs with
  | error e => rw [hm] at h; cases h
  | ok states =>
    rw [hm] at h
    cases h
    have key : ∀ f : String, ∃ σ : Nat → S, f ∈ fs → Remembers I.python I.classOf [data] (I.expression f) σ ∧
        ∀ d, evalMemorized I.python I.classOf states f d = wrapExc (valueWith I.python I.classOf σ (I.expression f) d) := by
      intro f
      by_cases hf : f ∈ fs
      · obtain ⟨σ, h1, h2⟩ :=
          (memorized_states (P := I.python) (classOf := I.classOf) hgood hI.names hI.factors hn [data]).2 states hm f hf
        exact ⟨σ, fun _ => ⟨h1, h2⟩⟩
      · exact ⟨fun _ => (I.classOf f).init, fun h => absurd h hf⟩
    choose σ hσ using key
    refine ⟨σ, fun f hf => (hσ f hf).1, fun f hf d => ?_⟩
    simp only [(hσ f hf).2 d, Interp.remembered]
    cases valueWith I.python I.classOf (σ f) (I.expression f) d with
    | error e => exact .inr ⟨⟨e, rfl⟩, rfl⟩
    | ok v => exact .inl ⟨_, rfl, rfl⟩

theorem text_predicts_core {I : Interp D V A S K H} (hI : Sane I) {isnan : K → Bool}
    {dataIndex : Option (List Build.Label)} {data : D} {rt : ReturnType} {fin : RawEnd} {raw : List PyTok}
    (hfine : FineText I fin raw) {t : Table String D K × Table String D K}
    (h : highLevelDesign (I.setting [data]) isnan dataIndex data rt (.text (I.fromFormula fin raw)) = .ok t) :
    ∃ m types n σ, StandsFor I dataIndex data fin raw m types n ∧ IsMatrixOf I isnan data m types n m.rhs t.2.mat ∧
      Trained I data m σ ∧ ∀ na frame dataIndex' data' b,
        buildDesignMatrices isnan na frame dataIndex' [t.2.info] data' = .ok b →
        ∃ mat, b.mats = [mat] ∧ Predicts I isnan data m types n σ na dataIndex' data' t.2.mat mat := by
  cases hm : I.fromFormula fin raw with
  | error e =>
    rw [hm] at h
    simp only [highLevelDesign, tryIncrBuilders] at h
    split at h <;> cases h
  | ok m =>
    have h0 := h
    rw [hm] at h
    obtain ⟨hmean, hnorm, hcode⟩ := fromFormula_ok hfine hm
    have hsound : Sound (K := K) data (.text (.ok m)) := by
      intro m' hm' t ht
      cases hm'
      rcases List.mem_append.mp ht with ht | ht
      · exact hnorm.1.nodup t ht
      · exact hnorm.2.nodup t ht
    obtain ⟨eval, types, n, hl, hrows, hold, hall⟩ :=
      predictions_extend (interp_world hI [data]) (interp_codes hI [data]) hsound rfl h
    have hgood : GoodCode I.stateful I.code (I.visit (allFactors [m.lhs, m.rhs])) fun f => (readTokens (I.code f)).getD .nil :=
      fine_good hfine fun f hf => hcode f ((hI.visits _).mem_iff.mp hf)
    have hn : (I.visit (allFactors [m.lhs, m.rhs])).Nodup := (hI.visits _).nodup_iff.mpr (allFactors_nodup _)
    have hcell := interp_cell hI hgood hl
    obtain ⟨σ, hσ, heval⟩ := interp_remembered hI hn hgood hl.1
    have hnew : ∀ na data', factorCell na types (fun f => eval f data') = factorCell na types (I.remembered σ data') := by
      intro na data'
      funext r f
      by_cases hf : f ∈ I.visit (allFactors [m.lhs, m.rhs])
      · rcases heval f hf data' with ⟨s, h1, h2⟩ | ⟨⟨e, h1⟩, h2⟩
        · simp only [factorCell, h1, h2]
        · simp only [factorCell, h1, h2]
          split <;> simp_all
      · simp only [factorCell, typeOf_none (visit := I.visit) hI.visits hl.2 hf]
    have hkept : modelRows (I.setting [data]) isnan data m eval types n = Program.completeRows I isnan data m types n := by
      unfold modelRows Program.completeRows keptCells
      rw [← hcell]
      rfl
    have hrows' : RowCount I.na types (I.value data) (allFactors [m.lhs, m.rhs]) dataIndex n := by
      unfold RowCount at hrows ⊢
      rw [← hcell]
      exact hrows
    have hsep : ∀ {ts : List (Term String)}, GoodCodings I.default types ts → WellCoded (I.setting [data]) types ts :=
      fun hg => ⟨hg, fun _ _ _ _ h => Redundancy.minusPiece_injective (hI.hash h)⟩
    obtain ⟨eval', types', n', hl', hn', hmats⟩ :=
      model_on_data (interp_world hI [data]) (interp_codes hI [data]) hsound rfl h
    obtain rfl : eval = eval' := Except.ok.inj (hl.1.symm.trans hl'.1)
    obtain rfl : types = types' := Except.ok.inj (hl.2.symm.trans hl'.2)
    obtain rfl : n = n' := rowCount_unique (fun _ => Iff.rfl) (fun _ => rfl) hrows hn'
    rw [hkept] at hmats hall
    refine ⟨m, types, n, σ, ⟨hmean, hnorm, hcode, interp_typed hI hgood hl, hrows'⟩,
      ⟨(hmats _ _ (.inr rfl)).1, fun hg => (hmats _ _ (.inr rfl)).2 (hsep hg)⟩,
      fun f hf => hσ f ((hI.visits _).mem_iff.mpr hf), ?_⟩
    intro na frame dataIndex' data' b hb
    obtain ⟨mat, k, e1, hk, hr, hext⟩ := hall _ _ _ _ _ hb
    unfold RowCount at hk
    unfold keptCells at hr hext
    rw [hnew] at hk hr hext
    exact ⟨mat, e1, k, hk, hr, fun hg => hext (hsep hg)⟩

/-- **C60** for the text of a formula. -/
theorem text_predicts {I : Interp D V A S K H} (hI : Sane I) {isnan : K → Bool}
    {dataIndex : Option (List Build.Label)} {data : D} {rt : ReturnType} {fin : RawEnd} {raw : List PyTok}
    (hfine : FineText I fin raw) {t : Table String D K × Table String D K}
    (h : I.dmatrices isnan dataIndex data rt fin raw = .ok t) :
    ∃ m types n σ, StandsFor I dataIndex data fin raw m types n ∧ IsMatrixOf I isnan data m types n m.rhs t.2.mat ∧
      Trained I data m σ ∧ ∀ na frame dataIndex' data' b,
        buildDesignMatrices isnan na frame dataIndex' [t.2.info] data' = .ok b →
        ∃ mat, b.mats = [mat] ∧ Predicts I isnan data m types n σ na dataIndex' data' t.2.mat mat := by
  simp only [Interp.dmatrices, Build.dmatrices, bind_ok] at h
  obtain ⟨t', h1, h2⟩ := h
  split at h2 <;> cases h2
  exact text_predicts_core hI hfine h1

/-- **C60** for `dmatrix`. -/
theorem text_predicts_dmatrix {I : Interp D V A S K H} (hI : Sane I) {isnan : K → Bool}
    {dataIndex : Option (List Build.Label)} {data : D} {rt : ReturnType} {fin : RawEnd} {raw : List PyTok}
    (hfine : FineText I fin raw) {t : Table String D K}
    (h : I.dmatrix isnan dataIndex data rt fin raw = .ok t) :
    ∃ m types n σ, StandsFor I dataIndex data fin raw m types n ∧ IsMatrixOf I isnan data m types n m.rhs t.mat ∧
      Trained I data m σ ∧ ∀ na frame dataIndex' data' b,
        buildDesignMatrices isnan na frame dataIndex' [t.info] data' = .ok b →
        ∃ mat, b.mats = [mat] ∧ Predicts I isnan data m types n σ na dataIndex' data' t.mat mat := by
  simp only [Interp.dmatrix, Build.dmatrix, bind_ok] at h
  obtain ⟨t', h1, h2⟩ := h
  split at h2 <;> cases h2
  exact text_predicts_core hI hfine h1

end Text

/-! ### Examples -/

namespace PredictSample

open BuilderSample HighSample FitSample

/-- `0 + a + a:x`, which is equivalent to `1 + a + a:x`. -/
def noIntercept : ModelDesc String := ⟨[], [⟨["a"]⟩, ⟨["a", "x"]⟩]⟩

theorem noIntercept_ok : isOk (FitSample.result noIntercept) = true := by decide +kernel

theorem learned_noIntercept : Learned setting' FitSample.rows noIntercept look' FitSample.types := ⟨rfl, rfl⟩

/-- New data, in which `a` does not have all levels, and one value of `x` is missing. -/
def newRows : Data := [(1, 5, "v"), (2, 10, "u"), (0, 99, "u")]

def build (m : ModelDesc String) (h : isOk (FitSample.result m) = true) : Except Err (Built ℚ) :=
  buildDesignMatrices FitSample.isnan {} false none [(getOk _ h).2.info] newRows

theorem build_one : isOk (build one one_ok) = true := by decide +kernel

theorem build_noIntercept : isOk (build noIntercept noIntercept_ok) = true := by decide +kernel

theorem marginal : (∀ u ∈ one.rhs, ∃ u' ∈ noIntercept.rhs, Marginal FitSample.types.1 u u') ∧
    ∀ u ∈ noIntercept.rhs, ∃ u' ∈ one.rhs, Marginal FitSample.types.1 u u' := by
  refine ⟨?_, fun u hu => ⟨u, by revert u; decide, fun f hf => hf, fun f hf _ => hf⟩⟩
  intro u hu
  simp only [one, List.mem_cons, List.not_mem_nil, or_false] at hu
  rcases hu with rfl | rfl | rfl
  · exact ⟨⟨["a"]⟩, by decide, by simp, by simp [FitSample.types, dictGet]⟩
  · exact ⟨⟨["a"]⟩, by decide, fun f hf => hf, fun f hf _ => hf⟩
  · exact ⟨⟨["a", "x"]⟩, by decide, fun f hf => hf, fun f hf _ => hf⟩

theorem independent : LinearIndependent ℚ
    (columnVectors (getOk _ one_ok).2.mat.nrows (getOk (FitSample.result one) one_ok).2.mat.cols) := by
  obtain ⟨eval, ty, n, hl, hn, hall⟩ := model_on_data world codesFit (sound one (by decide)) rfl (getOk_eq one_ok)
  obtain rfl := learned_unique learned_one _ _ hl
  obtain ⟨h1, h2⟩ := hl
  cases h1
  obtain rfl := rowCount_unique (fun _ => Iff.rfl) (fun _ => rfl) rowCount hn
  obtain ⟨h3, h4⟩ := hall one.rhs _ (.inr rfl)
  rw [h3]
  exact (h4 (wellCoded (by decide) rfl _)).2 rich

theorem chunks_ok : isOk (designMatrixBuilders setting' [FitSample.rows.take 3, FitSample.rows.drop 3] [one.rhs]) = true := by
  decide +kernel

theorem chunks_old : isOk (buildDesignMatrices FitSample.isnan {} false none (getOk _ chunks_ok) (FitSample.rows.take 3)) =
    true := by decide +kernel

theorem chunks_new : isOk (buildDesignMatrices FitSample.isnan {} false none (getOk _ chunks_ok) newRows) = true := by
  decide +kernel

end PredictSample

open PredictSample FitSample HighSample BuilderSample in
/-- Example for `predictions_extend`, `same_predictions`, `same_regression` and `prediction_unique`: the formulas
`1 + a + a:x` and `0 + a + a:x` give different matrices, on the old and on the new data; all hypotheses are met. -/
example : ∃ t t' b b', FitSample.result one = .ok t ∧ FitSample.result noIntercept = .ok t' ∧
    buildDesignMatrices FitSample.isnan {} false none [t.2.info] newRows = .ok b ∧
    buildDesignMatrices FitSample.isnan {} false none [t'.2.info] newRows = .ok b' ∧
    t.2.mat.cols ≠ t'.2.mat.cols ∧
    b.mats = [⟨2, [[1, 1], [1, 0], [0, 0], [0, 10], [5, 0], [0, 0]]⟩] ∧
    b'.mats = [⟨2, [[0, 1], [1, 0], [0, 0], [0, 10], [5, 0], [0, 0]]⟩] ∧
    LinearIndependent ℚ (columnVectors t.2.mat.nrows t.2.mat.cols) ∧
    (∃ mat mat', b.mats = [mat] ∧ b'.mats = [mat'] ∧ mat.nrows = mat'.nrows ∧
      ∀ y β β', Fitted t.2.mat.nrows t.2.mat.cols y (weighted t.2.mat.nrows t.2.mat.cols β) →
        Fitted t.2.mat.nrows t'.2.mat.cols y (weighted t.2.mat.nrows t'.2.mat.cols β') →
        weighted mat.nrows mat.cols β = weighted mat.nrows mat'.cols β') := by
  refine ⟨_, _, _, _, getOk_eq one_ok, getOk_eq noIntercept_ok, getOk_eq build_one, getOk_eq build_noIntercept,
    by decide +kernel, by decide +kernel, by decide +kernel, independent, ?_⟩
  refine same_regression world codesFit (sound one (by decide)) (sound noIntercept (by decide)) rfl rfl
    (getOk_eq one_ok) (getOk_eq noIntercept_ok) ?_ ?_ ?_ ?_ independent (getOk_eq build_one) (getOk_eq build_noIntercept)
  · have e1 : allFactors [one.lhs, one.rhs] = ["a", "x"] := by decide
    have e2 : allFactors [noIntercept.lhs, noIntercept.rhs] = ["a", "x"] := by decide
    intro f
    rw [e1, e2]
  · intro e e' h h' f _ _
    cases h
    cases h'
    rfl
  · intro eval ty h
    obtain rfl := learned_unique learned_one _ _ h
    exact ⟨wellCoded (by decide) rfl _, marginal⟩
  · intro eval ty h
    obtain rfl := learned_unique learned_noIntercept _ _ h
    exact wellCoded (by decide) rfl _

open PredictSample FitSample HighSample BuilderSample in
/-- Example for `builds_extend`: a design made from two chunks, with levels of `a` that no chunk has all, is used for the first
chunk and for new data. -/
example : ∃ dis b b', designMatrixBuilders setting' [FitSample.rows.take 3, FitSample.rows.drop 3] [one.rhs] = .ok dis ∧
    dis.length = 1 ∧ buildDesignMatrices FitSample.isnan {} false none dis (FitSample.rows.take 3) = .ok b ∧
    buildDesignMatrices FitSample.isnan {} false none dis newRows = .ok b' ∧
    b.mats = [⟨3, [[1, 1, 1], [0, 0, 1], [0, 0, 0], [1, 2, 0], [0, 0, 4], [0, 0, 0]]⟩] ∧
    b'.mats = [⟨2, [[1, 1], [1, 0], [0, 0], [0, 10], [5, 0], [0, 0]]⟩] ∧
    LearnedFrom setting' [FitSample.rows.take 3, FitSample.rows.drop 3] [one.rhs] look' FitSample.types ∧
    WellCoded setting' FitSample.types one.rhs := by
  exact ⟨_, _, _, getOk_eq chunks_ok, by decide +kernel, getOk_eq chunks_old, getOk_eq chunks_new, by decide +kernel,
    by decide +kernel, ⟨rfl, rfl⟩, wellCoded (by decide) rfl _⟩

open PredictSample FitSample FitSample2 in
/-- Example for `text_predicts`: `x ~ center(x + center(x))` on the new data 5, 0.  The mean that is subtracted is that of
the old data. -/
example : ∃ t b, ProgramSample.interp.dmatrices isnan none FitSample2.rows .matrix .exhausted ProgramSample.raw = .ok t ∧
    buildDesignMatrices isnan {} false none [t.2.info] (colOf [5, 0]) = .ok b ∧
    b.mats = [⟨2, [[1, 1], [4, -6]]⟩] ∧
    ∃ m types n σ, Program.StandsFor ProgramSample.interp none FitSample2.rows .exhausted ProgramSample.raw m types n ∧
      Program.Trained ProgramSample.interp FitSample2.rows m σ ∧
      Program.Predicts ProgramSample.interp isnan FitSample2.rows m types n σ {} none (colOf [5, 0]) t.2.mat
        ⟨2, [[1, 1], [4, -6]]⟩ := by
  have hb : okIs (do
      let b ← buildDesignMatrices isnan {} false none [(getOk _ ProgramSample.ok).2.info] (colOf [5, 0])
      pure b.mats) [⟨2, [[1, 1], [4, -6]]⟩] = true := by decide +kernel
  have hb := eq_ok_of_okIs hb
  simp only [bind_ok, pure_ok] at hb
  obtain ⟨b, h1, h2⟩ := hb
  refine ⟨_, b, getOk_eq ProgramSample.ok, h1, h2, ?_⟩
  obtain ⟨m, types, n, σ, h3, _, h4, h5⟩ := text_predicts ProgramSample.real.toSane
    (ProgramSample.fine_of ProgramSample.interp rfl rfl) (getOk_eq ProgramSample.ok)
  obtain ⟨mat, h6, h7⟩ := h5 _ _ _ _ _ h1
  rw [h2] at h6
  cases h6
  exact ⟨m, types, n, σ, h3, h4, h7⟩

end Patsy.Props
