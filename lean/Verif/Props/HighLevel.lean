import Verif.Lemmas.HighLevel
import Verif.Props.DesignInfo
import Std.Data.String.ToNat

/-!
# C36 and C48: `dmatrix`, `dmatrices`, `incr_dbuilder`, `incr_dbuilders`

`Spec/HighLevel.lean` says which formula-likes have nothing on the left-hand side (`NoOutcome`) and what is assumed about
Python and pandas (`World`, `Sound`).
-/

namespace Patsy.Props

open Patsy.Desc Patsy.Cat Patsy.Build Patsy.Spec

variable {F D K H : Type} [DecidableEq F] [DecidableEq H] [Mul K] [One K]

/-! ### Explicit matrices -/

theorem regularize_ok {name : F → String} {frame : Bool} {a : ArrayLike F D K} {pre : String}
    {r : Table F D K × Option (List Label)} (h : regularizeMatrix name frame a pre = .ok r) :
    r.1.mat = a.mat ∧ r.2 = a.pandas.map (·.index) ∧
    r.1.index = if frame then some ((a.pandas.map (·.index)).getD ((List.range a.mat.nrows).map Label.row)) else none := by
  simp only [regularizeMatrix, bind_ok] at h
  obtain ⟨di, _, h⟩ := h
  cases frame with
  | true =>
    simp only [if_true, bind_ok, pure_ok, dataFrame] at h
    obtain ⟨t, ht, rfl⟩ := h
    split at ht
    · cases ht
    · split at ht
      · cases ht
      · cases ht; exact ⟨rfl, rfl, rfl⟩
  | false =>
    simp only [Bool.false_eq_true, if_false, bind_ok, pure_ok, designMatrix] at h
    obtain ⟨t, ht, rfl⟩ := h
    split at ht
    · cases ht; exact ⟨rfl, rfl, rfl⟩
    · split at ht
      · cases ht
      · split at ht
        · cases ht
        · split at ht
          · cases ht
          · cases ht; exact ⟨rfl, rfl, rfl⟩

/-- Given matrices are passed through; a missing left-hand side is a matrix without columns; both matrices have the same
number of rows and the same index. -/
theorem explicit_matrices {name : F → String} {frame : Bool} {lhs : Option (ArrayLike F D K)} {rhs : ArrayLike F D K}
    {t : Table F D K × Table F D K} (h : explicitMatrices name frame lhs rhs = .ok t) :
    t.1.mat = (lhs.getD (noColumns rhs.mat.nrows)).mat ∧ t.2.mat = rhs.mat ∧ t.1.mat.nrows = t.2.mat.nrows ∧
    t.1.index = t.2.index ∧ t.2.index =
      if frame then some (((rhs.pandas.map (·.index)).or ((lhs.bind (·.pandas)).map (·.index))).getD
        ((List.range rhs.mat.nrows).map Label.row)) else none := by
  simp only [explicitMatrices, bind_ok] at h
  obtain ⟨r, hr, l, hl, h⟩ := h
  obtain ⟨r1, r2, r3⟩ := regularize_ok hr
  obtain ⟨l1, l2, l3⟩ := regularize_ok hl
  split at h
  · cases h
  · rename_i hrows
    simp only [ne_eq, Decidable.not_not] at hrows
    split at h
    · cases h
    · rename_i hmis
      simp only [pure_ok] at h
      subst h
      have hpan : (lhs.getD (noColumns r.1.mat.nrows)).pandas.map (·.index) = (lhs.bind (·.pandas)).map (·.index) := by
        cases lhs <;> rfl
      rw [hpan] at l2 l3
      rw [← l1] at l3
      rw [← r1] at r3
      cases frame with
      | false => exact ⟨by rw [← r1]; exact l1, r1, hrows, l3.trans r3.symm, r3⟩
      | true =>
        simp only [if_true] at r3 l3 ⊢
        rw [← r2] at r3 ⊢
        rw [← l2] at l3 ⊢
        rw [← r1, ← l1]
        obtain ⟨⟨ri, rm, rx⟩, ro⟩ := r
        obtain ⟨⟨li, lm, lx⟩, lo⟩ := l
        simp only at r3 l3 hrows hmis ⊢
        cases ro with
        | none =>
          cases lo with
          | none =>
            refine ⟨rfl, rfl, hrows, ?_, r3⟩
            show lx = rx
            rw [l3, r3, hrows]
          | some lo => exact ⟨rfl, rfl, hrows, rfl, l3⟩
        | some ro =>
          cases lo with
          | none => exact ⟨rfl, rfl, hrows, rfl, r3⟩
          | some lo =>
            simp only [indexMismatch, ne_eq, decide_eq_true_eq, Decidable.not_not] at hmis
            refine ⟨rfl, rfl, hrows, ?_, r3⟩
            show lx = rx
            rw [l3, r3]
            simp [hmis]

theorem highLevel_explicit {P : Setting F D K H} {isnan : K → Bool} {dataIndex : Option (List Label)} {data : D}
    {rt : ReturnType} {f : FormulaLike F D K} (hb : ¬ HasDesigns f) (hrt : rt ≠ .other) :
    highLevelDesign P isnan dataIndex data rt f = highLevelMatrices P.name (rt = .dataframe) f := by
  simp only [highLevelDesign, hrt, if_false, tryIncrBuilders_none hb, ok_bind]

theorem asArray_ok {a b : ArrayLike F D K} (h : asArray a = .ok b) : b.mat = a.mat ∧ b.pandas = a.pandas := by
  simp only [asArray] at h
  split at h
  · cases h; exact ⟨rfl, rfl⟩
  · split at h
    · cases h
    · cases h; exact ⟨rfl, rfl⟩

/-! ### C36 -/

/-- **C36**.  Whatever `dmatrix` and `dmatrices` have in common succeeds or fails alike for both; if it succeeds, exactly
one of them succeeds, and the other one raises a `PatsyError`: `dmatrix` if there are columns on the left-hand side,
`dmatrices` if there are none. -/
theorem entry_points {P : Setting F D K H} {isnan : K → Bool} {dataIndex : Option (List Label)} {data : D}
    {rt : ReturnType} {f : FormulaLike F D K} :
    (∀ e, highLevelDesign P isnan dataIndex data rt f = .error e →
      dmatrix P isnan dataIndex data rt f = .error e ∧ dmatrices P isnan dataIndex data rt f = .error e) ∧
    ∀ t, highLevelDesign P isnan dataIndex data rt f = .ok t →
      (t.1.ncols = 0 → dmatrix P isnan dataIndex data rt f = .ok t.2 ∧
        dmatrices P isnan dataIndex data rt f = .error .patsyError) ∧
      (t.1.ncols ≠ 0 → dmatrix P isnan dataIndex data rt f = .error .patsyError ∧
        dmatrices P isnan dataIndex data rt f = .ok t) := by
  constructor
  · intro e h
    simp [dmatrix, dmatrices, h, err_bind]
  · intro t h
    constructor
    · intro h0
      simp [dmatrix, dmatrices, h, ok_bind, h0]
    · intro h0
      simp [dmatrix, dmatrices, h, ok_bind, h0]

theorem built_rows {P : Setting F D K H} (hw : World P) {isnan : K → Bool} {dataIndex : Option (List Label)} {data : D}
    {rt : ReturnType} {f : FormulaLike F D K} (hf : Sound data f) (hb : HasDesigns f) {t : Table F D K × Table F D K}
    (h : highLevelDesign P isnan dataIndex data rt f = .ok t) :
    t.1.mat.nrows = t.2.mat.nrows ∧ t.1.ncols = t.1.info.columnNames.length ∧ t.2.ncols = t.2.info.columnNames.length ∧
      (rt = .matrix → t.1.index = none) ∧ (rt = .dataframe → ∃ l, t.1.index = some l ∧ l.length = t.1.mat.nrows) := by
  obtain ⟨hrt, _, h2, h3, cl, cr, hp, _⟩ := highLevel_built hw hf hb h
  rw [build_keeps_complete_rows (by simp) (.cons hp.left (.cons hp.right .nil)) hp.same (hp.fits _)] at h2
  obtain ⟨V, n, idx, hev, _, hm, hi⟩ := h2
  obtain ⟨x, y, hxy, ⟨a1, a2⟩, b1, b2⟩ := forall₂_two hm
  simp only [List.cons.injEq, and_true] at hxy
  obtain ⟨rfl, rfl⟩ := hxy
  refine ⟨a1.trans b1.symm, isMatrix_width hp.left a2, isMatrix_width hp.right b2, ?_, ?_⟩
  · rintro rfl
    simpa using hi
  · rintro rfl
    simp only [decide_true, if_true] at hi
    refine ⟨_, hi, ?_⟩
    rw [a1]
    have hall : ∀ r ∈ completeRows P.na isnan (Spec.factorsOf [cl, cr]) V n, r < idx.length := by
      intro r hr
      rw [hev.length]
      exact List.mem_range.mp (List.mem_filter.mp hr).1
    generalize completeRows P.na isnan (Spec.factorsOf [cl, cr]) V n = rows at hall
    clear hi a1 b1 a2 b2 hm
    induction rows with
    | nil => rfl
    | cons r rows ih =>
      rw [List.filterMap_cons, List.getElem?_eq_getElem (hall r (by simp))]
      simp only [List.length_cons]
      rw [ih fun r hr => hall r (by simp [hr])]

/-- **C36**.  The two matrices have the same number of rows and the same index; the index is there exactly if a data
frame was requested, and has one label per row. -/
theorem same_rows {P : Setting F D K H} (hw : World P) {isnan : K → Bool} {dataIndex : Option (List Label)} {data : D}
    {rt : ReturnType} {f : FormulaLike F D K} (hf : Sound data f) {t : Table F D K × Table F D K}
    (h : highLevelDesign P isnan dataIndex data rt f = .ok t) :
    t.1.mat.nrows = t.2.mat.nrows ∧ t.1.index = t.2.index ∧
      (rt = .matrix → t.2.index = none) ∧ (rt = .dataframe → ∃ l, t.2.index = some l ∧ l.length = t.2.mat.nrows) := by
  have hrt : rt ≠ .other := by
    rintro rfl
    simp [highLevelDesign] at h
  by_cases hb : HasDesigns f
  · obtain ⟨_, _, _, h3, _⟩ := highLevel_built hw hf hb h
    obtain ⟨h4, _, _, h5, h6⟩ := built_rows hw hf hb h
    rw [h3, ← h4]
    exact ⟨rfl, rfl, h5, h6⟩
  · rw [highLevel_explicit hb hrt] at h
    have key : ∀ (lhs : Option (ArrayLike F D K)) (rhs : ArrayLike F D K),
        (∀ a, lhs = some a → ∀ p, a.pandas = some p → p.index.length = a.mat.nrows) →
        (∀ p, rhs.pandas = some p → p.index.length = rhs.mat.nrows) →
        explicitMatrices P.name (rt = .dataframe) lhs rhs = .ok t →
        t.1.mat.nrows = t.2.mat.nrows ∧ t.1.index = t.2.index ∧
        (rt = .matrix → t.2.index = none) ∧ (rt = .dataframe → ∃ l, t.2.index = some l ∧ l.length = t.2.mat.nrows) := by
      intro lhs rhs hl hr h
      obtain ⟨h1, h2, h3, h4, h5⟩ := explicit_matrices h
      refine ⟨h3, h4, ?_, ?_⟩
      · rintro rfl
        simpa using h5
      · rintro rfl
        simp only [decide_true, if_true] at h5
        refine ⟨_, h5, ?_⟩
        cases hrp : rhs.pandas with
        | some p =>
          rw [h2]
          simpa using hr p hrp
        | none =>
          cases lhs with
          | none =>
            rw [h2]
            simp
          | some a =>
            cases hap : a.pandas with
            | none =>
              rw [h2]
              simp [hap]
            | some p =>
              rw [← h3, h1]
              simpa [hap] using hl a rfl p hap
    cases f with
    | pair lhs rhs => exact key lhs rhs hf.1 hf.2 h
    | array a =>
      simp only [highLevelMatrices, bind_ok] at h
      obtain ⟨b, hab, h⟩ := h
      obtain ⟨h1, h2⟩ := asArray_ok hab
      refine key none b (by simp) ?_ h
      rw [h1, h2]
      exact hf
    | tuple n => cases h
    | design _ => exact absurd trivial hb
    | designs _ _ => exact absurd trivial hb
    | provider _ => exact absurd trivial hb
    | text _ => exact absurd trivial hb
    | desc _ => exact absurd trivial hb

/-- **C36**.  A formula-like without a left-hand side: `dmatrix` accepts whatever can be made at all, `dmatrices` never
succeeds, and raises a `PatsyError` when the matrices could be made. -/
theorem no_outcome {P : Setting F D K H} (hw : World P) {isnan : K → Bool} {dataIndex : Option (List Label)} {data : D}
    {rt : ReturnType} {f : FormulaLike F D K} (hf : Sound data f) (hno : NoOutcome f) {t : Table F D K × Table F D K}
    (h : highLevelDesign P isnan dataIndex data rt f = .ok t) :
    t.1.ncols = 0 ∧ dmatrix P isnan dataIndex data rt f = .ok t.2 ∧
      dmatrices P isnan dataIndex data rt f = .error .patsyError := by
  have hrt : rt ≠ .other := by
    rintro rfl
    simp [highLevelDesign] at h
  have h0 : t.1.ncols = 0 := by
    by_cases hb : HasDesigns f
    · obtain ⟨_, _, _, _, cl, cr, _, h3, _⟩ := highLevel_built hw hf hb h
      rw [(built_rows hw hf hb h).2.1, h3 hno]
      rfl
    · rw [highLevel_explicit hb hrt] at h
      cases f with
      | pair lhs rhs =>
        obtain rfl : lhs = none := hno
        have := (explicit_matrices h).1
        rw [Table.ncols, this]
        rfl
      | array a =>
        simp only [highLevelMatrices, bind_ok] at h
        obtain ⟨b, hab, h⟩ := h
        have := (explicit_matrices h).1
        rw [Table.ncols, this]
        rfl
      | tuple n => cases h
      | design _ => exact absurd trivial hb
      | designs _ _ => exact absurd trivial hb
      | provider _ => exact absurd trivial hb
      | text _ => exact absurd trivial hb
      | desc _ => exact absurd trivial hb
  exact ⟨h0, (entry_points.2 t h).1 h0⟩

/-- **C36**.  A pair of matrices: `dmatrix` rejects it if the first one has a column, and `dmatrices` returns both. -/
theorem matrices_outcome {P : Setting F D K H} {isnan : K → Bool} {dataIndex : Option (List Label)} {data : D}
    {rt : ReturnType} {a b : ArrayLike F D K} (ha : a.mat.cols ≠ []) {t : Table F D K × Table F D K}
    (h : highLevelDesign P isnan dataIndex data rt (.pair (some a) b) = .ok t) :
    t.1.mat = a.mat ∧ t.2.mat = b.mat ∧ dmatrix P isnan dataIndex data rt (.pair (some a) b) = .error .patsyError ∧
      dmatrices P isnan dataIndex data rt (.pair (some a) b) = .ok t := by
  have hrt : rt ≠ .other := by
    rintro rfl
    simp [highLevelDesign] at h
  have h' := h
  rw [highLevel_explicit (by intro h; exact h) hrt] at h'
  obtain ⟨h1, h2, _⟩ := explicit_matrices h'
  refine ⟨h1, h2, (entry_points.2 t h).2 ?_⟩
  rw [Table.ncols, h1]
  simpa using ha

/-- **C36**.  A description with a term on the left-hand side whose factors have columns: `dmatrix` rejects it. -/
theorem outcome {P : Setting F D K H} (hw : World P) {isnan : K → Bool} {dataIndex : Option (List Label)} {data : D}
    {rt : ReturnType} {f : FormulaLike F D K} (hf : Sound data f) {m : ModelDesc F} (hm : modelOf f = some m)
    (hlhs : m.lhs ≠ [])
    (hcols : ∀ eval, P.memorize (P.visit (allFactors [m.lhs, m.rhs])) = .ok eval →
      ∀ t ∈ m.lhs, ∀ f ∈ t.factors, ∀ s, eval f data = .ok s →
      ∀ T, examineFactor P.na P.order none [s.value] = .ok (some T) → HasColumns P.default T)
    {t : Table F D K × Table F D K} (h : highLevelDesign P isnan dataIndex data rt f = .ok t) :
    t.1.ncols ≠ 0 ∧ dmatrix P isnan dataIndex data rt f = .error .patsyError ∧
      dmatrices P isnan dataIndex data rt f = .ok t := by
  have hb : HasDesigns f := by
    cases f <;> trivial
  have hnd : ∀ t ∈ m.lhs ++ m.rhs, t.factors.Nodup := by
    cases f with
    | provider r => exact hf m hm
    | text r => exact hf m hm
    | desc r => exact hf m hm
    | _ => cases hm
  obtain ⟨_, _, _, _, cl, cr, hp, _, _, h5⟩ := highLevel_built hw hf hb h
  have h0 : t.1.ncols ≠ 0 := by
    rw [(built_rows hw hf hb h).2.1]
    obtain ⟨eval, types, infos, he, ht, _, hd⟩ := builders_ok hw.visits (h5 m hm)
    cases hd with
    | cons hd _ =>
      have hvis : (P.visit (allFactors [m.lhs, m.rhs])).Nodup := (hw.visits _).nodup_iff.mpr (allFactors_nodup _)
      have htype : ∀ t ∈ m.lhs, ∀ g ∈ t.factors, ∀ T, typeOf types g = some T → HasColumns P.default T := by
        intro t ht' g hg T hT
        have hmem : g ∈ P.visit (allFactors [m.lhs, m.rhs]) :=
          (hw.visits _).mem_iff.mpr (allFactors_mem.mpr ⟨m.lhs, by simp, t, ht', hg⟩)
        have hown := examineTypes_own hw.visits hvis ht hmem
        rw [hT] at hown
        cases hs : eval g data with
        | error e =>
          simp only [ownLoop, List.foldlM_cons, ownStep, hs, err_bind] at hown
          cases hown
        | ok s =>
          refine hcols eval he t ht' g hg s hs T ?_
          rw [ownLoop_examineFactor, ← hown]
          simp only [ownLoop, List.foldlM_cons, hs]
          rfl
      refine Nat.pos_iff_ne_zero.mp (makeDesign_columns_pos hlhs (fun t ht => hnd t (by simp [ht])) ?_ ?_ hd)
      · intro t ht' g hg n hn
        exact htype t ht' g hg (.numerical n) (by simp [typeOf, hn])
      · intro t ht' g hg hn cm hcm
        simp only [coderOf] at hcm
        cases hc : dictGet types.2 g with
        | none => rw [hc] at hcm; cases hcm
        | some lc =>
          rw [hc] at hcm
          exact htype t ht' g hg (.categorical lc.1 lc.2) (by simp [typeOf, hn, hc]) cm hcm
  exact ⟨h0, (entry_points.2 t h).2 h0⟩

/-- **C36**.  The incremental functions agree with `dmatrix` and `dmatrices`: on the same data in one chunk they return
the `design_info` of the matrices, and they reject what the others reject. -/
theorem incremental {P : Setting F D K H} (hw : World P) {isnan : K → Bool} {dataIndex : Option (List Label)} {data : D}
    {rt : ReturnType} {f : FormulaLike F D K} (hf : Sound data f) (hb : HasDesigns f) {t : Table F D K × Table F D K}
    (h : highLevelDesign P isnan dataIndex data rt f = .ok t) :
    (t.1.ncols = 0 → incrDbuilder P [data] f = .ok t.2.info ∧ incrDbuilders P [data] f = .error .patsyError) ∧
    (t.1.ncols ≠ 0 → incrDbuilder P [data] f = .error .patsyError ∧
      incrDbuilders P [data] f = .ok (t.1.info, t.2.info)) := by
  obtain ⟨_, h1, _⟩ := highLevel_built hw hf hb h
  have h2 := (built_rows hw hf hb h).2.1
  simp only [incrDbuilder, incrDbuilders, h1, ok_bind, h2]
  constructor
  · intro h0
    simp [h0]
  · intro h0
    have : 0 < t.1.info.columnNames.length := Nat.pos_of_ne_zero h0
    simp [h0, this]

/-! ### C48: building again -/

/-- An additional design without factors and terms changes nothing. -/
theorem build_beside_empty {isnan : K → Bool} {na : NAAction} {frame : Bool} {dataIndex : Option (List Label)} {data : D}
    {l r : DesignInfo F D K} {cl cr : Coding F D K} (hp : BuilderPair data l r cl cr) (he : EmptyCoding cl)
    {x y : Mat K} {i : Option (List Label)}
    (h : buildDesignMatrices isnan na frame dataIndex [l, r] data = .ok ⟨[x, y], i⟩) :
    buildDesignMatrices isnan na frame dataIndex [r] data = .ok ⟨[y], i⟩ := by
  have hfac : Spec.factorsOf [cl, cr] = Spec.factorsOf [cr] := by
    simp [Spec.factorsOf, he.2]
  obtain ⟨h1, h2, h3, h4⟩ := hp
  rw [build_keeps_complete_rows (by simp) (.cons h1 (.cons h2 .nil)) h3 (h4 _)] at h
  rw [hfac] at h h3 h4
  rw [build_keeps_complete_rows (by simp) (.cons h2 .nil) h3 (h4 _)]
  obtain ⟨V, n, idx, a1, a2, a3, a4⟩ := h
  refine ⟨V, n, idx, a1, a2, ?_, a4⟩
  cases a3 with
  | cons _ a3 => exact a3

/-- **C48**.  The `design_info` of the matrix that `dmatrix` makes of a formula without left-hand side reproduces the
matrix (and the index) when it is applied to the same data. -/
theorem rebuild_dmatrix {P : Setting F D K H} (hw : World P) {isnan : K → Bool} {dataIndex : Option (List Label)}
    {data : D} {rt : ReturnType} {f : FormulaLike F D K} (hf : Sound data f) (hb : HasDesigns f) (hno : NoOutcome f)
    (hd : ∀ l r, f ≠ .designs l r) {t : Table F D K} (h : dmatrix P isnan dataIndex data rt f = .ok t) :
    buildDesignMatrices isnan P.na (rt = .dataframe) dataIndex [t.info] data = .ok ⟨[t.mat], t.index⟩ := by
  simp only [dmatrix, bind_ok] at h
  obtain ⟨u, hu, h⟩ := h
  split at h
  · cases h
  · obtain rfl : u.2 = t := Except.ok.inj h
    obtain ⟨_, _, h1, h2, cl, cr, hp, _, h4, _⟩ := highLevel_built hw hf hb hu
    rw [h2]
    exact build_beside_empty hp (h4 hno hd) h1

/-- **C48** for `dmatrices`: both matrices together are reproduced. -/
theorem rebuild_dmatrices {P : Setting F D K H} (hw : World P) {isnan : K → Bool} {dataIndex : Option (List Label)}
    {data : D} {rt : ReturnType} {f : FormulaLike F D K} (hf : Sound data f) (hb : HasDesigns f)
    {l r : Table F D K} (h : dmatrices P isnan dataIndex data rt f = .ok (l, r)) :
    buildDesignMatrices isnan P.na (rt = .dataframe) dataIndex [l.info, r.info] data = .ok ⟨[l.mat, r.mat], r.index⟩ := by
  simp only [dmatrices, bind_ok] at h
  obtain ⟨u, hu, h⟩ := h
  split at h
  · cases h
  · obtain rfl : u = (l, r) := Except.ok.inj h
    obtain ⟨_, _, h1, h2, _⟩ := highLevel_built hw hf hb hu
    simp only at h1 h2
    rw [h2]
    exact h1

/-- A tuple of a wrong length, an unknown return type and a method `__patsy_get_model_desc__` that does not return a
`ModelDesc` are `PatsyError`s. -/
theorem bad_requests {P : Setting F D K H} {isnan : K → Bool} {dataIndex : Option (List Label)} {data : D}
    {rt : ReturnType} {n : Nat} {f : FormulaLike F D K} :
    highLevelDesign P isnan dataIndex data rt (.tuple n) = .error .patsyError ∧
    highLevelDesign P isnan dataIndex data .other f = .error .patsyError ∧
    highLevelDesign P isnan dataIndex data rt (.provider (.ok none)) = .error .patsyError := by
  refine ⟨?_, rfl, ?_⟩
  · by_cases h : rt = .other
    · subst h; rfl
    · rw [highLevel_explicit (by intro h; exact h) h]; rfl
  · simp only [highLevelDesign]
    split
    · rfl
    · rfl

/-- A data frame with a column `name` cannot be given as a matrix: `asarray_or_pandas` passes the column on as an
argument `name` that the constructor does not have. -/
theorem name_column_crashes {P : Setting F D K H} {isnan : K → Bool} {dataIndex : Option (List Label)} {data : D}
    {rt : ReturnType} (hrt : rt ≠ .other) {a : ArrayLike F D K} {p : PandasPart} (hp : a.pandas = some p)
    (hs : p.series = false) {l : List String} (hl : p.labels = .others l) (hn : "name" ∈ l) :
    dmatrix P isnan dataIndex data rt (.array a) = .error .typeError := by
  have : highLevelDesign P isnan dataIndex data rt (.array a) = .error .typeError := by
    rw [highLevel_explicit (by intro h; exact h) hrt]
    simp only [highLevelMatrices, asArray, hp, hs, PandasPart.hasName, hl, hn, decide_true, Bool.not_false,
      Bool.and_self, if_true, err_bind]
  exact (entry_points.1 _ this).1

/-- A matrix that is acceptable in itself: at most two dimensions, numbers, as many column names as columns, and no
column name twice. -/
structure Acceptable (a : ArrayLike F D K) (pre : String) : Prop where
  plain : a.info = none
  flat : a.ndim ≤ 2
  numbers : a.numbers = true
  labels : (a.names pre).length = a.mat.cols.length
  distinct : (a.names pre).Nodup

theorem regularize_accepts {name : F → String} {frame : Bool} {a : ArrayLike F D K} {pre : String}
    (h : Acceptable a pre) :
    ∃ r, regularizeMatrix name frame a pre = .ok r ∧ r.1.info.columnNames = a.names pre := by
  obtain ⟨d, hd⟩ := (columns_exact_plain (D := D) (K := K) (name := name)).2 h.distinct
  have hn := (columns_exact_plain.1 d hd).2.1
  have h2 : ¬ 2 < a.ndim := Nat.not_lt.mpr h.flat
  have hf : fromArray name a pre = .ok d := by
    simp [fromArray, h.plain, h2, hd]
  have hl : ¬ d.columnNames.length ≠ a.mat.cols.length := by
    rw [hn, h.labels]; simp
  cases frame with
  | true =>
    refine ⟨_, by simp only [regularizeMatrix, hf, ok_bind, if_true, dataFrame, h2, if_false, if_neg hl]; rfl, hn⟩
  | false =>
    refine ⟨_, by
      simp only [regularizeMatrix, hf, ok_bind, Bool.false_eq_true, if_false, designMatrix, h.plain, Option.isSome_none,
        Bool.and_false, h2, if_neg hl, h.numbers, Bool.not_true]
      rfl, hn⟩

/-- **C36**.  Acceptable matrices with the same number of rows, and the same index if both have one, are accepted; the
columns have the names that the matrices give them. -/
theorem explicit_accepted {name : F → String} {frame : Bool} {lhs : Option (ArrayLike F D K)} {rhs : ArrayLike F D K}
    (hr : Acceptable rhs "x") (hl : ∀ a, lhs = some a → Acceptable a "y" ∧ a.mat.nrows = rhs.mat.nrows ∧
      ∀ p q, a.pandas = some p → rhs.pandas = some q → p.index = q.index) :
    ∃ t, explicitMatrices name frame lhs rhs = .ok t ∧ t.2.info.columnNames = rhs.names "x" ∧
      ∀ a, lhs = some a → t.1.info.columnNames = a.names "y" := by
  obtain ⟨r, hr1, hr2⟩ := regularize_accepts (name := name) (frame := frame) hr
  obtain ⟨r3, r4, _⟩ := regularize_ok hr1
  have hinfo : ∀ lo ro (l r : Table F D K), (shareIndex frame lo ro l r).1.info = l.info ∧
      (shareIndex frame lo ro l r).2.info = r.info := by
    intro lo ro l r
    cases frame <;> cases lo <;> cases ro <;> exact ⟨rfl, rfl⟩
  have hempty : Acceptable (noColumns rhs.mat.nrows : ArrayLike F D K) "y" :=
    ⟨rfl, Nat.le_refl 2, rfl, rfl, List.nodup_nil⟩
  have hacc : Acceptable (lhs.getD (noColumns rhs.mat.nrows)) "y" := by
    cases lhs with
    | none => exact hempty
    | some a => exact (hl a rfl).1
  obtain ⟨l, hl1, hl2⟩ := regularize_accepts (name := name) (frame := frame) hacc
  obtain ⟨l3, l4, _⟩ := regularize_ok hl1
  have hrows : l.1.mat.nrows = r.1.mat.nrows := by
    rw [l3, r3]
    cases lhs with
    | none => rfl
    | some a => exact (hl a rfl).2.1
  have hidx : indexMismatch r.2 l.2 = false := by
    rw [r4, l4]
    cases lhs with
    | none => cases rhs.pandas <;> rfl
    | some a =>
      cases hp : a.pandas with
      | none => simp only [Option.getD_some, hp]; cases rhs.pandas <;> rfl
      | some p =>
        cases hq : rhs.pandas with
        | none => rfl
        | some q => simp [hp, indexMismatch, (hl a rfl).2.2 p q hp hq]
  refine ⟨shareIndex frame l.2 r.2 l.1 r.1, ?_, ?_, ?_⟩
  · rw [← r3] at hl1
    simp only [explicitMatrices, hr1, hl1, ok_bind, hrows, ne_eq, not_true_eq_false, if_false, hidx,
      Bool.false_eq_true]
    rfl
  · rw [(hinfo _ _ _ _).2, hr2]
  · rintro a rfl
    rw [(hinfo _ _ _ _).1, hl2]
    rfl

theorem numbered_nodup (pre : String) (n : Nat) : ((List.range n).map fun i => pre ++ toString i).Nodup := by
  refine List.Nodup.map ?_ List.nodup_range
  intro i j h
  simp only at h
  exact Nat.repr_inj.mp ((String.append_right_inj pre).mp h)

/-- **C36**.  An array of numbers with at most two dimensions is accepted by `dmatrix`, which returns it with the column
names `x0`, `x1`, ... -/
theorem array_accepted {P : Setting F D K H} {isnan : K → Bool} {dataIndex : Option (List Label)} {data : D}
    {rt : ReturnType} (hrt : rt ≠ .other) {a : ArrayLike F D K} (hi : a.info = none) (hd : a.ndim ≤ 2)
    (hn : a.numbers = true) (hp : a.pandas = none) :
    ∃ t, dmatrix P isnan dataIndex data rt (.array a) = .ok t ∧ t.mat = a.mat ∧
      t.info.columnNames = (List.range a.mat.cols.length).map fun i => "x" ++ toString i := by
  have hnames : a.names "x" = (List.range a.mat.cols.length).map fun i => "x" ++ toString i := by
    simp [ArrayLike.names, hp]
  have hacc : Acceptable a "x" := ⟨hi, hd, hn, by rw [hnames]; simp, by rw [hnames]; exact numbered_nodup _ _⟩
  obtain ⟨t, h1, h2, _⟩ := explicit_accepted (name := P.name) (frame := decide (rt = .dataframe)) (lhs := none) hacc
    (by simp)
  have hh : highLevelDesign P isnan dataIndex data rt (.array a) = .ok t := by
    rw [highLevel_explicit (by intro h; exact h) hrt]
    simp only [highLevelMatrices, asArray, hp, ok_bind]
    exact h1
  obtain ⟨h3, h4, _⟩ := explicit_matrices h1
  refine ⟨t.2, ((entry_points.2 t hh).1 ?_).1, h4, h2.trans hnames⟩
  rw [Table.ncols, h3]
  rfl

/-- The column names that a pandas object suggests (design_info.py:700-706): its column labels, or the prefix followed
by them if they are integers. -/
def labelNames (pre : String) : Labels → List String
  | .others l => l
  | .ints l => l.map fun i => pre ++ toString i

/-- **C36**.  A pandas object of numbers with distinct column labels is accepted by `dmatrix`, which returns it with its
column labels as names; the exception is a data frame with a column `name` (`name_column_crashes`). -/
theorem frame_accepted {P : Setting F D K H} {isnan : K → Bool} {dataIndex : Option (List Label)} {data : D}
    {rt : ReturnType} (hrt : rt ≠ .other) {a : ArrayLike F D K} {p : PandasPart} (hd : a.ndim ≤ 2)
    (hn : a.numbers = true) (hp : a.pandas = some p)
    (hlen : (labelNames "x" p.labels).length = a.mat.cols.length) (hdis : (labelNames "x" p.labels).Nodup)
    (hname : p.series = true ∨ ∀ l, p.labels = .others l → "name" ∉ l) :
    ∃ t, dmatrix P isnan dataIndex data rt (.array a) = .ok t ∧ t.mat = a.mat ∧
      t.info.columnNames = labelNames "x" p.labels := by
  obtain ⟨series, labels, index⟩ := p
  have hnames : ({ a with info := none } : ArrayLike F D K).names "x" = labelNames "x" labels := by
    cases labels <;> simp [ArrayLike.names, hp, labelNames]
  have hacc : Acceptable ({ a with info := none } : ArrayLike F D K) "x" :=
    ⟨rfl, hd, hn, by rw [hnames]; exact hlen, by rw [hnames]; exact hdis⟩
  obtain ⟨t, h1, h2, _⟩ := explicit_accepted (name := P.name) (frame := decide (rt = .dataframe)) (lhs := none) hacc
    (by simp)
  have hno : (!series && (PandasPart.hasName ⟨series, labels, index⟩)) = false := by
    cases labels with
    | ints l => cases series <;> rfl
    | others l =>
      rcases hname with h | h
      · have h : series = true := h
        rw [h]; rfl
      · simp [PandasPart.hasName, h l rfl]
  have hh : highLevelDesign P isnan dataIndex data rt (.array a) = .ok t := by
    rw [highLevel_explicit (by intro h; exact h) hrt]
    have : asArray a = .ok { a with info := none } := by
      unfold asArray
      split
      · rename_i h; rw [hp] at h; cases h
      · rename_i q h
        rw [hp] at h
        cases h
        rw [hno]; rfl
    simp only [highLevelMatrices, this, ok_bind]
    exact h1
  obtain ⟨h3, h4, _⟩ := explicit_matrices h1
  refine ⟨t.2, ((entry_points.2 t hh).1 ?_).1, h4, h2.trans hnames⟩
  rw [Table.ncols, h3]
  rfl

/-! ### Examples -/

namespace HighSample

open BuilderSample

/-- `z` is an array with no columns. -/
def look' (f : String) (d : Data) : Except Err (Seen ℚ) :=
  if f = "z" then .ok ⟨.raw (.array .number 2 0 []), d.map fun _ => [], none⟩ else look f d

def setting' : Setting String Data ℚ (Redundancy.Subterm String) := { setting with memorize := fun _ => .ok look' }

theorem world : World setting' := by
  refine ⟨visits, ?_⟩
  intro fs eval h f d s hs l hl
  cases h
  have : s.index = none := by
    simp only [look', look] at hs
    repeat' split at hs
    all_goals first | (cases hs; rfl) | cases hs
  rw [this] at hl
  cases hl

def data : Data := [(1, 2, "u"), (3, 4, "v"), (5, 6, "w"), (7, 8, "u")]

def noNaN (_ : ℚ) : Bool := false

/-- `y ~ 1 + a`. -/
def twoSided : FormulaLike String Data ℚ := .desc ⟨[⟨["y"]⟩], [⟨[]⟩, ⟨["a"]⟩]⟩

/-- `1 + a`. -/
def oneSided : FormulaLike String Data ℚ := .text (.ok ⟨[], [⟨[]⟩, ⟨["a"]⟩]⟩)

/-- `z ~ x`. -/
def emptyOutcome : FormulaLike String Data ℚ := .desc ⟨[⟨["z"]⟩], [⟨["x"]⟩]⟩

/-- A matrix as an array, without labels. -/
def array : ArrayLike String Data ℚ := { mat := ⟨2, [[1, 2], [3, 4]]⟩ }

/-- A matrix as a data frame. -/
def frame : ArrayLike String Data ℚ :=
  { mat := ⟨2, [[5, 6]]⟩, pandas := some ⟨false, .others ["name"], [.other "p", .other "q"]⟩ }

theorem sound_two : Sound data twoSided := by
  rintro m ⟨⟩ t ht
  revert t
  decide

theorem sound_one : Sound data oneSided := by
  rintro m ⟨⟩ t ht
  revert t
  decide

end HighSample

open HighSample in
/-- Example: an acceptable array and an acceptable data frame. -/
example : Acceptable array "y" ∧ Acceptable frame "x" ∧ array.mat.nrows = frame.mat.nrows :=
  ⟨⟨rfl, Nat.le_refl 2, rfl, rfl, by decide⟩, ⟨rfl, Nat.le_refl 2, rfl, rfl, by decide⟩, rfl⟩

open HighSample in
/-- Example: both kinds of formulas. -/
example : World setting' ∧ Sound data twoSided ∧ Sound data oneSided ∧ NoOutcome oneSided ∧ HasDesigns oneSided ∧
    isOk (highLevelDesign setting' noNaN none data .dataframe twoSided) = true ∧
    isOk (dmatrices setting' noNaN none data .dataframe twoSided) = true ∧
    isOk (dmatrix setting' noNaN none data .dataframe twoSided) = false ∧
    isOk (dmatrix setting' noNaN none data .matrix oneSided) = true ∧
    isOk (dmatrices setting' noNaN none data .matrix oneSided) = false := by
  refine ⟨world, sound_two, sound_one, ?_, trivial, by decide +kernel, by decide +kernel, by decide +kernel,
    by decide +kernel, by decide +kernel⟩
  rintro m ⟨⟩
  rfl

open HighSample in
/-- Example: the hypothesis of `outcome` about columns. -/
example : ∀ eval, setting'.memorize (setting'.visit (allFactors [[⟨["y"]⟩], [⟨[]⟩, ⟨["a"]⟩]])) = .ok eval →
      ∀ t ∈ [(⟨["y"]⟩ : Term String)], ∀ f ∈ t.factors, ∀ s, eval f data = .ok s →
      ∀ T, examineFactor setting'.na setting'.order none [s.value] = .ok (some T) → HasColumns setting'.default T := by
  intro eval he t ht f hf s hs T hT
  cases he
  obtain rfl : t = ⟨["y"]⟩ := by simpa using ht
  obtain rfl : f = "y" := by simpa using hf
  simp only [look', BuilderSample.look, BuilderSample.number] at hs
  simp only [String.reduceEq, if_false, if_true, Except.ok.injEq] at hs
  subst hs
  simp only [examineFactor, Nat.reduceLT, if_false, Except.ok.injEq, Option.some.injEq] at hT
  subst hT
  exact Nat.one_pos

open HighSample in
/-- Example for `frame_accepted`: a data frame with two columns labelled `p` and `q`, and one with the labels 0 and 7. -/
example : isOk (dmatrix setting' noNaN none data .matrix
      (.array { mat := ⟨1, [[5], [6]]⟩, pandas := some ⟨false, .others ["p", "q"], [.other "u"]⟩ })) = true ∧
    isOk (dmatrix setting' noNaN none data .matrix
      (.array { mat := ⟨1, [[5], [6]]⟩, pandas := some ⟨false, .ints [0, 7], [.other "u"]⟩ })) = true ∧
    labelNames "x" (.ints [0, 7]) = ["x0", "x7"] :=
  ⟨by decide +kernel, by decide +kernel, by decide +kernel⟩

open HighSample in
/-- **C36** needs the hypothesis that the left-hand side has columns: a formula with a left-hand side without columns is
accepted by `dmatrix` and rejected by `dmatrices`. -/
theorem empty_outcome_accepted :
    isOk (dmatrix setting' noNaN none data .matrix emptyOutcome) = true ∧
    isOk (dmatrices setting' noNaN none data .matrix emptyOutcome) = false ∧ ¬ NoOutcome emptyOutcome := by
  refine ⟨by decide +kernel, by decide +kernel, ?_⟩
  intro h
  have := h _ rfl
  cases this

open HighSample in
/-- Example: explicit matrices; the array gets the index of the data frame. -/
example : Sound data (.pair (some array) frame) ∧ array.mat.cols ≠ [] ∧
    (∃ t, highLevelDesign setting' noNaN none data .dataframe (.pair (some array) frame) = .ok t ∧
      t.1.index = some [.other "p", .other "q"] ∧ t.1.info.columnNames = ["y0", "y1"] ∧ t.2.info.columnNames = ["name"]) ∧
    isOk (dmatrix setting' noNaN none data .matrix (.array array)) = true ∧
    isOk (dmatrix setting' noNaN none data .matrix (.array frame)) = false := by
  have h : isOk (highLevelDesign setting' noNaN none data .dataframe (.pair (some array) frame)) = true := by
    decide +kernel
  refine ⟨⟨?_, ?_⟩, by decide, ⟨getOk (highLevelDesign setting' noNaN none data .dataframe (.pair (some array) frame))
    (by decide +kernel), getOk_eq h, by decide +kernel, by decide +kernel, by decide +kernel⟩, by decide +kernel,
    by decide +kernel⟩
  · rintro a ⟨⟩ p hp
    cases hp
  · rintro p ⟨⟩
    rfl

end Patsy.Props
