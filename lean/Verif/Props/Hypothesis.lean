import Verif.Props.Alone
import Verif.Props.CellMeans
import Verif.Props.Constraint
import Verif.Props.ConstraintWays
import Verif.Spec.Hypothesis

/-!
# Property C85: demanding that added coefficients vanish describes the smaller model
-/

set_option linter.unusedSectionVars false

namespace Patsy.Props

open Patsy.Build Patsy.Desc Patsy.Spec Patsy.Constraint

variable {F D K H : Type} [DecidableEq F] [Field K] [LinearOrder K] [IsStrictOrderedRing K] [DecidableEq H]

theorem selectAll_map {A B : Type} (f : A → B) (slices : List Slice) (l : List A) :
    selectAll slices (l.map f) = (selectAll slices l).map f := by
  simp [selectAll, Slice.select, List.map_flatMap, List.map_drop, List.map_take]

theorem mem_selectAll {A : Type} {slices : List Slice} {l : List A} {a : A} (h : a ∈ selectAll slices l) : a ∈ l := by
  simp only [selectAll, List.mem_flatMap, Slice.select] at h
  obtain ⟨s, _, h⟩ := h
  exact List.mem_of_mem_take (List.mem_of_mem_drop h)

theorem list_of_range {A : Type} (l : List A) (a : A) : l = (List.range l.length).map fun j => l[j]?.getD a := by
  refine List.ext_getElem (by simp) fun i h1 h2 => ?_
  simp [h1]

/-- The coefficients that satisfy the constraint describe the functions that the columns of the smaller design span. -/
theorem constrained_span {names : List Name} {cols : List (List K)} (hlen : cols.length = names.length) (hnd : names.Nodup)
    {slices : List Slice} {c : LinCon K} (hc : ∀ x, x.length = names.length → (Sat c x ↔
      ∀ j (h : j < names.length), names[j] ∉ selectAll slices names → x[j]? = some 0)) {n : Nat} {w : Fin n → K} :
    w ∈ Submodule.span K (Set.range (columnVectors n (selectAll slices cols))) ↔
      ∃ x, x.length = cols.length ∧ Sat c x ∧ w = combination n cols x := by
  set ps := selectAll slices (List.range names.length) with hps
  have hlt : ∀ p ∈ ps, p < names.length := fun p hp => List.mem_range.mp (mem_selectAll hp)
  have hcols : selectAll slices cols = ps.map fun j => cols[j]?.getD [] := by
    conv_lhs => rw [list_of_range cols []]
    rw [selectAll_map, hlen]
  have hnames : selectAll slices names = ps.map fun j => names[j]?.getD [] := by
    conv_lhs => rw [list_of_range names []]
    rw [selectAll_map]
  have hin : ∀ j (h : j < names.length), names[j] ∉ selectAll slices names ↔ j ∉ ps := by
    intro j h
    rw [hnames, not_iff_not, List.mem_map]
    constructor
    · rintro ⟨p, hp, he⟩
      have hp' := hlt p hp
      rw [List.getElem?_eq_getElem hp', Option.getD_some] at he
      rwa [← (List.Nodup.getElem_inj_iff hnd).mp he]
    · intro hj
      exact ⟨j, hj, by simp [h]⟩
  have hvec : ∀ k : Fin (selectAll slices cols).length, ∃ j : Fin cols.length, j.1 ∈ ps ∧
      columnVectors n (selectAll slices cols) k = columnVectors n cols j := by
    rintro ⟨k, hk'⟩
    have hk : k < ps.length := by have := hk'; rw [hcols] at this; simpa using this
    have hj := hlt _ (List.getElem_mem hk)
    refine ⟨⟨ps[k], by omega⟩, List.getElem_mem hk, ?_⟩
    funext i
    have : (selectAll slices cols)[k]? = some (cols[ps[k]]'(by omega)) := by
      rw [hcols, List.getElem?_map, List.getElem?_eq_getElem hk, Option.map_some, List.getElem?_eq_getElem (by omega), Option.getD_some]
    have h2 := (List.getElem?_eq_some_iff.mp this).2
    simp only [columnVectors, Fin.getElem_fin, h2]
  have hback : ∀ j : Fin cols.length, j.1 ∈ ps → columnVectors n cols j ∈ Submodule.span K (Set.range (columnVectors n (selectAll slices cols))) := by
    intro j hj
    obtain ⟨k, hk, he⟩ := List.getElem_of_mem hj
    have hk' : k < (selectAll slices cols).length := by rw [hcols]; simpa using hk
    refine Submodule.subset_span ⟨⟨k, hk'⟩, ?_⟩
    funext i
    have : (selectAll slices cols)[k]? = some cols[j] := by
      rw [hcols, List.getElem?_map, List.getElem?_eq_getElem hk, Option.map_some, he]
      simp
    have h2 := (List.getElem?_eq_some_iff.mp this).2
    simp only [columnVectors, Fin.getElem_fin, h2]
  constructor
  · intro hw
    have key : ∃ b : Nat → K, (∀ j, j ∉ ps → b j = 0) ∧ w = weighted n cols b := by
      induction hw using Submodule.span_induction with
      | mem w hw =>
        obtain ⟨k, rfl⟩ := hw
        obtain ⟨j, hj, he⟩ := hvec k
        refine ⟨fun i => if i = j.1 then 1 else 0, fun i hi => if_neg (by rintro rfl; exact hi hj), ?_⟩
        rw [he]
        funext i
        simp [weighted, Fin.val_inj]
      | zero => exact ⟨fun _ => 0, fun _ _ => rfl, by funext i; simp [weighted]⟩
      | add u v _ _ hu hv =>
        obtain ⟨b, hb, rfl⟩ := hu
        obtain ⟨b', hb', rfl⟩ := hv
        refine ⟨fun j => b j + b' j, fun j hj => by simp [hb j hj, hb' j hj], ?_⟩
        funext i
        simp [weighted, add_mul, Finset.sum_add_distrib]
      | smul a u _ hu =>
        obtain ⟨b, hb, rfl⟩ := hu
        refine ⟨fun j => a * b j, fun j hj => by simp [hb j hj], ?_⟩
        funext i
        simp [weighted, Finset.mul_sum, mul_assoc]
    obtain ⟨b, hb, rfl⟩ := key
    refine ⟨(List.range cols.length).map b, by simp, (hc _ (by simp [hlen])).mpr ?_, ?_⟩
    · intro j hj hn
      rw [List.getElem?_map, List.getElem?_range (by omega), Option.map_some, hb j ((hin j hj).mp hn)]
    · funext i
      unfold combination weighted
      refine Finset.sum_congr rfl fun j _ => ?_
      simp
  · rintro ⟨x, hx, hs, rfl⟩
    have hs := (hc x (hx.trans hlen)).mp hs
    have : combination n cols x = ∑ j : Fin cols.length, (x[j.1]?.getD 0) • columnVectors n cols j := by
      funext i
      simp [combination, weighted, Finset.sum_apply]
    rw [this]
    refine Submodule.sum_mem _ fun j _ => ?_
    by_cases hj : j.1 ∈ ps
    · exact Submodule.smul_mem _ _ (hback j hj)
    · have hj' : j.1 < names.length := hlen ▸ j.2
      rw [hs j.1 hj' ((hin j.1 hj').mpr hj)]
      simp

/-- Least squares under the constraint is least squares with the columns of the smaller design. -/
theorem constrained_fit {names : List Name} {cols : List (List K)} (hlen : cols.length = names.length) (hnd : names.Nodup)
    {slices : List Slice} {c : LinCon K} (hc : ∀ x, x.length = names.length → (Sat c x ↔
      ∀ j (h : j < names.length), names[j] ∉ selectAll slices names → x[j]? = some 0)) {n : Nat} {y v : Fin n → K} :
    FittedUnder n cols c y v ↔ Fitted n (selectAll slices cols) y v := by
  have hspan := fun w => constrained_span hlen hnd hc (n := n) (w := w)
  unfold FittedUnder Fitted
  rw [hspan v]
  refine and_congr_right fun _ => ?_
  constructor
  · intro h b
    obtain ⟨x, h1, h2, h3⟩ := (hspan fun i => ∑ j, b j * columnVectors n (selectAll slices cols) j i).mp (by
      have : (fun i => ∑ j, b j * columnVectors n (selectAll slices cols) j i) =
          ∑ j, b j • columnVectors n (selectAll slices cols) j := by
        funext i
        simp [Finset.sum_apply]
      rw [this]
      exact Submodule.sum_mem _ fun j _ => Submodule.smul_mem _ _ (Submodule.subset_span ⟨j, rfl⟩))
    have := h x h1 h2
    rw [← h3] at this
    exact this
  · intro h x h1 h2
    obtain ⟨b, hb⟩ := (Submodule.mem_span_range_iff_exists_fun K).mp ((hspan _).mpr ⟨x, h1, h2, rfl⟩)
    have := h b
    have e : combination n cols x = fun i => ∑ j, b j * columnVectors n (selectAll slices cols) j i := by
      rw [← hb]
      funext i
      simp [Finset.sum_apply]
    rw [e]
    exact this

/-- The names of the columns of a design are distinct. -/
theorem design_names_nodup {d : DesignInfo F D K} {c : Coding F D K} (hd : IsDesign d c) : d.columnNames.Nodup := by
  obtain ⟨name, names, hd⟩ := hd
  have hg := make_good.mp hd
  rw [DesignInfo.columnNames, hg.indexes, List.map_fst_zip (by simp)]
  exact hg.nodup

/-- What the demand that the columns outside the smaller design vanish means. -/
theorem vanishing_meaning {names smaller : List Name} (hnd : names.Nodup) {num : Name → K} {c : LinCon K}
    (hc : linearConstraint names num (.mapping ((vanishing names smaller).map fun p => (.name p.1, p.2))) = .ok c)
    (x : List K) (hx : x.length = names.length) :
    Sat c x ↔ ∀ j (h : j < names.length), names[j] ∉ smaller → x[j]? = some 0 := by
  rw [(mapping_meaning hc).2 x hx]
  constructor
  · intro h j hj hn
    have := h (.name names[j], 0) (by simp [vanishing, hn])
    simp only [keyValue] at this
    rwa [zip_find hx (List.getElem_mem hj), hnd.idxOf_getElem j hj] at this
  · intro h p hp
    simp only [vanishing, List.map_map, List.mem_map, List.mem_filter, decide_eq_true_eq] at hp
    obtain ⟨n, ⟨hn, hs⟩, rfl⟩ := hp
    obtain ⟨j, hj, rfl⟩ := List.getElem_of_mem hn
    simp only [Function.comp, keyValue]
    rw [zip_find hx (List.getElem_mem hj), hnd.idxOf_getElem j hj]
    exact h j hj hs

/-- The dictionary with the added columns gives a constraint, and so do the equations. -/
theorem vanishing_ways {names smaller : List Name} (hnd : names.Nodup) (num : Name → K)
    (hne : ∃ n ∈ names, n ∉ smaller) :
    linearConstraint names num (.mapping ((vanishing names smaller).map fun p => (.name p.1, p.2))) =
      .ok (columnsEqual names (vanishing names smaller)) ∧
    (Mentionable names → num ['0'] = 0 →
      linearConstraint names num (.string (equationsText ((vanishing names smaller : List (Name × K)).map fun p => (p.1, ['0'])))) =
        .ok (columnsEqual names (vanishing names smaller))) := by
  have hx : ∀ p ∈ (vanishing names smaller : List (Name × K)), p.1 ∈ names ∧ p.2 = 0 := by
    intro p hp
    simp only [vanishing, List.mem_map, List.mem_filter] at hp
    obtain ⟨n, ⟨hn, _⟩, rfl⟩ := hp
    exact ⟨hn, rfl⟩
  have hxs : (vanishing names smaller : List (Name × K)) ≠ [] := by
    obtain ⟨n, hn, hs⟩ := hne
    have : (n, (0 : K)) ∈ (vanishing names smaller : List (Name × K)) := by simp [vanishing, hn, hs]
    exact List.ne_nil_of_mem this
  have hd : ((vanishing names smaller : List (Name × K)).map Prod.fst).Nodup := by
    have : (vanishing names smaller : List (Name × K)).map Prod.fst = names.filter (· ∉ smaller) := by
      simp [vanishing, Function.comp_def]
    rw [this]
    exact hnd.filter _
  constructor
  · rw [linearConstraint, mapping_rows hnd (xs := vanishing names smaller) (by
      rw [List.forall₂_map_left_iff]
      exact List.forall₂_same.mpr fun p _ => ⟨.name, rfl⟩) (fun p hp => (hx p hp).1) hd [] (by simp)]
    show linearConstraint names num
      (.tuple (.mat names.length ((vanishing names smaller).map fun x => selector names x.1))
        (some (.vec ((vanishing names smaller).map Prod.snd)))) = _
    refine (tuple_meaning names num _ _ _ ?_ _).mpr ⟨⟨rfl, by simpa using hxs, by simp⟩, rfl⟩
    intro r hr
    obtain ⟨x, -, rfl⟩ := List.mem_map.mp hr
    exact selector_length _ _
  · intro hm h0
    refine (constraint_ways hnd hm (num := num) (xs := vanishing names smaller) ?_ (by simpa using hxs) hd).1
    rw [List.forall₂_map_left_iff]
    refine List.forall₂_same.mpr fun p hp => ⟨(hx p hp).1, rfl, ?_⟩
    rw [(hx p hp).2, ← h0]
    exact .plain (.plain (.int ⟨by simp, by simp⟩))

section Text

open Patsy.Program Patsy.Tokens Patsy.EvalFactor

variable {V A S : Type}

/-- The core of C85: a design some of whose columns make up a smaller one. -/
theorem design_hypothesis {d' : DesignInfo F D K} {c' : Coding F D K} (hd : IsDesign d' c') {cols : List (List K)}
    (hwidth : cols.length = d'.columnNames.length) {slices : List Slice} {names smaller : List Name}
    (hnames : d'.columnNames.map String.toList = names) (hsel : smaller = selectAll slices names)
    (hne : ∃ n ∈ names, n ∉ smaller) (num : Name → K) :
    ∃ c, d'.linearConstraint num (.mapping ((vanishing names smaller).map fun p => (.name p.1, p.2))) = .ok c ∧
      (Mentionable names → num ['0'] = 0 → d'.linearConstraint num
        (.string (equationsText ((vanishing names smaller : List (Name × K)).map fun p => (p.1, ['0'])))) = .ok c) ∧
      ∀ n y v, FittedUnder n cols c y v ↔ Fitted n (selectAll slices cols) y v := by
  have hnd : names.Nodup := hnames ▸ (design_names_nodup hd).map fun a b hab => String.toList_injective hab
  have hlen : cols.length = names.length := by
    rw [← hnames, List.length_map]
    exact hwidth
  obtain ⟨w1, w2⟩ := vanishing_ways hnd num hne
  refine ⟨columnsEqual names (vanishing names smaller), ?_, ?_,
    fun n y v => constrained_fit hlen hnd (fun x hx => hsel ▸ vanishing_meaning hnd w1 x hx)⟩
  · rw [DesignInfo.linearConstraint, hnames]
    exact w1
  · rw [DesignInfo.linearConstraint, hnames]
    exact w2

/-- What C85 says about the designs and matrices `d`, `m` of the smaller formula and `d'`, `m'` of the larger one. -/
def HypothesisNested (d : DesignInfo F D K) (m : Mat K) (d' : DesignInfo F D K) (m' : Mat K) (num : Name → K) : Prop :=
  ∀ names smaller : List Name, d'.columnNames.map String.toList = names → d.columnNames.map String.toList = smaller →
    (∃ n ∈ names, n ∉ smaller) →
    ∃ c slices, d'.linearConstraint num (.mapping ((vanishing names smaller).map fun p => (.name p.1, p.2))) = .ok c ∧
      (Mentionable names → num ['0'] = 0 → d'.linearConstraint num
        (.string (equationsText ((vanishing names smaller : List (Name × K)).map fun p => (p.1, ['0'])))) = .ok c) ∧
      smaller = selectAll slices names ∧
      (∀ n y v, FittedUnder n m'.cols c y v ↔ Fitted n (selectAll slices m'.cols) y v) ∧
      (∃ ks, RowsOf ks m ⟨m'.nrows, selectAll slices m'.cols⟩) ∧
      (m'.nrows = m.nrows → ∀ n y v, FittedUnder n m'.cols c y v ↔ Fitted n m.cols y v)

theorem text_right_design {I : Interp D V A S K H} (hI : Sane I) {fin : RawEnd} {raw : List PyTok}
    (hfine : FineText I fin raw) {m : ModelDesc String} (hraw : I.fromFormula fin raw = .ok m) {isnan : K → Bool}
    {dataIndex : Option (List Build.Label)} {data : D} {rt : ReturnType} {t : Table String D K × Table String D K}
    (h : highLevelDesign (I.setting [data]) isnan dataIndex data rt (.text (I.fromFormula fin raw)) = .ok t) :
    (∃ c, IsDesign t.2.info c) ∧ t.2.mat.cols.length = t.2.info.columnNames.length := by
  obtain ⟨_, ⟨n1, n2⟩, hcode⟩ := fromFormula_ok hfine hraw
  have hs : Sound data (.text (I.fromFormula fin raw) : FormulaLike String D K) := by
    intro m hm t ht
    rw [hraw] at hm
    cases hm
    rcases List.mem_append.mp ht with ht | ht
    · exact n1.nodup t ht
    · exact n2.nodup t ht
  have hd : HasDesigns (.text (I.fromFormula fin raw) : FormulaLike String D K) := trivial
  have hw := interp_world hI [data]
  obtain ⟨-, -, hwidth, -⟩ := built_rows hw hs hd h
  obtain ⟨-, -, -, -, cl, cr, hp, -⟩ := highLevel_built hw hs hd h
  exact ⟨⟨cr, hp.right⟩, hwidth⟩

/-- **C85**.  Two formulas given as text, where the second one has further terms; both are used with the same data.
The demand, of the larger design, that the coefficients of all columns that the smaller design does not have are 0 can be made
with a dictionary or as a text (`names` are the names of the larger design and `smaller` those of the smaller one), and
least squares with the larger matrix under this constraint has the same fitted values as least squares with the columns of the
smaller design: with the smaller matrix itself if the further terms do not lose rows. -/
theorem text_hypothesis {I : Interp D V A S K H} (hI : Sane I) {fin fin' : RawEnd} {raw raw' : List PyTok}
    (hfine : FineText I fin' raw') {l ts new : List (Term String)} (hraw : I.fromFormula fin raw = .ok ⟨l, ts⟩)
    (hraw' : I.fromFormula fin' raw' = .ok ⟨l, ts ++ new⟩) {isnan : K → Bool}
    {dataIndex : Option (List Build.Label)} {data : D} {rt : ReturnType} {t t' : Table String D K × Table String D K}
    (h : I.dmatrices isnan dataIndex data rt fin raw = .ok t) (h' : I.dmatrices isnan dataIndex data rt fin' raw' = .ok t')
    (hlate : Later (numericalIn t'.2.info) ts new) (num : Name → K) :
    HypothesisNested t.2.info t.2.mat t'.2.info t'.2.mat num := by
  obtain ⟨c1, slices, ks, a1, a2, a3, a4, a5, a6, a7, a8⟩ := text_nested hI hfine hraw hraw' h h' hlate
  simp only [Interp.dmatrices, Build.dmatrices, bind_ok] at h'
  obtain ⟨u', hu', h'⟩ := h'
  split at h'
  · cases h'
  cases h'
  obtain ⟨⟨c, hd⟩, hwidth⟩ := text_right_design hI hfine hraw' hu'
  intro names smaller hnames hsmaller hne
  have hsel : smaller = selectAll slices names := by
    rw [← hsmaller, a3, ← hnames, selectAll_map]
  obtain ⟨c, h1, h2, h3⟩ := design_hypothesis hd hwidth hnames hsel hne num
  exact ⟨c, slices, h1, h2, hsel, h3, ⟨ks, a6⟩, fun he n y v => by rw [h3, (a7 he).2]⟩

/-- **C85** for `dmatrix`, where the outcome comes from elsewhere. -/
theorem text_hypothesis_one {I : Interp D V A S K H} (hI : Sane I) {fin fin' : RawEnd} {raw raw' : List PyTok}
    (hfine : FineText I fin' raw') {ts new : List (Term String)} (hraw : I.fromFormula fin raw = .ok ⟨[], ts⟩)
    (hraw' : I.fromFormula fin' raw' = .ok ⟨[], ts ++ new⟩) {isnan : K → Bool}
    {dataIndex : Option (List Build.Label)} {data : D} {rt : ReturnType} {t t' : Table String D K}
    (h : I.dmatrix isnan dataIndex data rt fin raw = .ok t) (h' : I.dmatrix isnan dataIndex data rt fin' raw' = .ok t')
    (hlate : Later (numericalIn t'.info) ts new) (num : Name → K) :
    HypothesisNested t.info t.mat t'.info t'.mat num := by
  obtain ⟨c1, slices, ks, a1, a2, a3, a4, a5, a6⟩ := text_nested_one hI hfine hraw hraw' h h' hlate
  simp only [Interp.dmatrix, Build.dmatrix, bind_ok] at h'
  obtain ⟨u', hu', h'⟩ := h'
  split at h'
  · cases h'
  cases h'
  obtain ⟨⟨c, hd⟩, hwidth⟩ := text_right_design hI hfine hraw' hu'
  intro names smaller hnames hsmaller hne
  have hsel : smaller = selectAll slices names := by
    rw [← hsmaller, a3, ← hnames, selectAll_map]
  obtain ⟨c, h1, h2, h3⟩ := design_hypothesis hd hwidth hnames hsel hne num
  exact ⟨c, slices, h1, h2, hsel, h3, ⟨ks, a4⟩, fun he n y v => by rw [h3, a5 he]⟩

namespace HypothesisSample

open AloneSample

/-- The larger design. -/
def large := getOk _ nested_texts_ok.2

theorem large_names : large.2.info.columnNames.map String.toList = ["Intercept".toList, "x".toList, "center(x)".toList] := by decide +kernel

theorem small_names : (getOk _ nested_texts_ok.1).2.info.columnNames.map String.toList = ["Intercept".toList, "x".toList] := by decide +kernel

end HypothesisSample

open AloneSample HypothesisSample in
/-- Example for `text_hypothesis`: `x ~ x` and `x ~ x + center(x)`, with the demand `center(x) = 0`. -/
example (num : Name → ℚ) : ∃ c : LinCon ℚ, large.2.info.linearConstraint num (.mapping [(.name "center(x)".toList, 0)]) = .ok c ∧
    ∀ y v, FittedUnder 3 [[1, 1, 1], [1, 3, 5], [-26, -24, -22]] c y v ↔ Fitted 3 [[1, 1, 1], [1, 3, 5]] y v := by
  obtain ⟨c, _, h1, _, _, _, _, h2⟩ := text_hypothesis ReorderSample.real.toSane large_fine nested_texts.1 nested_texts.2
    (getOk_eq nested_texts_ok.1) (getOk_eq nested_texts_ok.2) (by unfold Later; decide +kernel) num _ _ large_names small_names
    ⟨"center(x)".toList, by decide, by decide⟩
  have e1 : large.2.mat.cols = [[1, 1, 1], [1, 3, 5], [-26, -24, -22]] := by decide +kernel
  have e2 : (getOk _ nested_texts_ok.1).2.mat.cols = [[1, 1, 1], [1, 3, 5]] := by decide +kernel
  have h3 := h2 (by decide +kernel) 3
  rw [e2] at h3
  exact ⟨c, h1, fun y v => by rw [← e1]; exact h3 y v⟩

namespace HypothesisSample

open AloneSample ProgramSample FitSample2

/-- The raw tokens of `x` and `x + center(x)`. -/
def oneSmall : List PyTok := [exPy .name "x" 2, exPy .newline "" 11, exPy .endmarker "" 12]

def oneLarge : List PyTok := [exPy .name "x" 2, exPy .op "+" 3, exPy .name "center" 4, exPy .op "(" 5,
  exPy .name "x" 6, exPy .op ")" 7, exPy .newline "" 11, exPy .endmarker "" 12]

theorem oneLarge_fine : FineText ReorderSample.interp .exhausted oneLarge :=
  ProgramSample.fine_body _ rfl rfl (body := oneLarge.take 6) rfl (by decide)
    (by unfold ProgramSample.AllExpressions; decide +kernel)

theorem one_texts : ReorderSample.interp.fromFormula .exhausted oneSmall = .ok ⟨[], shared⟩ ∧
    ReorderSample.interp.fromFormula .exhausted oneLarge = .ok ⟨[], shared ++ added⟩ :=
  ⟨eq_ok_of_okIs (by decide +kernel), eq_ok_of_okIs (by decide +kernel)⟩

theorem one_texts_ok : isOk (ReorderSample.interp.dmatrix FitSample.isnan none (colOf [1, 99, 3, 5]) .dataframe .exhausted oneSmall) = true ∧
    isOk (ReorderSample.interp.dmatrix FitSample.isnan none (colOf [1, 99, 3, 5]) .dataframe .exhausted oneLarge) = true := by
  decide +kernel

end HypothesisSample

open AloneSample HypothesisSample in
/-- Example for `text_hypothesis_one`: `x` and `x + center(x)`, with the demand `center(x) = 0`. -/
example (num : Name → ℚ) : ∃ c : LinCon ℚ,
    (getOk _ one_texts_ok.2).info.linearConstraint num (.mapping [(.name "center(x)".toList, 0)]) = .ok c ∧
    ∀ y v, FittedUnder 3 [[1, 1, 1], [1, 3, 5], [-26, -24, -22]] c y v ↔ Fitted 3 [[1, 1, 1], [1, 3, 5]] y v := by
  obtain ⟨c, _, h1, _, _, _, _, h2⟩ := text_hypothesis_one ReorderSample.real.toSane oneLarge_fine one_texts.1 one_texts.2
    (getOk_eq one_texts_ok.1) (getOk_eq one_texts_ok.2) (by unfold Later; decide +kernel) num
    ["Intercept".toList, "x".toList, "center(x)".toList] ["Intercept".toList, "x".toList] (by decide +kernel) (by decide +kernel)
    ⟨"center(x)".toList, by decide, by decide⟩
  have e1 : (getOk _ one_texts_ok.2).mat.cols = [[1, 1, 1], [1, 3, 5], [-26, -24, -22]] := by decide +kernel
  have e2 : (getOk _ one_texts_ok.1).mat.cols = [[1, 1, 1], [1, 3, 5]] := by decide +kernel
  have h3 := h2 (by decide +kernel) 3
  rw [e2] at h3
  exact ⟨c, h1, fun y v => by rw [← e1]; exact h3 y v⟩

end Text

end Patsy.Props
