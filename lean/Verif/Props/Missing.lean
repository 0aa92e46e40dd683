import Verif.Lemmas.BuildTop
import Verif.Spec.Sample

/-!
# Property C15: missing-value handling

`Spec/Build.lean` says what a complete row is and what the matrix of a list of rows is.
The designs are arbitrary designs accepted by `DesignInfo.__init__`; several of them (left-
and right-hand side) are built together.
-/

set_option linter.unusedSectionVars false

namespace Patsy.Props

open Patsy.Build Patsy.Spec Patsy.Desc

variable {F D K : Type} [DecidableEq F] [Mul K] [One K]

/-- **C15**, complete description.  `build_design_matrices` succeeds with the result `b`
exactly if the factors evaluate consistently, no value is missing in case of
`NA_action="raise"`, and `b` consists, for every design, of the matrix of the complete rows
and of the labels of the complete rows.  A row is complete if no factor of *any* of the
designs is missing in it; so all matrices and the index keep the same rows in the same
order. -/
theorem build_keeps_complete_rows {isnan : K → Bool} {na : NAAction} {frame : Bool}
    {dataIndex : Option (List Label)} {dis : List (DesignInfo F D K)} {data : D}
    {cs : List (Coding F D K)} (hne : dis ≠ []) (hdis : List.Forall₂ IsDesign dis cs)
    (hid : SameIdentity (factorsOf cs)) (hfit : IndexFits na.types (factorsOf cs) data) {b : Built K} :
    buildDesignMatrices isnan na frame dataIndex dis data = .ok b ↔
      ∃ V n idx, Evaluation na.types (factorsOf cs) dataIndex data V n idx ∧
        (na.onNA = .raise → completeRows na isnan (factorsOf cs) V n = List.range n) ∧
        AreMatrices cs V (completeRows na isnan (factorsOf cs) V n) b.mats ∧
        b.index = if frame then
          some ((completeRows na isnan (factorsOf cs) V n).filterMap fun r => idx[r]?) else none :=
  build_iff hne hdis hid hfit

/-- Example: the hypotheses hold for the sample design, and the rows with a missing value
are dropped from both matrices and from the index. -/
example : [Sample.leftDesign, Sample.rightDesign] ≠ [] ∧
    List.Forall₂ IsDesign [Sample.leftDesign, Sample.rightDesign] [Sample.left, Sample.right] ∧
    SameIdentity (factorsOf [Sample.left, Sample.right]) ∧
    IndexFits ({} : NAAction).types (factorsOf [Sample.left, Sample.right]) Sample.data ∧
    buildDesignMatrices Sample.isnan {} true none [Sample.leftDesign, Sample.rightDesign]
      Sample.data = .ok
        ⟨[⟨3, [[10, 30, 60]]⟩,
          ⟨3, [[1, 1, 1], [0, 0, 1], [0, 1, 0], [2, 0, 0], [0, 0, 6], [0, 3, 0]]⟩],
         some [.row 0, .row 2, .row 5]⟩ :=
  ⟨by simp, Sample.designs, Sample.sameIdentity, Sample.indexFits _ _,
   eq_ok_of_okIs (by decide +kernel)⟩

/-- Row `r` is among the rows kept exactly if no factor of any design has a missing value
in it, and the rows kept are in the original order. -/
theorem kept_iff (na : NAAction) (isnan : K → Bool) (fis : List (FactorInfo F D K))
    (V : FactorInfo F D K → Value K) (n : Nat) :
    (∀ r, r ∈ completeRows na isnan fis V n ↔
      r < n ∧ ∀ fi ∈ fis, ∀ c, cellOf (V fi) r = some c → cellMissing na isnan c = false) ∧
    (completeRows na isnan fis V n).Pairwise (· < ·) := by
  constructor
  · intro r
    simp only [completeRows, List.mem_filter, List.mem_range, complete, List.all_eq_true,
      Option.all_eq_true, Bool.not_eq_true']
  · exact List.Pairwise.filter _ List.pairwise_lt_range

theorem all_complete_iff {na : NAAction} {isnan : K → Bool} {fis : List (FactorInfo F D K)}
    {V : FactorInfo F D K → Value K} {n : Nat} (hrows : ∀ fi ∈ fis, (V fi).nrows = n) :
    completeRows na isnan fis V n = List.range n ↔
      ∀ fi ∈ fis, ∀ r c, cellOf (V fi) r = some c → cellMissing na isnan c = false := by
  unfold completeRows
  rw [range_filter_self]
  simp only [complete, List.all_eq_true, Option.all_eq_true, Bool.not_eq_true']
  constructor
  · intro h fi hf r c hc
    by_cases hr : r < n
    · exact h r hr fi hf c hc
    · rw [cellOf_none (by rw [hrows fi hf]; omega)] at hc
      simp at hc
  · intro h r _ fi hf c hc
    exact h fi hf r c hc

/-- **C15**, `raise`.  Building with `NA_action="raise"` succeeds exactly if building with
`"drop"` succeeds and no value is missing, and then the results are the same. -/
theorem raise_iff {isnan : K → Bool} {nan none : Bool} {frame : Bool}
    {dataIndex : Option (List Label)} {dis : List (DesignInfo F D K)} {data : D}
    {cs : List (Coding F D K)} (hne : dis ≠ []) (hdis : List.Forall₂ IsDesign dis cs)
    (hid : SameIdentity (factorsOf cs)) (hfit : IndexFits ⟨nan, none⟩ (factorsOf cs) data) {b : Built K} :
    buildDesignMatrices isnan ⟨.raise, nan, none⟩ frame dataIndex dis data = .ok b ↔
      buildDesignMatrices isnan ⟨.drop, nan, none⟩ frame dataIndex dis data = .ok b ∧
      ∀ fi ∈ factorsOf cs, ∀ v i, fi.eval ⟨nan, none⟩ data = .ok (v, i) → ∀ r c, cellOf v r = some c →
        cellMissing ⟨.drop, nan, none⟩ isnan c = false := by
  have hm : ∀ c : Cell K, cellMissing ⟨.raise, nan, none⟩ isnan c =
      cellMissing ⟨.drop, nan, none⟩ isnan c := by
    intro c; cases c <;> rfl
  have hc : ∀ (V : FactorInfo F D K → Value K) n,
      completeRows ⟨.raise, nan, none⟩ isnan (factorsOf cs) V n =
      completeRows ⟨.drop, nan, none⟩ isnan (factorsOf cs) V n := by
    intro V n
    simp only [completeRows]
    refine List.filter_congr fun r _ => ?_
    simp only [complete, hm]
  rw [build_iff (na := ⟨.raise, nan, none⟩) hne hdis hid hfit,
    build_iff (na := ⟨.drop, nan, none⟩) hne hdis hid hfit]
  simp only [hc]
  constructor
  · rintro ⟨V, n, idx, hev, h1, h2, h3⟩
    refine ⟨⟨V, n, idx, hev, by simp, h2, h3⟩, ?_⟩
    intro fi hf v i hi r c hrc
    obtain ⟨i', h4, _⟩ := hev.value fi hf
    rw [NAAction.types, hi] at h4
    simp only [Except.ok.injEq, Prod.mk.injEq] at h4
    exact (all_complete_iff hev.rows).mp (h1 trivial) fi hf r c (by rw [← h4.1]; exact hrc)
  · rintro ⟨⟨V, n, idx, hev, _, h2, h3⟩, h1⟩
    refine ⟨V, n, idx, hev, ?_, h2, h3⟩
    intro _
    rw [all_complete_iff hev.rows]
    intro fi hf r c hrc
    obtain ⟨i, h4, _⟩ := hev.value fi hf
    exact h1 fi hf _ i h4 r c hrc

/-- Example: with missing values `raise` fails, without them it gives the same as `drop`. -/
example : isOk (buildDesignMatrices Sample.isnan { onNA := .raise } true none
      [Sample.leftDesign, Sample.rightDesign] Sample.data) = false ∧
    isOk (buildDesignMatrices Sample.isnan { onNA := .raise } true none
      [Sample.leftDesign, Sample.rightDesign] Sample.dataComplete) = true := by
  decide +kernel

theorem evalLoop_onNA {isnan : K → Bool} {na na' : NAAction} (h : na.types = na'.types) (data : D)
    (fis : List (FactorInfo F D K)) (s : EvalState F D K) :
    evalLoop isnan na data fis s = evalLoop isnan na' data fis s := by
  have hf : ∀ fi : FactorInfo F D K, evalFactor isnan na fi data = evalFactor isnan na' fi data := by
    intro fi
    have h' : na.nan = na'.nan := congrArg NATypes.nan h
    simp only [evalFactor, NAAction.isNumericalNA, h, h']
  induction fis generalizing s with
  | nil => rfl
  | cons fi fis ih => simp only [evalLoop, hf, ih]

/-- **C15**, `raise`: the error for a missing value is a `PatsyError`. -/
theorem raise_error {isnan : K → Bool} {nan none : Bool} {frame : Bool}
    {dataIndex : Option (List Label)} {dis : List (DesignInfo F D K)} {data : D}
    {cs : List (Coding F D K)} (hdis : List.Forall₂ IsDesign dis cs)
    (hid : SameIdentity (factorsOf cs)) {b : Built K}
    (h : buildDesignMatrices isnan ⟨.drop, nan, none⟩ frame dataIndex dis data = .ok b)
    (hmiss : ∃ fi ∈ factorsOf cs, ∃ v i, fi.eval ⟨nan, none⟩ data = .ok (v, i) ∧ ∃ r c, cellOf v r = some c ∧
        cellMissing ⟨.drop, nan, none⟩ isnan c = true) :
    buildDesignMatrices isnan ⟨.raise, nan, none⟩ frame dataIndex dis data = .error .patsyError := by
  simp only [buildDesignMatrices, bind_ok] at h
  obtain ⟨cs', h1, s, h2, hrest⟩ := h
  clear hrest
  have hcs : factorsOf cs = cs'.flatMap fun c => c.1.factorInfos.map Prod.snd := by
    rw [mapM_ok] at h1
    clear hid hmiss h2
    induction hdis generalizing cs' with
    | nil => cases h1; rfl
    | cons hd _ ih =>
      cases h1 with
      | cons h3 h4 =>
        rw [(isDesign_valid hd).2] at h3
        simp only [Except.ok.injEq] at h3
        subst h3
        have := ih _ h4
        simp only [factorsOf, List.flatMap_cons] at this ⊢
        rw [this]
  rw [hcs] at hid hmiss
  obtain ⟨fi, hfi, v, i, hv, r, c, hc, hm⟩ := hmiss
  obtain ⟨he, hf, _⟩ := loop_facts hid h2
  have hve : evalValue (NAAction.types ⟨.drop, nan, none⟩) data fi = v := by
    simp [evalValue, NAAction.types, hv]
  have hany : ∀ ms : List (List Bool), List.any (s.entries.map (fun e => e.2.2) ++ ms)
      (fun m => m.any id) = true := by
    intro ms
    rw [List.any_append, Bool.or_eq_true]
    left
    rw [List.any_eq_true]
    refine ⟨(List.range v.nrows).map (missingAt ⟨.drop, nan, none⟩ isnan v), ?_, ?_⟩
    · rw [he, List.map_map]
      refine List.mem_map.mpr ⟨fi, (mem_newOnes hid).mpr hfi, ?_⟩
      simp [hve]
    · rw [List.any_eq_true]
      have hr : r < v.nrows := by
        by_contra hlt
        rw [cellOf_none (by omega)] at hc
        simp at hc
      refine ⟨true, List.mem_map.mpr ⟨r, by simpa using hr, ?_⟩, rfl⟩
      simp only [missingAt, hc]
      simpa using hm
  have hemp : ∀ vs : List (Value K), (s.entries.map (fun e => e.2.1) ++ vs).isEmpty = false := by
    intro vs
    have := hany []
    cases hs : s.entries with
    | nil => rw [hs] at this; simp at this
    | cons e l => simp
  have hna : ∀ (vs : List (Value K)) ms, vs.length = ms.length →
      NAAction.handleNA ⟨.raise, nan, none⟩ (s.entries.map (fun e => e.2.1) ++ vs)
        (s.entries.map (fun e => e.2.2) ++ ms) = .error .patsyError := by
    intro vs ms hl
    simp only [NAAction.handleNA, handleRaise, hemp, hany]
    simp [hl]
  simp only [buildDesignMatrices, h1, bind, Except.bind]
  rw [evalLoop_onNA (na := ⟨.raise, nan, none⟩) (na' := ⟨.drop, nan, none⟩) rfl, h2]
  simp only
  rw [hna]
  split <;> simp

theorem evaluation_unique {ty : NATypes} {fis : List (FactorInfo F D K)} {dataIndex : Option (List Label)}
    {data : D} {V V' : FactorInfo F D K → Value K} {n n' : Nat} {idx idx' : List Label}
    (h : Evaluation ty fis dataIndex data V n idx) (h' : Evaluation ty fis dataIndex data V' n' idx') :
    (∀ fi ∈ fis, V fi = V' fi) ∧ n = n' ∧ idx = idx' := by
  have hV : ∀ fi ∈ fis, V fi = V' fi := by
    intro fi hf
    obtain ⟨i, h1, _⟩ := h.value fi hf
    obtain ⟨i', h2, _⟩ := h'.value fi hf
    rw [h1] at h2
    simp only [Except.ok.injEq, Prod.mk.injEq] at h2
    exact h2.1
  have hn : n = n' := by
    cases fis with
    | nil =>
      cases hd : dataIndex with
      | none => exact absurd hd (h.known rfl)
      | some l =>
        rw [← h.length, ← h'.length, ← h.frame l hd, ← h'.frame l hd]
    | cons fi fis =>
      rw [← h.rows fi (List.mem_cons_self ..), ← h'.rows fi (List.mem_cons_self ..),
        hV fi (List.mem_cons_self ..)]
  refine ⟨hV, hn, ?_⟩
  cases hd : dataIndex with
  | some l => rw [← h.frame l hd, ← h'.frame l hd]
  | none =>
    by_cases hex : ∃ fi ∈ fis, ∃ v l, fi.eval ty data = .ok (v, some l)
    · obtain ⟨fi, hf, v, l, hl⟩ := hex
      obtain ⟨i, h1, h2⟩ := h.value fi hf
      obtain ⟨i', h3, h4⟩ := h'.value fi hf
      rw [hl] at h1 h3
      simp only [Except.ok.injEq, Prod.mk.injEq] at h1 h3
      rw [← h2 l h1.2.symm, ← h4 l h3.2.symm]
    · have hno : ∀ fi ∈ fis, ∀ v l, fi.eval ty data ≠ .ok (v, some l) := by
        intro fi hf v l hl
        exact hex ⟨fi, hf, v, l, hl⟩
      rw [h.default hd hno, h'.default hd hno, hn]

theorem completeRows_congr {na : NAAction} {isnan : K → Bool} {fis : List (FactorInfo F D K)}
    {V V' : FactorInfo F D K → Value K} {n : Nat} (h : ∀ fi ∈ fis, V fi = V' fi) :
    completeRows na isnan fis V n = completeRows na isnan fis V' n := by
  unfold completeRows
  apply List.filter_congr
  intro r _
  unfold complete
  rw [Bool.eq_iff_iff]
  simp only [List.all_eq_true]
  constructor
  · intro h1 fi hf; rw [← h fi hf]; exact h1 fi hf
  · intro h1 fi hf; rw [h fi hf]; exact h1 fi hf

theorem areMatrices_congr {cs : List (Coding F D K)} {V V' : FactorInfo F D K → Value K}
    {kept : List Nat} {mats : List (Mat K)} (h : ∀ fi ∈ factorsOf cs, V fi = V' fi) :
    AreMatrices cs V kept mats ↔ AreMatrices cs V' kept mats := by
  apply forall₂_congr_mem
  intro c hc m
  have : kept.map (designCells c V) = kept.map (designCells c V') := by
    apply List.map_congr_left
    intro r _
    funext f
    simp only [designCells]
    cases hd : dictGet c.factorInfos f with
    | none => rfl
    | some fi =>
      simp only [Option.bind_some]
      rw [h fi (List.mem_flatMap.mpr ⟨c, hc, List.mem_map.mpr ⟨_, dictGet_mem hd, rfl⟩⟩)]
  rw [this]

/-- Two lists of matrices of the same designs on rows with the same values are equal. -/
theorem areMatrices_unique {cs : List (Coding F D K)} {V V' : FactorInfo F D K → Value K}
    {kept kept' : List Nat} {mats mats' : List (Mat K)} (hl : kept.length = kept'.length)
    (hcells : ∀ fi ∈ factorsOf cs, ∀ q : Nat, kept[q]?.bind (cellOf (V fi)) = kept'[q]?.bind (cellOf (V' fi))) :
    AreMatrices cs V kept mats → AreMatrices cs V' kept' mats' → mats = mats' := by
  intro h h'
  have hrow : ∀ c ∈ cs, kept.map (designCells c V) = kept'.map (designCells c V') := by
    intro c hc
    apply List.ext_getElem (by simpa using hl)
    intro q h1 h2
    simp only [List.getElem_map]
    funext f
    simp only [designCells]
    cases hd : dictGet c.factorInfos f with
    | none => rfl
    | some fi =>
      have := hcells fi (List.mem_flatMap.mpr ⟨c, hc, List.mem_map.mpr ⟨_, dictGet_mem hd, rfl⟩⟩) q
      simp only [List.length_map] at h1 h2
      rw [List.getElem?_eq_getElem h1, List.getElem?_eq_getElem h2] at this
      simpa using this
  have key : ∀ l : List (Coding F D K), (∀ c ∈ l, c ∈ cs) → ∀ m m',
      AreMatrices l V kept m → AreMatrices l V' kept' m' → m = m' := by
    intro l
    induction l with
    | nil => intro _ m m' h1 h2; cases h1; cases h2; rfl
    | cons c l ih =>
      intro hsub m m' h1 h2
      cases h1 with
      | @cons _ x _ xs hx hxs =>
        cases h2 with
        | @cons _ y _ ys hy hys =>
          rw [ih (fun c hc => hsub c (List.mem_cons_of_mem _ hc)) xs ys hxs hys]
          congr 1
          obtain ⟨nx, colsx⟩ := x
          obtain ⟨ny, colsy⟩ := y
          obtain ⟨h3, h4⟩ := hx
          obtain ⟨h5, h6⟩ := hy
          simp only at h3 h4 h5 h6
          rw [← hrow c (hsub c (List.mem_cons_self ..))] at h6
          rw [Mat.mk.injEq]
          refine ⟨by omega, ?_⟩
          unfold IsMatrix at h4 h6
          clear h3 h5 hxs hys ih
          generalize columnsOf c = cc at h4 h6
          induction h4 generalizing colsy with
          | nil => cases h6; rfl
          | cons h7 _ ih =>
            cases h6 with
            | cons h8 h9 =>
              rw [ih _ h9]
              rw [h7] at h8
              simp only [Option.some.injEq] at h8
              rw [h8]
  exact key cs (fun c hc => hc) _ _ h h'

/-- Example: the sample data satisfies the hypotheses of `raise_error`. -/
example : ∃ fi ∈ factorsOf [Sample.left, Sample.right], ∃ v i, fi.eval ⟨true, true⟩ Sample.data = .ok (v, i) ∧
    ∃ r c, cellOf v r = some c ∧ cellMissing {} Sample.isnan c = true :=
  ⟨Sample.fiY, by simp [factorsOf, Sample.left], _, _, rfl, 4, .num [-999], rfl, rfl⟩

/-- **C15**, dropping again changes nothing: on data on which every factor evaluates to the
rows kept by the first call (labelled, for data frames, by the index of the first result),
building with any `NA_action` that regards the same values as missing gives the same
result. -/
theorem drop_again {isnan : K → Bool} {na na' : NAAction} {frame : Bool}
    {dataIndex : Option (List Label)} {dis : List (DesignInfo F D K)} {data data' : D}
    {cs : List (Coding F D K)} (hne : dis ≠ []) (hdis : List.Forall₂ IsDesign dis cs)
    (hid : SameIdentity (factorsOf cs)) (hfit : IndexFits na.types (factorsOf cs) data) {b : Built K}
    (hnan : na.nan = na'.nan) (hframe : factorsOf cs = [] → frame = true)
    (h : buildDesignMatrices isnan na frame dataIndex dis data = .ok b)
    {V : FactorInfo F D K → Value K} {n : Nat} {idx : List Label}
    (hev : Evaluation na.types (factorsOf cs) dataIndex data V n idx)
    (hdata : ∀ fi ∈ factorsOf cs, ∃ v', fi.eval na'.types data' = .ok (v', none) ∧ kindOK fi.type v' ∧
      v'.nrows = (completeRows na isnan (factorsOf cs) V n).length ∧
      ∀ q : Nat, cellOf v' q = (completeRows na isnan (factorsOf cs) V n)[q]?.bind (cellOf (V fi))) :
    buildDesignMatrices isnan na' frame b.index dis data' = .ok b := by
  obtain ⟨V0, n0, idx0, hev0, _, hmats, hidx⟩ := (build_iff hne hdis hid hfit).mp h
  obtain ⟨hVV, rfl, rfl⟩ := evaluation_unique hev hev0
  rw [← completeRows_congr hVV] at hmats hidx
  rw [← areMatrices_congr hVV] at hmats
  generalize hk : completeRows na isnan (factorsOf cs) V n = kept at *
  have hV' : ∀ fi ∈ factorsOf cs, fi.eval na'.types data' = .ok (evalValue na'.types data' fi, none) ∧
      kindOK fi.type (evalValue na'.types data' fi) ∧ (evalValue na'.types data' fi).nrows = kept.length ∧
      ∀ q : Nat, cellOf (evalValue na'.types data' fi) q = kept[q]?.bind (cellOf (V fi)) := by
    intro fi hf
    obtain ⟨v', h2, h3⟩ := hdata fi hf
    have : evalValue na'.types data' fi = v' := by simp [evalValue, h2]
    rw [this]
    exact ⟨h2, h3⟩
  have hlt : ∀ r ∈ kept, r < idx.length := by
    intro r hr
    rw [← hk] at hr
    rw [hev.length]
    exact (((kept_iff na isnan (factorsOf cs) V n).1 r).mp hr).1
  have hcell : ∀ c : Cell K, cellMissing na' isnan c = cellMissing na isnan c := by
    intro c; cases c <;> simp [cellMissing, hnan]
  have hall : completeRows na' isnan (factorsOf cs) (evalValue na'.types data') kept.length =
      List.range kept.length := by
    rw [all_complete_iff fun fi hf => (hV' fi hf).2.2.1]
    intro fi hf q c hc
    rw [(hV' fi hf).2.2.2] at hc
    simp only [Option.bind_eq_some_iff] at hc
    obtain ⟨r, h1, h2⟩ := hc
    rw [hcell]
    have hr := List.mem_of_getElem? h1
    rw [← hk] at hr
    exact (((kept_iff na isnan (factorsOf cs) V n).1 r).mp hr).2 fi hf c h2
  rw [build_iff hne hdis hid (by
    intro fi hf v l h1
    rw [(hV' fi hf).1] at h1
    simp at h1)]
  refine ⟨evalValue na'.types data', kept.length,
    if frame then kept.filterMap (fun r => idx[r]?) else (List.range kept.length).map Label.row,
    ?_, fun _ => hall, ?_, ?_⟩
  · refine ⟨?_, fun fi hf => (hV' fi hf).2.1, fun fi hf => (hV' fi hf).2.2.1, ?_, ?_, ?_, ?_⟩
    · intro fi hf
      exact ⟨_, (hV' fi hf).1, by simp⟩
    · intro l hl
      rw [hidx] at hl
      cases frame <;> simp at hl ⊢
      exact hl.symm
    · cases frame with
      | false => simp
      | true => simp only [if_true]; exact length_filterMap_getElem? hlt
    · intro hl _
      rw [hidx] at hl
      cases frame <;> simp at hl ⊢
    · intro hf
      rw [hidx, hframe hf]; simp
  · rw [hall]
    have hex : AreMatrices cs (evalValue na'.types data') (List.range kept.length) b.mats := by
      refine (forall₂_congr_mem ?_).mp hmats
      intro c hc m
      have hrow : kept.map (designCells c V) =
          (List.range kept.length).map (designCells c (evalValue na'.types data')) := by
        apply List.ext_getElem (by simp)
        intro q h1 h2
        simp only [List.getElem_map, List.getElem_range]
        funext f
        simp only [designCells]
        cases hd : dictGet c.factorInfos f with
        | none => rfl
        | some fi =>
          simp only [Option.bind_some]
          rw [(hV' fi (List.mem_flatMap.mpr ⟨c, hc, List.mem_map.mpr ⟨_, dictGet_mem hd, rfl⟩⟩)).2.2.2]
          simp only [List.length_map] at h1
          rw [List.getElem?_eq_getElem h1]
          rfl
      rw [hrow]
      simp
    exact hex
  · rw [hall, hidx]
    cases frame with
    | false => simp
    | true =>
      simp only [if_true, Option.some.injEq]
      have hl := length_filterMap_getElem? hlt
      apply List.ext_getElem?
      intro q
      rw [filterMap_getElem? (l := kept.filterMap fun r => idx[r]?) (by simp [hl])]
      by_cases hq : q < kept.length
      · simp [List.getElem?_range hq]
      · rw [List.getElem?_eq_none (by omega), List.getElem?_eq_none (by simp; omega)]
        rfl

/-- Example: `dataComplete` consists of the rows that `drop` keeps, so the hypotheses of
`drop_again` are satisfied. -/
example : ∃ V, Evaluation ⟨true, true⟩ (factorsOf [Sample.left, Sample.right]) none Sample.data V 6
      ((List.range 6).map Label.row) ∧
    ∀ fi ∈ factorsOf [Sample.left, Sample.right], ∃ v', fi.eval ⟨true, true⟩ Sample.dataComplete = .ok (v', none) ∧
      kindOK fi.type v' ∧
      v'.nrows = (completeRows {} Sample.isnan (factorsOf [Sample.left, Sample.right]) V 6).length ∧
      ∀ q : Nat, cellOf v' q =
        (completeRows {} Sample.isnan (factorsOf [Sample.left, Sample.right]) V 6)[q]?.bind
          (cellOf (V fi)) := by
  refine ⟨evalValue ⟨true, true⟩ Sample.data, ?_, ?_⟩
  · refine ⟨?_, ?_, ?_, by simp, by simp, by simp, by simp [factorsOf, Sample.left]⟩
    · intro fi hf
      rcases Sample.mem_factors hf with rfl | rfl | rfl <;> exact ⟨none, rfl, by simp⟩
    · intro fi hf
      rcases Sample.mem_factors hf with rfl | rfl | rfl
      · exact rfl
      · trivial
      · exact rfl
    · intro fi hf
      rcases Sample.mem_factors hf with rfl | rfl | rfl <;> rfl
  · have hk : completeRows {} Sample.isnan (factorsOf [Sample.left, Sample.right])
        (evalValue ⟨true, true⟩ Sample.data) 6 = [0, 2, 5] := by decide +kernel
    rw [hk]
    intro fi hf
    rcases Sample.mem_factors hf with rfl | rfl | rfl
    all_goals
      refine ⟨_, rfl, ?_, rfl, ?_⟩
      · first | exact rfl | trivial
      · intro q
        match q with
        | 0 | 1 | 2 => rfl
        | q + 3 => simp [cellOf, Sample.fiY, Sample.fiX, Sample.fiA, Sample.dataComplete]

end Patsy.Props
