import Verif.Lemmas.Outcome

/-!
# `build_design_matrices` fails only because of the data
-/

namespace Patsy.Outcome

open Patsy.Spec Patsy.Build Patsy.Desc Patsy.Cat Patsy.Props Patsy.Redundancy

variable {F D K : Type} [DecidableEq F]

/-- The value of a factor of the given type: rows of the right length, codes of existing categories or -1. -/
def ValueFits : FType → Value K → Prop
  | .numerical n, .num m rows => m = n ∧ ∀ r ∈ rows, r.length = n
  | .categorical k, .cat codes => ∀ c ∈ codes, -1 ≤ c ∧ c < k
  | _, _ => False

/-- The contrast matrices of a coding are rectangular. -/
def RealCoding (c : Coding F D K) : Prop :=
  ∀ p ∈ c.termCodings, ∀ st ∈ p.2, ∀ q ∈ st.contrasts, RealMatrix q.2

theorem prodFrom_some [Mul K] {fis : List (F × FactorInfo F D K)} {cms : List (F × ContrastMatrix K)}
    {cells : F → Option (Cell K)} :
    ∀ {fs : List F} {js : List Nat} {x : K}, List.Forall₂ (fun f j => ∃ y, entryAt fis cms cells f j = some y) fs js →
      ∃ y, prodFrom fis cms cells x fs js = some y := by
  intro fs js x h
  induction h generalizing x with
  | nil => exact ⟨x, rfl⟩
  | cons h1 _ ih =>
    obtain ⟨y, hy⟩ := h1
    simp only [prodFrom, hy, Option.bind_some]
    exact ih

theorem choice_forall₂ {fs : List F} {w : F → Nat} {js : List Nat} (h : Choice (fs.map w) js) :
    List.Forall₂ (fun f j => j < w f) fs js := by
  induction fs generalizing js with
  | nil =>
    cases js with
    | nil => exact .nil
    | cons _ _ => exact h.elim
  | cons f fs ih =>
    cases js with
    | nil => exact h.elim
    | cons j js => exact .cons h.1 (ih h.2)

/-- In a complete row every column has an entry. -/
theorem entry_exists [Mul K] [One K] {c : Coding F D K} (hc : ValidCoding c) (hr : RealCoding c)
    {V : FactorInfo F D K → Value K} {r : Nat}
    (hV : ∀ p ∈ c.factorInfos, ValueFits p.2.type (V p.2) ∧ r < (V p.2).nrows)
    {na : NAAction} {isnan : K → Bool}
    (hcomp : ∀ p ∈ c.factorInfos, ∀ x, cellOf (V p.2) r = some x → cellMissing na isnan x = false)
    {col : SubtermInfo F K × List Nat} (hcol : col ∈ columnsOf c) :
    ∃ y, columnEntry c (designCells c V r) col = some y := by
  simp only [columnsOf, List.mem_flatMap, List.mem_map, List.mem_range] at hcol
  obtain ⟨p, hp, st, hst, i, hi, rfl⟩ := hcol
  obtain ⟨hgood, hprod, _⟩ := checkSubterm_good (hc.subterms p hp st hst)
  have hch := choice_forall₂ (choice_digits (by rw [hprod]; exact hi) : Choice (widths c.factorInfos st) _)
  refine prodFrom_some ?_
  refine List.forall₂_iff_get.mpr ⟨hch.length_eq, fun q hq hq' => ?_⟩
  have hlt := hch.get hq hq'
  simp only [List.get_eq_getElem] at hlt ⊢
  set f := st.factors[q] with hf
  set j := (digits (widths c.factorInfos st) i)[q] with hj
  obtain ⟨fi, hfi, hcase⟩ := hgood f (List.getElem_mem hq)
  have hmem := dictGet_mem hfi
  obtain ⟨hfit, hrow⟩ := hV _ hmem
  have hcm := hcomp _ hmem
  simp only at hfit hrow hcm
  have hcell : designCells c V r f = cellOf (V fi) r := by simp [designCells, hfi]
  simp only [entryAt, hfi, hcell, Option.bind_some]
  rcases hcase with ⟨n, hn, hnone⟩ | ⟨k, cm, hk, hcmf, hlen⟩
  · have hw : j < n := by
      have : widthOf c.factorInfos st.contrasts f = n := by
        obtain ⟨u, g, ty, ev⟩ := fi
        simp only at hn
        subst hn
        simp [widthOf, hnone, hfi]
      rw [this] at hlt
      exact hlt
    rw [hn] at hfit
    cases hv : V fi with
    | num m rows =>
      rw [hv] at hfit hrow
      have hrow : r < rows.length := hrow
      simp only [cellOf, List.getElem?_eq_getElem hrow, Option.map_some, Option.bind_some, hn, cellEntry]
      have := hfit.2 _ (List.getElem_mem hrow)
      exact ⟨_, List.getElem?_eq_getElem (by rw [this]; exact hw)⟩
    | cat codes => rw [hv] at hfit; exact hfit.elim
    | labels l => rw [hv] at hfit; exact hfit.elim
  · have hw : j < cm.ncols := by
      have : widthOf c.factorInfos st.contrasts f = cm.ncols := by simp [widthOf, hcmf]
      rw [this] at hlt
      exact hlt
    rw [hk] at hfit
    cases hv : V fi with
    | num m rows => rw [hv] at hfit; exact hfit.elim
    | labels l => rw [hv] at hfit; exact hfit.elim
    | cat codes =>
      rw [hv] at hfit hrow hcm
      have hrow : r < codes.length := hrow
      have h1 := hfit _ (List.getElem_mem hrow)
      have h2 := hcm (.code codes[r]) (by simp [cellOf, hrow])
      have h3 : codes[r] ≠ -1 := by simpa [cellMissing] using h2
      have h4 : ¬ codes[r] < 0 := by omega
      have h5 : codes[r].toNat < cm.matrix.length := by omega
      simp only [cellOf, List.getElem?_eq_getElem hrow, Option.map_some, Option.bind_some, hk, cellEntry, if_neg h4, hcmf,
        List.getElem?_eq_getElem h5]
      have := (hr p hp st hst _ (dictGet_mem hcmf)).rows _ (List.getElem_mem h5)
      exact ⟨_, List.getElem?_eq_getElem (by simp only at this; rw [this]; exact hw)⟩

theorem optionMapM_some {A B : Type} {f : A → Option B} {l : List A} (h : ∀ a ∈ l, ∃ b, f a = some b) :
    ∃ out, l.mapM f = some out := by
  induction l with
  | nil => exact ⟨[], rfl⟩
  | cons a l ih =>
    obtain ⟨b, hb⟩ := h a (by simp)
    obtain ⟨out, ho⟩ := ih fun a ha => h a (List.mem_cons_of_mem _ ha)
    exact ⟨b :: out, by rw [List.mapM_cons, hb, ho]; rfl⟩

theorem forall₂_exists {A B : Type} {R : A → B → Prop} {l : List A} (h : ∀ a ∈ l, ∃ b, R a b) :
    ∃ m, List.Forall₂ R l m := by
  induction l with
  | nil => exact ⟨[], .nil⟩
  | cons a l ih =>
    obtain ⟨b, hb⟩ := h a (by simp)
    obtain ⟨m, hm⟩ := ih fun a ha => h a (List.mem_cons_of_mem _ ha)
    exact ⟨b :: m, .cons hb hm⟩

/-- The matrices exist. -/
theorem matrices_exist [Mul K] [One K] {cs : List (Coding F D K)} (hvalid : ∀ c ∈ cs, ValidCoding c)
    (hreal : ∀ c ∈ cs, RealCoding c) {V : FactorInfo F D K → Value K} {n : Nat}
    (hV : ∀ fi ∈ factorsOf cs, ValueFits fi.type (V fi) ∧ (V fi).nrows = n) (na : NAAction) (isnan : K → Bool) :
    ∃ mats, AreMatrices cs V (completeRows na isnan (factorsOf cs) V n) mats := by
  refine forall₂_exists fun c hc => ?_
  have hmem : ∀ p ∈ c.factorInfos, p.2 ∈ factorsOf cs := fun p hp =>
    List.mem_flatMap.mpr ⟨c, hc, List.mem_map_of_mem hp⟩
  obtain ⟨cols, hcols⟩ := forall₂_exists (l := columnsOf c)
    (R := fun col vals => ((completeRows na isnan (factorsOf cs) V n).map (designCells c V)).mapM
      (fun cells => columnEntry c cells col) = some vals) fun col hcol => by
    refine optionMapM_some fun cells hcells => ?_
    obtain ⟨r, hr, rfl⟩ := List.mem_map.mp hcells
    simp only [completeRows, List.mem_filter, List.mem_range] at hr
    refine entry_exists (na := na) (isnan := isnan) (hvalid c hc) (hreal c hc) (fun p hp => ?_) (fun p hp x hx => ?_) hcol
    · obtain ⟨h1, h2⟩ := hV p.2 (hmem p hp)
      exact ⟨h1, by omega⟩
    · have := hr.2
      simp only [complete, List.all_eq_true] at this
      have := this p.2 (hmem p hp)
      rw [hx] at this
      simpa using this
  exact ⟨⟨(completeRows na isnan (factorsOf cs) V n).length, cols⟩, rfl, hcols⟩

/-! ### Errors of `build_design_matrices` -/

theorem checkMatch_error {A : Type} [DecidableEq A] {stored : Option A} {a : A} {e : Err}
    (h : checkMatch stored a = .error e) : e = .patsyError := by
  unfold checkMatch at h
  split at h
  · cases h
  · split at h <;> cases h
    rfl

theorem evalLoop_error {isnan : K → Bool} {na : NAAction} {data : D} {e : Err} :
    ∀ {fis : List (FactorInfo F D K)} {s : EvalState F D K}, evalLoop isnan na data fis s = .error e →
      e = .patsyError ∨ ∃ fi ∈ fis, evalFactor isnan na fi data = .error e := by
  intro fis
  induction fis with
  | nil => intro s h; cases h
  | cons fi fis ih =>
    intro s h
    simp only [evalLoop] at h
    have ih : ∀ {s : EvalState F D K}, evalLoop isnan na data fis s = .error e →
        e = .patsyError ∨ ∃ fi' ∈ fi :: fis, evalFactor isnan na fi' data = .error e := fun h => by
      rcases ih h with h | ⟨fi', hf, h⟩
      · exact .inl h
      · exact .inr ⟨fi', List.mem_cons_of_mem _ hf, h⟩
    split at h
    · exact ih h
    · simp only [bind_error] at h
      rcases h with h | ⟨r, _, h | ⟨rows, _, h | ⟨index, _, h⟩⟩⟩
      · exact .inr ⟨fi, by simp, h⟩
      · exact .inl (checkMatch_error h)
      · left
        unfold checkIndex at h
        split at h
        · cases h
        · exact checkMatch_error h
      · exact ih h

/-- A factor evaluates to values of its kind. -/
def KindSafe (ty : NATypes) (data : D) (fi : FactorInfo F D K) : Prop :=
  ∀ k v i, fi.type = .categorical k → fi.eval ty data = .ok (v, i) → ∃ codes, v = .cat codes

theorem evalFactor_error {isnan : K → Bool} {na : NAAction} {data : D} {fi : FactorInfo F D K} (hk : KindSafe na.types data fi)
    {e : Err} (h : evalFactor isnan na fi data = .error e) : e = .patsyError ∨ fi.eval na.types data = .error e := by
  simp only [evalFactor, bind_error] at h
  rcases h with h | ⟨⟨v, i⟩, h1, h⟩
  · exact .inr h
  · left
    simp only at h
    split at h
    · split at h <;> cases h
      rfl
    · cases h; rfl
    · cases h
    · rename_i k v' hv ht hno
      obtain ⟨codes, rfl⟩ := hk _ _ _ ht h1
      exact absurd rfl (hno codes)

theorem valid_codings {dis : List (DesignInfo F D K)} {cs : List (Coding F D K)} (hdis : List.Forall₂ IsDesign dis cs) :
    ∀ c ∈ cs, ValidCoding c := by
  intro c hc
  obtain ⟨i, hi, rfl⟩ := List.getElem_of_mem hc
  have hl := hdis.length_eq
  exact (isDesign_valid (List.Forall₂.get hdis (i := i) (by omega) hi)).1

/-- The build succeeds exactly if the factors can be evaluated together, and no value is missing if that matters. -/
theorem build_ok_iff [Mul K] [One K] {isnan : K → Bool} {na : NAAction} {frame : Bool}
    {dataIndex : Option (List Label)} {dis : List (DesignInfo F D K)} {data : D}
    {cs : List (Coding F D K)} (hne : dis ≠ []) (hdis : List.Forall₂ IsDesign dis cs)
    (hid : SameIdentity (factorsOf cs)) (hfit : IndexFits na.types (factorsOf cs) data) (hreal : ∀ c ∈ cs, RealCoding c)
    (hval : ∀ fi ∈ factorsOf cs, ∀ v i, fi.eval na.types data = .ok (v, i) → kindOK fi.type v → ValueFits fi.type v) :
    (∃ b, buildDesignMatrices isnan na frame dataIndex dis data = .ok b) ↔
      ∃ V n idx, Evaluation na.types (factorsOf cs) dataIndex data V n idx ∧
        (na.onNA = .raise → completeRows na isnan (factorsOf cs) V n = List.range n) := by
  constructor
  · rintro ⟨b, h⟩
    obtain ⟨V, n, idx, h1, h2, _⟩ := (build_iff hne hdis hid hfit).mp h
    exact ⟨V, n, idx, h1, h2⟩
  · rintro ⟨V, n, idx, h1, h2⟩
    obtain ⟨mats, hm⟩ := matrices_exist (valid_codings hdis) hreal (V := V) (n := n) (fun fi hfi => by
      obtain ⟨i, hi, _⟩ := h1.value fi hfi
      exact ⟨hval fi hfi _ _ hi (h1.kind fi hfi), h1.rows fi hfi⟩) na isnan
    exact ⟨⟨mats, _⟩, (build_iff hne hdis hid hfit).mpr ⟨V, n, idx, h1, h2, hm, rfl⟩⟩

theorem handleNA_error {na : NAAction} {values : List (Value K)} {isNAs : List (List Bool)}
    (hl : values.length = isNAs.length) {e : Err} (h : na.handleNA values isNAs = .error e) : e = .patsyError := by
  simp only [NAAction.handleNA, hl, ne_eq, not_true_eq_false, if_false] at h
  split at h
  · cases h
  · split at h
    · unfold handleRaise at h
      split at h <;> cases h
      rfl
    · cases h

theorem handleNA_raise_ok {na : NAAction} (hna : na.onNA = .raise) {values : List (Value K)} {isNAs : List (List Bool)}
    {out : List (Value K)} (h : na.handleNA values isNAs = .ok out) : ∀ m ∈ isNAs, ∀ b ∈ m, b = false := by
  simp only [NAAction.handleNA] at h
  split at h
  · cases h
  · rename_i hl
    split at h
    · rename_i he
      have hz : isNAs = [] := by
        have : values = [] := by simpa using he
        rw [this] at hl
        exact List.length_eq_zero_iff.mp (by simpa using (not_not.mp hl).symm)
      simp [hz]
    · rw [hna] at h
      simp only [handleRaise] at h
      split at h
      · cases h
      · rename_i hany
        intro m hm b hb
        cases b with
        | false => rfl
        | true =>
          exact absurd (List.any_eq_true.mpr ⟨m, hm, List.any_eq_true.mpr ⟨true, hb, rfl⟩⟩) hany

/-- A failure of the build is a `PatsyError`, or the failure of a factor. -/
theorem build_error [Mul K] [One K] {isnan : K → Bool} {na : NAAction} {frame : Bool}
    {dataIndex : Option (List Label)} {dis : List (DesignInfo F D K)} {data : D}
    {cs : List (Coding F D K)} (hne : dis ≠ []) (hdis : List.Forall₂ IsDesign dis cs)
    (hid : SameIdentity (factorsOf cs)) (hfit : IndexFits na.types (factorsOf cs) data) (hreal : ∀ c ∈ cs, RealCoding c)
    (hval : ∀ fi ∈ factorsOf cs, ∀ v i, fi.eval na.types data = .ok (v, i) → kindOK fi.type v → ValueFits fi.type v)
    (hk : ∀ fi ∈ factorsOf cs, KindSafe na.types data fi) {e : Err}
    (h : buildDesignMatrices isnan na frame dataIndex dis data = .error e) :
    e = .patsyError ∨ ∃ fi ∈ factorsOf cs, fi.eval na.types data = .error e := by
  let w : Coding F D K → Coding F D K × Nat := fun c =>
    (c, ((c.termCodings.flatMap (·.2)).map (·.numColumns)).sum)
  have hcs : dis.mapM DesignInfo.codingOf = .ok (cs.map w) := by
    rw [mapM_ok, List.forall₂_map_right_iff]
    exact hdis.imp fun d c h => (isDesign_valid h).2
  have hall : ((cs.map w).flatMap fun c => c.1.factorInfos.map Prod.snd) = factorsOf cs := by
    simp only [Spec.factorsOf, List.flatMap_map]; rfl
  have hbad := h
  simp only [buildDesignMatrices, hcs, ok_bind, hall] at h
  rw [bind_error] at h
  rcases h with h | ⟨s, hs, h⟩
  · rcases evalLoop_error h with h | ⟨fi, hfi, h⟩
    · exact .inl h
    · rcases evalFactor_error (hk fi hfi) h with h | h
      · exact .inl h
      · exact .inr ⟨fi, hfi, h⟩
  left
  obtain ⟨he, hfi, h0, h1, hi1, hi2⟩ := loop_facts hid hs
  rw [bind_error] at h
  rcases h with h | ⟨nv, hnv, h⟩
  · refine handleNA_error ?_ h
    simp only [List.length_append, List.length_map]
    split <;> rfl
  cases hn : s.rows with
  | some n =>
    exfalso
    have hlen : ∀ l, s.index = some l → l.length = n := by
      intro l hl
      rcases hi2 l hl with h3 | ⟨fi, h3, v, h4⟩
      · have := h1 l.length (by simp [h3])
        rw [hn] at this; simpa using this.symm
      · have h5 := hfit fi h3 v l h4
        have h6 := (hfi fi h3)
        rw [hn] at h6
        have : evalValue na.types data fi = v := by simp [evalValue, h4]
        rw [this] at h6
        simp only [Option.some.injEq] at h6
        omega
    have hraise : na.onNA = .raise → completeRows na isnan (factorsOf cs) (evalValue na.types data) n = List.range n := by
      intro hna
      have hm := handleNA_raise_ok hna hnv
      unfold completeRows
      rw [range_filter_self]
      intro r hr
      rw [complete_eq]
      simp only [Bool.not_eq_true', List.any_eq_false, Bool.not_eq_true]
      intro fi hf
      have hrow : (evalValue na.types data fi).nrows = n := by
        have := (hfi fi hf).1
        rw [hn] at this
        simpa using this.symm
      have hin : (fi, evalValue na.types data fi, (List.range (evalValue na.types data fi).nrows).map (missingAt na isnan (evalValue na.types data fi))) ∈
          s.entries := by
        rw [he]
        exact List.mem_map.mpr ⟨fi, (mem_newOnes hid).mpr hf, rfl⟩
      exact hm _ (List.mem_append_left _ (List.mem_map_of_mem hin)) _
        (List.mem_map_of_mem (List.mem_range.mpr (by rw [hrow]; exact hr)))
    have hev : Evaluation na.types (Spec.factorsOf cs) dataIndex data (evalValue na.types data) n
        (s.index.getD ((List.range n).map Label.row)) := by
      refine ⟨?_, fun fi h => (hfi fi h).2.1, ?_, ?_, ?_, ?_, ?_⟩
      · intro fi h
        obtain ⟨i, h3, h4⟩ := (hfi fi h).2.2
        refine ⟨i, h3, ?_⟩
        intro l hl
        simp [h4 l hl]
      · intro fi h
        have h3 := (hfi fi h).1
        rw [hn] at h3
        simpa using h3.symm
      · intro l hl
        simp [hi1 l hl]
      · cases h3 : s.index with
        | none => simp
        | some l => simpa using hlen l h3
      · intro h3 h4
        cases h5 : s.index with
        | none => rfl
        | some l =>
          rcases hi2 l h5 with h6 | ⟨fi, h6, v, h7⟩
          · rw [h3] at h6; simp at h6
          · exact absurd h7 (h4 fi h6 v l)
      · intro h3 h4
        have := h0 h3
        rw [hn, h4] at this
        simp at this
    obtain ⟨b, hb⟩ := (build_ok_iff (frame := frame) (dataIndex := dataIndex) hne hdis hid hfit hreal hval).mpr
      ⟨_, n, _, hev, hraise⟩
    rw [hbad] at hb
    cases hb
  | none =>
    have hnil : factorsOf cs = [] := by
      cases hf : factorsOf cs with
      | nil => rfl
      | cons fi l =>
        have := (hfi fi (by rw [hf]; exact List.mem_cons_self ..)).1
        rw [hn] at this; simp at this
    have hent : s.entries = [] := by rw [he, hnil]; rfl
    -- with one more label the same matrices can be made
    have hev : Evaluation na.types (Spec.factorsOf cs) (some [.row 0]) data (evalValue na.types data) 1 [.row 0] := by
      refine ⟨?_, ?_, ?_, ?_, rfl, ?_, ?_⟩
      · simp [hnil]
      · simp [hnil]
      · simp [hnil]
      · intro l hl; cases hl; rfl
      · intro h; cases h
      · intro _ h; cases h
    obtain ⟨b, hb⟩ := (build_ok_iff (isnan := isnan) (na := { na with onNA := .drop }) (frame := false)
      hne hdis hid hfit hreal hval).mpr ⟨_, _, _, hev, fun h => by cases h⟩
    simp only [buildDesignMatrices, hcs, ok_bind, hall, hnil, evalLoop, bind_ok] at hb
    obtain ⟨nv', _, results, hres, _⟩ := hb
    simp only [List.map_nil, List.zip_nil_left] at hres
    simp only [hent, List.map_nil, List.zip_nil_left, hres, ok_bind] at h
    rw [bind_error] at h
    rcases h with h | ⟨_, _, h⟩
    · obtain ⟨r, hr, h⟩ := mapM_error h
      have hone : r.2.nrows = 1 := by
        have hall₂ := mapM_ok.mp hres
        obtain ⟨i, hi, rfl⟩ := List.getElem_of_mem hr
        have := hall₂.get (i := i) (by rw [hall₂.length_eq]; exact hi) hi
        simp only [List.get_eq_getElem, buildDesignMatrix, bind_ok, collectValues_nil, Except.ok.injEq,
          exists_eq_left'] at this
        obtain ⟨_, _, h8⟩ := this
        split at h8
        · cases h8
        · have := Except.ok.inj h8
          rw [← this]
          rfl
      simp only [reshape, hone] at h
      split at h
      · simp only [ne_eq, not_true_eq_false, if_false] at h
        split at h <;> cases h
        rfl
      · cases h
    · cases h

end Patsy.Outcome
