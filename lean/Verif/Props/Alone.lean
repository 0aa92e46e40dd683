import Verif.Lemmas.Alone
import Verif.Props.Extend
import Verif.Props.Rename
import Verif.Props.Outcome
import Verif.Props.Reorder
import Verif.Props.ReorderText
import Verif.Lemmas.OwnTerms
import Verif.Props.CompleteText
import Verif.Spec.Alone

/-!
# Properties C84 (a design is the same alone and in company) and C77 (nested models in separate calls)
-/

set_option linter.unusedSectionVars false

namespace Patsy.Props

open Patsy.Build Patsy.Spec Patsy.Desc Patsy.Redundancy

variable {F D K : Type} [DecidableEq F]

theorem renameDesign_same [Mul K] [One K] {σ : Nat → Nat} (hσ : Function.Injective σ) (d : DesignInfo F D K) :
    Interchangeable d (renameDesign id σ d) := by
  refine ⟨rfl, ?_, rfl, ?_⟩
  · simp only [renameDesign]
    have : (Prod.map (renameTerm (id : F → F)) (id : Slice → Slice)) = id := by
      funext p
      simp [Prod.map, renameTerm]
    rw [this]
    simp
  · intro isnan na frame dataIndex data
    refine (buildDesignMatrices_rename (φ := (id : F → F)) Function.injective_id hσ ?_ data).symm
    simp only [List.mapM_cons, List.mapM_nil, DesignInfo.codingOf, renameDesign]
    cases d.coding <;> rfl

/-- **C84**.  A design that is made together with others is the design that its terms give on their own: same columns,
same names, same terms and slices, same matrices on all data. -/
theorem design_alone [Mul K] [One K] {H : Type} [DecidableEq H] {P : Setting F D K H} (hv : ∀ l, (P.visit l).Perm l)
    {chunks : List D} {tls : List (List (Term F))} {dis : List (DesignInfo F D K)}
    (h : designMatrixBuilders P chunks tls = .ok dis) {i : Nat} {ts : List (Term F)} {d' : DesignInfo F D K}
    (hts : tls[i]? = some ts) (hd' : dis[i]? = some d')
    (hm : MemorisedApart P (P.visit (allFactors tls)) (P.visit (allFactors [ts]))) :
    ∃ d, designMatrixBuilders P chunks [ts] = .ok [d] ∧ Interchangeable d d' := by
  set gs := P.visit (allFactors tls) with hgs
  set fs := P.visit (allFactors [ts]) with hfs
  have hgn : gs.Nodup := (hv _).nodup_iff.mpr (allFactors_nodup tls)
  have hfn : fs.Nodup := (hv _).nodup_iff.mpr (allFactors_nodup [ts])
  have hmemf : ∀ f, f ∈ fs ↔ ∃ t ∈ ts, f ∈ t.factors := by
    intro f
    rw [hfs, (hv _).mem_iff]
    simp [allFactors]
  have hsub : ∀ f ∈ fs, f ∈ gs := by
    intro f hf
    obtain ⟨t, ht, hf⟩ := (hmemf f).mp hf
    rw [hgs, (hv _).mem_iff]
    simp only [allFactors, List.mem_dedup, List.mem_flatMap]
    exact ⟨ts, List.mem_of_getElem? hts, t, ht, hf⟩
  rw [builders_rest] at h
  obtain ⟨eval', he', h⟩ := h
  simp only [buildersRest, buildersOn, bind_ok] at h
  obtain ⟨r', hr', infos', hi', hd⟩ := h
  obtain ⟨eval, he, hev⟩ := hm eval' he'
  have hev' : ∀ f ∈ fs, (fun d => (eval f d) >>= fun s => pure s.value) = fun d => (eval' f d) >>= fun s => pure s.value := by
    intro f hf
    rw [hev f hf]
  obtain ⟨r, hr⟩ := (examineTypes_ok_iff (na := P.na) (order := P.order) (visit := P.visit) hv (chunks := chunks)
      (eval := fun f d => do pure (← eval f d).value) hfn).mpr fun f hf => by
    have := (examineTypes_ok_iff hv hgn).mp ⟨r', hr'⟩ f (hsub f hf)
    rw [← hev' f hf] at this
    exact this
  have htype : ∀ f ∈ fs, typeOf r' f = typeOf r f := by
    intro f hf
    have h1 := examineTypes_own hv hfn hr hf
    have h2 := examineTypes_own hv hgn hr' (hsub f hf)
    rw [← hev' f hf] at h2
    exact Except.ok.inj (h2.symm.trans h1)
  obtain ⟨infos, hi⟩ := makeInfos_ok (eval := eval).mpr fun f hf => by
    rw [← htype f hf]
    exact makeInfos_ok.mp ⟨infos', hi'⟩ f (hsub f hf)
  have hd := mapM_ok.mp hd
  have hone : makeDesign P.name P.hash r'.1 (coderOf P.default r'.2) infos' ts = .ok d' := by
    obtain ⟨h1, rfl⟩ := List.getElem?_eq_some_iff.mp hts
    obtain ⟨h2, rfl⟩ := List.getElem?_eq_some_iff.mp hd'
    exact List.Forall₂.get hd h1 h2
  obtain ⟨d, hd1, rfl⟩ := makeDesign_alone (nums := r.1) (coder := coderOf P.default r.2) (fis := infos)
    (σ := among fs gs) (fun t ht f hf => (typeOf_alike (htype f ((hmemf f).mpr ⟨t, ht, hf⟩))).1)
    (fun t ht f hf hnone => by
      funext b
      simp only [coderOf, (typeOf_alike (htype f ((hmemf f).mpr ⟨t, ht, hf⟩))).2 hnone])
    (fun t ht f hf => by
      have hf' := (hmemf f).mpr ⟨t, ht, hf⟩
      obtain ⟨fi, h3, h4⟩ := (makeInfos_get hfn hi f).1 hf'
      obtain ⟨fi', h5, h6⟩ := (makeInfos_get hgn hi' f).1 (hsub f hf')
      have := factorInfo_rename (φ := (id : F → F)) (htype f hf') (hev f hf').symm (among fs gs) (fs.idxOf f)
      rw [among_idxOf hf', h4] at this
      simp only [id] at this
      rw [this] at h6
      rw [h3, h5]
      exact congrArg some (Except.ok.inj h6).symm) hone
  refine ⟨d, ?_, renameDesign_same (among_injective hfn hsub) d⟩
  rw [builders_rest]
  refine ⟨eval, he, ?_⟩
  simp only [buildersRest, buildersOn, ← hfs, hr, ok_bind, hi, List.mapM_cons, List.mapM_nil, hd1]
  rfl

/-! ### Rows -/

/-- Some of the factors evaluate to the same values when evaluated without the others. -/
theorem evaluation_restrict {ty : NATypes} {fis own : List (FactorInfo F D K)} (hsub : ∀ fi ∈ own, fi ∈ fis)
    {dataIndex : Option (List Build.Label)} {data : D} {V : FactorInfo F D K → Value K} {n : Nat} {idx : List Build.Label}
    (hne : own = [] → dataIndex ≠ none) (h : Evaluation ty fis dataIndex data V n idx) :
    ∃ idx', Evaluation ty own dataIndex data V n idx' ∧ (dataIndex ≠ none → idx' = idx) := by
  by_cases hown : dataIndex = none ∧ ∀ fi ∈ own, ∀ v l, fi.eval ty data ≠ .ok (v, some l)
  · refine ⟨(List.range n).map Build.Label.row, ⟨?_, fun fi hf => h.kind fi (hsub fi hf), fun fi hf => h.rows fi (hsub fi hf), ?_, by simp,
      fun _ _ => rfl, hne⟩, fun e => absurd hown.1 e⟩
    · intro fi hf
      obtain ⟨i, h1, _⟩ := h.value fi (hsub fi hf)
      refine ⟨i, h1, ?_⟩
      rintro l rfl
      exact absurd h1 (hown.2 fi hf _ l)
    · intro l hl
      rw [hown.1] at hl
      cases hl
  · exact ⟨idx, ⟨fun fi hf => h.value fi (hsub fi hf), fun fi hf => h.kind fi (hsub fi hf), fun fi hf => h.rows fi (hsub fi hf), h.frame,
      h.length, fun e1 e2 => absurd ⟨e1, e2⟩ hown, hne⟩, fun _ => rfl⟩

/-- The places of the entries that a filter leaves. -/
def places {A : Type} (q : A → Bool) (l : List A) : List Nat := (List.range l.length).filter fun k => l[k]?.any q

theorem places_spec {A : Type} (q : A → Bool) (l : List A) : (l.filter q).map some = (places q l).map fun k => l[k]? := by
  induction l with
  | nil => rfl
  | cons a l ih =>
    have : places q (a :: l) = (if q a then [0] else []) ++ (places q l).map Nat.succ := by
      unfold places
      rw [List.length_cons, List.range_succ_eq_map, List.filter_cons, List.filter_map]
      simp only [List.getElem?_cons_zero, Option.any_some, Function.comp_def, List.getElem?_cons_succ, Nat.succ_eq_add_one]
      split <;> simp
    rw [this]
    by_cases ha : q a
    · simp [ha, ih, Function.comp_def]
    · simp [ha, ih, Function.comp_def]

theorem places_increasing {A : Type} (q : A → Bool) (l : List A) : (places q l).Pairwise (· < ·) :=
  List.pairwise_lt_range.filter _

theorem places_inside {A : Type} (q : A → Bool) (l : List A) : ∀ k ∈ places q l, k < l.length := by
  intro k hk
  simpa using (List.mem_filter.mp hk).1

theorem places_length {A : Type} (q : A → Bool) (l : List A) : (places q l).length = (l.filter q).length := by
  have := congrArg List.length (places_spec q l)
  simpa using this.symm

/-- The entries for the rows that a filter leaves are those at the places that are left. -/
theorem picked_entries {A B : Type} {f : A → Option B} {q : A → Bool} {l : List A} {vals vals' : List B}
    (h : l.mapM f = some vals) (h' : (l.filter q).mapM f = some vals') : Picked l.length (places q l) vals vals' := by
  have h1 := mapM_some.mp h
  have h2 := mapM_some.mp h'
  have hlen := h1.length_eq
  refine ⟨hlen.symm, ?_⟩
  have hget : ∀ k : Nat, vals[k]? = l[k]?.bind f := by
    intro k
    by_cases hk : k < l.length
    · have := List.Forall₂.get h1 hk (by omega)
      simp only [List.get_eq_getElem] at this
      rw [List.getElem?_eq_getElem hk, List.getElem?_eq_getElem (by omega), Option.bind_some, this]
    · rw [List.getElem?_eq_none (by omega), List.getElem?_eq_none (by omega)]
      rfl
  have hmap : vals'.map some = (l.filter q).map f := by
    clear * - h2
    generalize l.filter q = l2 at h2
    induction h2 with
    | nil => rfl
    | cons e _ ih => rw [List.map_cons, List.map_cons, e, ih]
  have hbind := congrArg (List.map fun o : Option A => o.bind f) (places_spec q l)
  simp only [List.map_map, Function.comp_def, Option.bind_some] at hbind
  rw [hmap, hbind]
  exact List.map_congr_left fun k _ => (hget k).symm

/-- A matrix with as many rows as the matrix that its rows are taken from is this matrix. -/
theorem rowsOf_all {ks : List Nat} {m m' : Mat K} (h : RowsOf ks m m') (he : m'.nrows = m.nrows) : m' = m := by
  have hks : ks = List.range m.nrows := by
    refine List.Perm.eq_of_pairwise (le := (· < ·)) (fun a b _ _ h1 h2 => absurd h1 (by omega)) h.increasing List.pairwise_lt_range ?_
    have hnd : ks.Nodup := h.increasing.imp fun h => by omega
    have hsub : ks ⊆ List.range m.nrows := fun k hk => List.mem_range.mpr (h.inside k hk)
    exact (List.Nodup.subperm hnd hsub).perm_of_length_le (by simp [← h.rows, he])
  obtain ⟨n, cols⟩ := m
  obtain ⟨n', cols'⟩ := m'
  simp only at he hks
  subst he
  congr 1
  have h3 := h.cols
  simp only at h3
  clear h
  induction h3 with
  | nil => rfl
  | @cons a b _ _ h1 _ ih =>
    rw [ih]
    congr 1
    obtain ⟨h4, h5⟩ := h1
    refine List.map_injective_iff.mpr (Option.some_injective K) ?_
    rw [h5, hks, ← h4]
    refine List.ext_getElem (by simp) fun i h6 h7 => ?_
    simp only [List.getElem_map, List.getElem_range]
    simp only [List.length_map, List.length_range] at h6
    rw [List.getElem?_eq_getElem h6]

/-- The matrices of one coding for some rows and for those of them that a filter leaves. -/
theorem rowsOf_filter [Mul K] [One K] {c : Coding F D K} {V : FactorInfo F D K → Value K} {own : List Nat} {q : Nat → Bool} {m1 m : Mat K}
    (hm1 : m1.nrows = own.length ∧ IsMatrix c (own.map (designCells c V)) m1.cols)
    (hm : m.nrows = (own.filter q).length ∧ IsMatrix c ((own.filter q).map (designCells c V)) m.cols) :
    RowsOf (places q own) m1 m := by
  refine ⟨places_increasing q own, ?_, ?_, ?_⟩
  · rw [hm1.1]; exact places_inside q own
  · rw [hm.1, places_length]
  · rw [hm1.1]
    have h1 := hm1.2
    have h2 := hm.2
    unfold IsMatrix at h1 h2
    generalize columnsOf c = cols at h1 h2
    generalize m1.cols = l1 at h1
    generalize m.cols = l2 at h2
    induction h1 generalizing l2 with
    | nil => cases h2; exact .nil
    | cons a1 _ ih =>
      cases h2 with
      | cons a2 a3 =>
        refine .cons ?_ (ih _ a3)
        rw [List.mapM_map] at a1 a2
        exact picked_entries a1 a2

/-- The same for the labels of the rows. -/
theorem labels_filter {own : List Nat} {q : Nat → Bool} {idx : List Build.Label} (hlt : ∀ r ∈ own, r < idx.length) (frame : Bool) :
    PickedLabels own.length (places q own) (if frame then some (own.filterMap fun r => idx[r]?) else none)
      (if frame then some ((own.filter q).filterMap fun r => idx[r]?) else none) := by
  cases frame with
  | false => trivial
  | true =>
    simp only [if_true, PickedLabels]
    have hfm : ∀ l : List Nat, (∀ r ∈ l, r < idx.length) →
        l.mapM (fun r => idx[r]?) = some (l.filterMap fun r => idx[r]?) := by
      intro l hl
      induction l with
      | nil => rfl
      | cons r l ih =>
        have hr := hl r (by simp)
        rw [List.mapM_cons, ih fun k hk => hl k (by simp [hk]), List.filterMap_cons, List.getElem?_eq_getElem hr]
        rfl
    exact picked_entries (hfm own hlt) (hfm _ fun r hr => hlt r (List.mem_of_mem_filter hr))

/-- The rows that are complete for some factors are among those that are complete for some of them. -/
theorem completeRows_filter {na : NAAction} {isnan : K → Bool} {fis own : List (FactorInfo F D K)} (hsub : ∀ fi ∈ own, fi ∈ fis)
    (V : FactorInfo F D K → Value K) (n : Nat) :
    completeRows na isnan fis V n = (completeRows na isnan own V n).filter (complete na isnan fis V) := by
  simp only [completeRows, List.filter_filter]
  refine List.filter_congr fun r _ => ?_
  rw [Bool.eq_iff_iff, Bool.and_eq_true]
  refine ⟨fun h => ⟨h, ?_⟩, fun h => h.1⟩
  simp only [complete, List.all_eq_true] at h ⊢
  exact fun fi hfi => h fi (hsub fi hfi)

/-- Designs that are built together: each has some of the rows of the matrix that is built from it alone. -/
theorem build_together [Mul K] [One K] {H : Type} [DecidableEq H] {P : Setting F D K H} (hw : World P) {chunks : List D}
    {tls : List (List (Term F))} (hnd : ∀ tl ∈ tls, ∀ t ∈ tl, t.factors.Nodup) {dis : List (DesignInfo F D K)}
    (h : designMatrixBuilders P chunks tls = .ok dis) {i : Nat} {d : DesignInfo F D K}
    (hd : dis[i]? = some d)
    {isnan : K → Bool} {na : NAAction} {frame : Bool} {dataIndex : Option (List Build.Label)} {data : D} {b b1 : Built K}
    (hb : buildDesignMatrices isnan na frame dataIndex dis data = .ok b)
    (hb1 : buildDesignMatrices isnan na frame dataIndex [d] data = .ok b1) :
    ∃ ks m m1, b.mats[i]? = some m ∧ b1.mats = [m1] ∧ RowsOf ks m1 m ∧
      (dataIndex ≠ none → PickedLabels m1.nrows ks b1.index b.index) := by
  obtain ⟨cs, hcs, hsame, hfits, _⟩ := builders_sound hw hnd h
  obtain ⟨hi, rfl⟩ := List.getElem?_eq_some_iff.mp hd
  have hic : i < cs.length := by rw [← hcs.length_eq]; exact hi
  have hdc : IsDesign dis[i] cs[i] := List.Forall₂.get hcs hi hic
  set c := cs[i] with hc
  have hsub : ∀ fi ∈ Spec.factorsOf [c], fi ∈ Spec.factorsOf cs := by
    intro fi hfi
    simp only [Spec.factorsOf, List.flatMap_cons, List.flatMap_nil, List.append_nil] at hfi
    exact List.mem_flatMap.mpr ⟨c, List.getElem_mem hic, hfi⟩
  rw [build_iff (by intro e; rw [e] at hi; simp at hi) hcs hsame (hfits _ _)] at hb
  rw [build_iff (by simp) (.cons hdc .nil) (fun a ha a' ha' => hsame a (hsub a ha) a' (hsub a' ha'))
    (fun fi hfi => hfits _ _ fi (hsub fi hfi))] at hb1
  obtain ⟨V, n, idx, e1, _, e3, e4⟩ := hb
  obtain ⟨V1, n1, idx1, g1, _, g3, g4⟩ := hb1
  obtain ⟨idx', r1, r2⟩ := evaluation_restrict hsub g1.known e1
  obtain ⟨u1, rfl, rfl⟩ := evaluation_unique g1 r1
  rw [areMatrices_congr u1, completeRows_congr u1] at g3
  rw [completeRows_congr u1] at g4
  set own := completeRows na isnan (Spec.factorsOf [c]) V n1 with hown
  rw [completeRows_filter hsub] at e3 e4
  rw [← hown] at e3 e4
  obtain ⟨mats1, index1⟩ := b1
  obtain ⟨mats, index⟩ := b
  simp only at e3 e4 g3 g4
  cases g3 with
  | @cons _ m1 _ rest hm1 hrest =>
    cases hrest
    have him : i < mats.length := by rw [← e3.length_eq]; exact hic
    have hm := List.Forall₂.get e3 hic him
    simp only [List.get_eq_getElem] at hm
    rw [← hc] at hm
    refine ⟨_, mats[i], m1, List.getElem?_eq_getElem him, rfl, rowsOf_filter hm1 hm, ?_⟩
    intro hdi
    rw [r2 hdi] at g4
    rw [e4, g4, hm1.1]
    refine labels_filter (fun r hr => ?_) frame
    rw [e1.length]
    simpa using (List.mem_filter.mp hr).1

/-- **C84** for the matrices.  If the matrices of several lists of terms can be made on some data, and those of one of
them alone, then the first call gives for this list some of the rows of the matrix that the second call gives (those
where no other factor is missing), with their labels; if it gives as many, then the same matrix. -/
theorem matrix_alone [Mul K] [One K] {H : Type} [DecidableEq H] {P : Setting F D K H} (hw : World P) {chunks : List D}
    {tls : List (List (Term F))} (hnd : ∀ tl ∈ tls, ∀ t ∈ tl, t.factors.Nodup) {dis : List (DesignInfo F D K)}
    (h : designMatrixBuilders P chunks tls = .ok dis) {i : Nat} {ts : List (Term F)} (hts : tls[i]? = some ts)
    (hm : MemorisedApart P (P.visit (allFactors tls)) (P.visit (allFactors [ts]))) {d : DesignInfo F D K}
    (hd : designMatrixBuilders P chunks [ts] = .ok [d])
    {isnan : K → Bool} {na : NAAction} {frame : Bool} {dataIndex : Option (List Build.Label)} {data : D} {b b1 : Built K}
    (hb : buildDesignMatrices isnan na frame dataIndex dis data = .ok b)
    (hb1 : buildDesignMatrices isnan na frame dataIndex [d] data = .ok b1) :
    ∃ ks m m1, b.mats[i]? = some m ∧ b1.mats = [m1] ∧ RowsOf ks m1 m ∧ (m.nrows = m1.nrows → m = m1) ∧
      (dataIndex ≠ none → PickedLabels m1.nrows ks b1.index b.index) := by
  have hlen : tls.length = dis.length := by
    obtain ⟨_, _, _, _, _, _, hd⟩ := builders_ok hw.visits h
    exact hd.length_eq
  obtain ⟨hi, _⟩ := List.getElem?_eq_some_iff.mp hts
  have hd' : dis[i]? = some (dis[i]'(by omega)) := List.getElem?_eq_getElem (by omega)
  obtain ⟨d0, h0, hs⟩ := design_alone hw.visits h hts hd' hm
  rw [hd] at h0
  cases h0
  rw [hs.matrices] at hb1
  obtain ⟨ks, m, m1, h1, h2, h3, h4⟩ := build_together hw hnd h hd' hb hb1
  exact ⟨ks, m, m1, h1, h2, h3, rowsOf_all h3, h4⟩

/-- **C84** for `dmatrices` and `dmatrix`.  The right-hand side of a formula, used as a formula of its own (`dmatrix`), has
the same columns, names, terms and slices as next to a left-hand side (`dmatrices`), and gives the same matrix, except
that `dmatrices` also drops the rows where the left-hand side is missing. -/
theorem right_side_alone [Mul K] [One K] {H : Type} [DecidableEq H] {P : Setting F D K H} (hw : World P) {isnan : K → Bool}
    {dataIndex : Option (List Build.Label)} {data : D} {rt : ReturnType} {f f' : FormulaLike F D K} {l r : List (Term F)}
    (hf : modelOf f = some ⟨l, r⟩) (hf' : modelOf f' = some ⟨[], r⟩) (hnd : ∀ t ∈ l ++ r, t.factors.Nodup)
    (hm : MemorisedApart P (P.visit (allFactors [l, r])) (P.visit (allFactors [r])))
    {t : Table F D K × Table F D K} {t' : Table F D K} (h : dmatrices P isnan dataIndex data rt f = .ok t)
    (h' : dmatrix P isnan dataIndex data rt f' = .ok t') :
    t.2.info.columnIndexes = t'.info.columnIndexes ∧ t.2.info.termSlices = t'.info.termSlices ∧
      t.2.info.termNameSlices = t'.info.termNameSlices ∧
      ∃ ks, RowsOf ks t'.mat t.2.mat ∧ (t.2.mat.nrows = t'.mat.nrows → t.2.mat = t'.mat) ∧
        (dataIndex ≠ none → PickedLabels t'.mat.nrows ks t'.index t.2.index) := by
  have hnd1 : ∀ tl ∈ [l, r], ∀ t ∈ tl, t.factors.Nodup := by
    intro tl htl t ht
    simp only [List.mem_cons, List.not_mem_nil, or_false] at htl
    rcases htl with rfl | rfl
    · exact hnd t (List.mem_append_left _ ht)
    · exact hnd t (List.mem_append_right _ ht)
  have hnd2 : ∀ tl ∈ [[], r], ∀ t ∈ tl, t.factors.Nodup := by
    intro tl htl t ht
    simp only [List.mem_cons, List.not_mem_nil, or_false] at htl
    rcases htl with rfl | rfl
    · cases ht
    · exact hnd t (List.mem_append_right _ ht)
  simp only [dmatrices, bind_ok] at h
  simp only [dmatrix, bind_ok] at h'
  obtain ⟨u, hu, h⟩ := h
  obtain ⟨u', hu', h'⟩ := h'
  split at h
  · cases h
  split at h'
  · cases h'
  cases h
  cases h'
  obtain ⟨_, dl, dr, b, x, y, h1, h2, h3, rfl⟩ := (highLevelDesign_model hf).mp hu
  obtain ⟨_, dl', dr', b', x', y', g1, g2, g3, rfl⟩ := (highLevelDesign_model hf').mp hu'
  have hself : MemorisedApart P (P.visit (allFactors [[], r])) (P.visit (allFactors [r])) :=
    fun eval he => ⟨eval, he, fun _ _ => rfl⟩
  obtain ⟨d, hd, s1⟩ := design_alone hw.visits h1 (i := 1) rfl rfl hm
  obtain ⟨d0, hd0, s2⟩ := design_alone hw.visits g1 (i := 1) rfl rfl hself
  rw [hd] at hd0
  cases hd0
  refine ⟨s1.columns.symm.trans s2.columns, s1.terms.symm.trans s2.terms, s1.names.symm.trans s2.names, ?_⟩
  -- the second call builds the design alone
  obtain ⟨cs, hcs, hsame, hfits, hempty⟩ := builders_sound hw hnd2 g1
  obtain ⟨cl, cr, rfl, e1, _⟩ := forall₂_two hempty
  cases hcs with
  | cons i1 hcs =>
    cases hcs with
    | cons i2 hcs =>
      obtain ⟨mats', index'⟩ := b'
      simp only at g3
      subst g3
      have hbuild := build_beside_empty (data := data) ⟨i1, i2, hsame, fun ty => hfits ty data⟩ (e1 rfl) g2
      rw [← s2.matrices, s1.matrices] at hbuild
      obtain ⟨ks, m, m1, k1, k2, k3, k4⟩ := build_together hw hnd1 h1 (i := 1) rfl h2 hbuild
      rw [h3] at k1
      cases k1
      cases k2
      exact ⟨ks, k3, rowsOf_all k3, k4⟩

/-! ### Adding terms, in separate calls -/

theorem allFactors_join {tls1 tls2 : List (List (Term F))} (hsub : ∀ f ∈ allFactors tls1, f ∈ allFactors tls2) :
    allFactors (tls1 ++ tls2) = allFactors tls2 := by
  simp only [allFactors, List.flatMap_append] at hsub ⊢
  exact List.Subset.dedup_append_right fun f hf => List.mem_dedup.mp (hsub f (List.mem_dedup.mpr hf))

/-- Designs made in two calls can be made together, if the second call has all factors of the first one. -/
theorem builders_join {H : Type} [DecidableEq H] {P : Setting F D K H} (hv : ∀ l, (P.visit l).Perm l)
    {chunks : List D} {tls1 tls2 : List (List (Term F))} {ds1 ds2 : List (DesignInfo F D K)}
    (hfac : ∀ f ∈ allFactors tls1, f ∈ allFactors tls2)
    (h1 : designMatrixBuilders P chunks tls1 = .ok ds1) (h2 : designMatrixBuilders P chunks tls2 = .ok ds2)
    (hm : MemorisedApart P (P.visit (allFactors tls2)) (P.visit (allFactors tls1))) :
    ∃ σ, Function.Injective σ ∧ designMatrixBuilders P chunks (tls1 ++ tls2) = .ok (ds1.map (renameDesign id σ) ++ ds2) := by
  set gs := P.visit (allFactors tls2) with hgs
  set fs := P.visit (allFactors tls1) with hfs
  have hgn : gs.Nodup := (hv _).nodup_iff.mpr (allFactors_nodup _)
  have hfn : fs.Nodup := (hv _).nodup_iff.mpr (allFactors_nodup _)
  have hmemf : ∀ f, f ∈ fs ↔ ∃ ts ∈ tls1, ∃ t ∈ ts, f ∈ t.factors := by
    intro f
    rw [hfs, (hv _).mem_iff]
    simp only [allFactors, List.mem_dedup, List.mem_flatMap]
  have hsub : ∀ f ∈ fs, f ∈ gs := fun f hf => (hv _).mem_iff.mpr (hfac f ((hv _).mem_iff.mp hf))
  rw [builders_rest] at h1 h2
  obtain ⟨eval, he, h1⟩ := h1
  obtain ⟨eval', he', h2⟩ := h2
  simp only [buildersRest, buildersOn, ← hfs, ← hgs, bind_ok] at he he' h1 h2
  obtain ⟨r, hr, infos, hi, hd1⟩ := h1
  obtain ⟨r', hr', infos', hi', hd2⟩ := h2
  obtain ⟨eval0, he0, hev⟩ := hm eval' he'
  rw [he0] at he
  cases he
  have hev' : ∀ f ∈ fs, (fun d => (eval f d) >>= fun s => pure s.value) = fun d => (eval' f d) >>= fun s => pure s.value := by
    intro f hf
    rw [hev f hf]
  have htype : ∀ f ∈ fs, typeOf r' f = typeOf r f := by
    intro f hf
    have h1 := examineTypes_own hv hfn hr hf
    have h2 := examineTypes_own hv hgn hr' (hsub f hf)
    rw [← hev' f hf] at h2
    exact Except.ok.inj (h2.symm.trans h1)
  have hd1' : tls1.mapM (makeDesign P.name P.hash r'.1 (coderOf P.default r'.2) infos') = .ok (ds1.map (renameDesign id (among fs gs))) := by
    rw [mapM_ok] at hd1 ⊢
    rw [List.forall₂_map_right_iff]
    refine ((List.forall₂_and_left (p := fun ts => ts ∈ tls1) tls1 ds1).mpr ⟨fun _ h => h, hd1⟩).imp fun ts d ⟨hts, hd⟩ => ?_
    refine makeDesign_company (nums' := r'.1) (coder' := coderOf P.default r'.2) (fis' := infos')
      (σ := among fs gs) (fun t ht f hf => (typeOf_alike (htype f ((hmemf f).mpr ⟨ts, hts, t, ht, hf⟩))).1)
      (fun t ht f hf hnone => by
        funext b
        simp only [coderOf, (typeOf_alike (htype f ((hmemf f).mpr ⟨ts, hts, t, ht, hf⟩))).2 hnone])
      (fun t ht f hf => by
        have hf' := (hmemf f).mpr ⟨ts, hts, t, ht, hf⟩
        obtain ⟨fi, h3, h4⟩ := (makeInfos_get hfn hi f).1 hf'
        obtain ⟨fi', h5, h6⟩ := (makeInfos_get hgn hi' f).1 (hsub f hf')
        have := factorInfo_rename (φ := (id : F → F)) (htype f hf') (hev f hf').symm (among fs gs) (fs.idxOf f)
        rw [among_idxOf hf', h4] at this
        simp only [id] at this
        rw [this] at h6
        rw [h3, h5]
        exact congrArg some (Except.ok.inj h6).symm) hd
  refine ⟨among fs gs, among_injective hfn hsub, ?_⟩
  rw [builders_rest, allFactors_join hfac]
  refine ⟨eval', he', ?_⟩
  simp only [buildersRest, buildersOn, allFactors_join hfac, ← hgs, bind_ok]
  refine ⟨r', hr', infos', hi', ?_⟩
  rw [List.mapM_append, hd1', hd2]
  rfl

theorem renameCodings_id (l : List (Term F × List (SubtermInfo F K))) : renameCodings id l = l := by
  have h : ∀ st : SubtermInfo F K, renameSubterm id st = st := by
    intro st
    simp [renameSubterm]
  unfold renameCodings
  rw [List.map_congr_left (g := id) fun p _ => ?_, List.map_id]
  refine Prod.ext (congrFun renameTerm_id p.1) ?_
  simp only [Prod.map_snd, id]
  rw [List.map_congr_left (g := id) fun st _ => h st, List.map_id]

/-- **C77** for separate calls.  Terms are added at the end of a formula, and no new term has fewer factors than an old term
with the same numerical factors.  The designs are made in two calls, and each matrix is built in a call of its own.  Then the smaller
design has the names that the larger one gives to the columns of the old terms; these columns of the larger matrix are
the columns of the smaller matrix, without the rows where a new variable is missing. -/
theorem nested_calls [Mul K] [One K] {H : Type} [DecidableEq H] {P : Setting F D K H} (hw : RealWorld P) {chunks : List D}
    {ts new : List (Term F)} (hnd : ∀ t ∈ ts ++ new, t.factors.Nodup) {d1 d2 : DesignInfo F D K}
    (h1 : designMatrixBuilders P chunks [ts] = .ok [d1]) (h2 : designMatrixBuilders P chunks [ts ++ new] = .ok [d2])
    (hm : MemorisedApart P (P.visit (allFactors [ts ++ new])) (P.visit (allFactors [ts])))
    (hlate : Later (numericalIn d2) ts new) :
    ∃ c1 slices, d1.coding = some c1 ∧ List.Forall₂ (fun p s => d2.slice (.term p.1) = .ok s) c1.termCodings slices ∧
      d1.columnNames = selectAll slices d2.columnNames ∧
      ∀ isnan na frame dataIndex data b1 b2, buildDesignMatrices isnan na frame dataIndex [d1] data = .ok b1 →
        buildDesignMatrices isnan na frame dataIndex [d2] data = .ok b2 →
        ∃ ks m1 m2, b1.mats = [m1] ∧ b2.mats = [m2] ∧ RowsOf ks m1 ⟨m2.nrows, selectAll slices m2.cols⟩ ∧
          (m2.nrows = m1.nrows → m1.cols = selectAll slices m2.cols) := by
  obtain ⟨σ, hσ, hj⟩ := builders_join hw.visits (fun f hf => by
    simp only [allFactors, List.mem_dedup, List.mem_flatMap, List.mem_cons, List.not_mem_nil, or_false, exists_eq_left] at hf ⊢
    obtain ⟨t, ht, hf⟩ := hf
    exact ⟨t, List.mem_append_left _ ht, hf⟩) h1 h2 hm
  simp only [List.map_cons, List.map_nil, List.cons_append, List.nil_append] at hj
  obtain ⟨c1', slices, a1, a2, a3, a4⟩ := nested_designs hw.toWorld hnd hj hlate
  have hndj : ∀ tl ∈ [ts, ts ++ new], ∀ t ∈ tl, t.factors.Nodup := by
    intro tl htl t ht
    simp only [List.mem_cons, List.not_mem_nil, or_false] at htl
    rcases htl with rfl | rfl
    · exact hnd t (List.mem_append_left _ ht)
    · exact hnd t ht
  have hsame := renameDesign_same hσ d1
  cases hc1 : d1.coding with
  | none => simp [renameDesign, hc1] at a1
  | some c1 =>
    have hc1' : c1' = renameCoding id σ c1 := by
      simpa [renameDesign, hc1] using a1.symm
    have hterms : c1'.termCodings = c1.termCodings := by
      rw [hc1']
      exact renameCodings_id _
    refine ⟨c1, slices, rfl, by rw [← hterms]; exact a2, a3, ?_⟩
    intro isnan na frame dataIndex data b1 b2 hb1 hb2
    rw [hsame.matrices] at hb1
    obtain ⟨cs, hcs, hid, hobj, _, _, _, hkeys⟩ := builders_consistent hw.visits hndj hj
    obtain ⟨cs', hcs', _, hfits, _⟩ := builders_sound hw.toWorld hndj hj
    have hcc : cs' = cs := by
      have : ∀ {dis : List (DesignInfo F D K)} {l l' : List (Coding F D K)}, List.Forall₂ IsDesign dis l → List.Forall₂ IsDesign dis l' → l = l' := by
        intro dis l l' h
        induction h generalizing l' with
        | nil => intro h; cases h; rfl
        | cons e _ ih =>
          intro h
          cases h with
          | cons e' h => rw [ih h, Option.some.inj ((coding_of_isDesign e).symm.trans (coding_of_isDesign e'))]
      exact this hcs' hcs
    subst hcc
    cases hkeys with
    | @cons _ x _ _ k1 hkeys =>
      cases hkeys with
      | @cons _ y _ _ k2 hkeys =>
        cases hkeys
        cases hcs with
        | cons i1 hcs0 =>
          cases hcs0 with
          | cons i2 hcs0 =>
            -- the factors of the smaller design are factors of the larger one
            have hset : ∀ fi, fi ∈ Spec.factorsOf [x, y] ↔ fi ∈ Spec.factorsOf [y] := by
              intro fi
              simp only [Spec.factorsOf, List.flatMap_cons, List.flatMap_nil, List.append_nil, List.mem_append]
              refine ⟨?_, .inr⟩
              rintro (h | h)
              · obtain ⟨⟨f, fi0⟩, hp, rfl⟩ := List.mem_map.mp h
                obtain ⟨t, ht, hf⟩ := (k1.1 f).mp (List.mem_map_of_mem hp)
                obtain ⟨⟨f', fi'⟩, hq, hq'⟩ := List.mem_map.mp ((k2.1 f).mpr ⟨t, List.mem_append_left _ ht, hf⟩)
                simp only at hq'
                subst hq'
                have := hobj x (by simp) y (by simp) f' fi0 fi' hp hq
                subst this
                exact List.mem_map_of_mem hq
              · exact h
            have hb2' := hb2
            rw [build_iff (by simp) (.cons i2 .nil) (fun a ha b hb => hid a ((hset a).mpr ha) b ((hset b).mpr hb))
              (fun fi hfi => hfits _ _ fi ((hset fi).mpr hfi))] at hb2'
            obtain ⟨V, n, idx, e1, e2, e3, _⟩ := hb2'
            have e1' := evaluation_set hset (ty := na.types) (dataIndex := dataIndex) (data := data) (V := V) (n := n) (idx := idx) e1
            obtain ⟨b, hb⟩ := (build_succeeds_iff hw (by simp) hndj hj hcs' (isnan := isnan) (na := na) (frame := frame)
              (dataIndex := dataIndex) (data := data)).mpr ⟨V, n, idx, e1', by rw [completeRows_set hset]; exact e2⟩
            obtain ⟨ks, m, m1, f1, f2, f3, _⟩ := build_together hw.toWorld hndj hj (i := 0) rfl hb hb1
            obtain ⟨ks', m', m2, g1, g2, g3, _⟩ := build_together hw.toWorld hndj hj (i := 1) rfl hb hb2
            obtain ⟨u1, u2, u3, u4, u5⟩ := a4 _ _ _ _ _ _ hb
            rw [u3] at f1 g1
            cases f1
            cases g1
            have hrows : m'.nrows = m2.nrows := by
              rw [build_iff (by simp) hcs' hid (hfits _ _)] at hb
              obtain ⟨V', n', idx', v1, _, v3, _⟩ := hb
              obtain ⟨w1, rfl, rfl⟩ := evaluation_unique v1 e1'
              rw [completeRows_congr w1, completeRows_set hset] at v3
              rw [u3] at v3
              rw [g2] at e3
              cases v3 with
              | cons _ v3 =>
                cases v3 with
                | cons v3 _ =>
                  cases e3 with
                  | cons e3 _ => rw [v3.1, e3.1]
            have hm2 := rowsOf_all g3 hrows
            subst hm2
            have hm1 : m = ⟨m'.nrows, selectAll slices m'.cols⟩ := by
              rw [← u4, ← u5]
            refine ⟨ks, m1, m', f2, g2, by rw [← hm1]; exact f3, fun he => ?_⟩
            rw [← u5, rowsOf_all f3 (by rw [u4]; exact he)]

/-- **C77** for two formulas with the same left-hand side, `y ~ a` and `y ~ a + b`, in separate calls.  The smaller design
has the names that the larger one gives to the columns of the old terms.  The rows of the larger model are some
of the rows of the smaller one, on both sides (those where no new variable is missing); on them the columns of the smaller model are
columns of the larger one.  If no row is lost, the left-hand sides are equal and the smaller matrix consists of columns
of the larger one. -/
theorem nested_sides [Mul K] [One K] {H : Type} [DecidableEq H] {P : Setting F D K H} (hw : World P) {chunks : List D}
    {l ts new : List (Term F)} (hnd : ∀ t ∈ l ++ (ts ++ new), t.factors.Nodup) {y1 d1 y2 d2 : DesignInfo F D K}
    (h1 : designMatrixBuilders P chunks [l, ts] = .ok [y1, d1]) (h2 : designMatrixBuilders P chunks [l, ts ++ new] = .ok [y2, d2])
    (hm : MemorisedApart P (P.visit (allFactors [l, ts ++ new])) (P.visit (allFactors [l, ts])))
    (hlate : Later (numericalIn d2) ts new) :
    ∃ c1 slices, d1.coding = some c1 ∧ List.Forall₂ (fun p s => d2.slice (.term p.1) = .ok s) c1.termCodings slices ∧
      d1.columnNames = selectAll slices d2.columnNames ∧ y1.columnNames = y2.columnNames ∧
      ∀ isnan na frame dataIndex data b1 b2, buildDesignMatrices isnan na frame dataIndex [y1, d1] data = .ok b1 →
        buildDesignMatrices isnan na frame dataIndex [y2, d2] data = .ok b2 →
        ∃ ks v1 m1 v2 m2, b1.mats = [v1, m1] ∧ b2.mats = [v2, m2] ∧ RowsOf ks v1 v2 ∧
          RowsOf ks m1 ⟨m2.nrows, selectAll slices m2.cols⟩ ∧
          (m2.nrows = m1.nrows → v1 = v2 ∧ m1.cols = selectAll slices m2.cols) ∧
          (dataIndex ≠ none → PickedLabels m1.nrows ks b1.index b2.index) := by
  obtain ⟨σ, hσ, hj⟩ := builders_join hw.visits (fun f hf => by
    simp only [allFactors, List.mem_dedup, List.mem_flatMap, List.mem_cons, List.not_mem_nil, or_false, exists_eq_or_imp, exists_eq_left] at hf ⊢
    rcases hf with hf | ⟨t, ht, hf⟩
    · exact .inl hf
    · exact .inr ⟨t, List.mem_append_left _ ht, hf⟩) h1 h2 hm
  simp only [List.map_cons, List.map_nil, List.cons_append, List.nil_append] at hj
  have hndj : ∀ tl ∈ [l, ts, l, ts ++ new], ∀ t ∈ tl, t.factors.Nodup := by
    intro tl htl t ht
    refine hnd t ?_
    simp only [List.mem_cons, List.not_mem_nil, or_false, List.mem_append] at htl ⊢
    rcases htl with rfl | rfl | rfl | rfl
    · exact .inl ht
    · exact .inr (.inl ht)
    · exact .inl ht
    · exact .inr (List.mem_append.mp ht)
  obtain ⟨eval, types, fis, _, _, hinfo, hd⟩ := builders_ok hw.visits hj
  rw [List.forall₂_cons, List.forall₂_cons, List.forall₂_cons, List.forall₂_cons] at hd
  obtain ⟨k1, k2, k3, k4, _⟩ := hd
  have hy : renameDesign id σ y1 = y2 := Except.ok.inj (k1.symm.trans k3)
  obtain ⟨c1', c2, slices, i1, i2, s1, s2, s3⟩ := nested_core (fun f fi h => (hinfo f fi h).2)
    (fun t ht => hnd t (List.mem_append_right _ ht)) k2 k4 hlate
  have a1 := coding_of_isDesign i1
  cases hc1 : d1.coding with
  | none => simp [renameDesign, hc1] at a1
  | some c1 =>
    have hc1' : c1' = renameCoding id σ c1 := by
      simpa [renameDesign, hc1] using a1.symm
    have hterms : c1'.termCodings = c1.termCodings := by
      rw [hc1']
      exact renameCodings_id _
    refine ⟨c1, slices, rfl, by rw [← hterms]; exact s1, s2, by rw [← hy]; rfl, ?_⟩
    intro isnan na frame dataIndex data b1 b2 hb1 hb2
    have hb1' : buildDesignMatrices isnan na frame dataIndex [y2, renameDesign id σ d1] data = .ok b1 := by
      rw [← hb1, ← hy]
      refine buildDesignMatrices_rename (φ := (id : F → F)) Function.injective_id hσ ?_ data
      simp only [List.mapM_cons, List.mapM_nil, DesignInfo.codingOf, renameDesign]
      cases y1.coding <;> cases d1.coding <;> rfl
    obtain ⟨cs, hcs, hid, hobj, _, _, _, hkeys⟩ := builders_consistent hw.visits hndj hj
    obtain ⟨cs', hcs', _, hfits, _⟩ := builders_sound hw hndj hj
    have huniq : ∀ {dis : List (DesignInfo F D K)} {l l' : List (Coding F D K)}, List.Forall₂ IsDesign dis l →
        List.Forall₂ IsDesign dis l' → l = l' := by
      intro dis l l' h
      induction h generalizing l' with
      | nil => intro h; cases h; rfl
      | cons e _ ih =>
        intro h
        cases h with
        | cons e' h => rw [ih h, Option.some.inj ((coding_of_isDesign e).symm.trans (coding_of_isDesign e'))]
    have hcc := huniq hcs' hcs
    subst hcc
    rw [hy] at hcs
    cases hcs with
    | @cons _ x1 _ _ j1 hcs =>
    cases hcs with
    | @cons _ x2 _ _ j2 hcs =>
    cases hcs with
    | @cons _ x3 _ _ j3 hcs =>
    cases hcs with
    | @cons _ x4 _ _ j4 hcs =>
    cases hcs
    obtain rfl : x1 = x3 := Option.some.inj ((coding_of_isDesign j1).symm.trans (coding_of_isDesign j3))
    obtain rfl : x2 = c1' := Option.some.inj ((coding_of_isDesign j2).symm.trans a1)
    obtain rfl : x4 = c2 := Option.some.inj ((coding_of_isDesign j4).symm.trans (coding_of_isDesign i2))
    rw [List.forall₂_cons, List.forall₂_cons, List.forall₂_cons, List.forall₂_cons] at hkeys
    obtain ⟨_, q2, _, q4, _⟩ := hkeys
    have hin : ∀ {c fi}, c ∈ [x1, x2, x1, x4] → fi ∈ c.factorInfos.map Prod.snd → fi ∈ Spec.factorsOf [x1, x2, x1, x4] :=
      fun hc hfi => List.mem_flatMap.mpr ⟨_, hc, hfi⟩
    have hall2 : ∀ fi ∈ Spec.factorsOf [x1, x4], fi ∈ Spec.factorsOf [x1, x2, x1, x4] := by
      intro fi hfi
      obtain ⟨c, hc, hfi⟩ := List.mem_flatMap.mp hfi
      refine hin ?_ hfi
      simp only [List.mem_cons, List.not_mem_nil, or_false] at hc ⊢
      tauto
    have hsub : ∀ fi ∈ Spec.factorsOf [x1, x2], fi ∈ Spec.factorsOf [x1, x4] := by
      intro fi hfi
      simp only [Spec.factorsOf, List.flatMap_cons, List.flatMap_nil, List.append_nil, List.mem_append] at hfi ⊢
      refine hfi.imp_right fun hfi => ?_
      obtain ⟨⟨f, fi0⟩, hp, rfl⟩ := List.mem_map.mp hfi
      obtain ⟨t, ht, hf⟩ := (q2.1 f).mp (List.mem_map_of_mem hp)
      obtain ⟨⟨f', fi'⟩, hq, hq'⟩ := List.mem_map.mp ((q4.1 f).mpr ⟨t, List.mem_append_left _ ht, hf⟩)
      simp only at hq'
      subst hq'
      have := hobj x2 (by simp) x4 (by simp) f' fi0 fi' hp hq
      subst this
      exact List.mem_map_of_mem hq
    rw [build_iff (by simp) (.cons j1 (.cons j2 .nil)) (fun a ha b hb => hid a (hall2 a (hsub a ha)) b (hall2 b (hsub b hb)))
      (fun fi hfi => hfits _ _ fi (hall2 fi (hsub fi hfi)))] at hb1'
    rw [build_iff (by simp) (.cons j3 (.cons j4 .nil)) (fun a ha b hb => hid a (hall2 a ha) b (hall2 b hb))
      (fun fi hfi => hfits _ _ fi (hall2 fi hfi))] at hb2
    obtain ⟨V, n, idx, e1, _, e3, e4⟩ := hb2
    obtain ⟨V1, n1, idx1, g1, _, g3, g4⟩ := hb1'
    obtain ⟨idx', r1, r2⟩ := evaluation_restrict hsub g1.known e1
    obtain ⟨u1, rfl, rfl⟩ := evaluation_unique g1 r1
    rw [areMatrices_congr u1, completeRows_congr u1] at g3
    rw [completeRows_congr u1] at g4
    rw [completeRows_filter hsub] at e3 e4
    set own := completeRows na isnan (Spec.factorsOf [x1, x2]) V n1 with hown
    obtain ⟨mats1, index1⟩ := b1
    obtain ⟨mats2, index2⟩ := b2
    simp only at e3 e4 g3 g4
    cases g3 with
    | @cons _ v1 _ _ hv1 g3 =>
    cases g3 with
    | @cons _ m1 _ _ hm1 g3 =>
    cases g3
    cases e3 with
    | @cons _ v2 _ _ hv2 e3 =>
    cases e3 with
    | @cons _ m2 _ _ hm2 e3 =>
    cases e3
    have hr1 := rowsOf_filter hv1 hv2
    have hr2 := rowsOf_filter (m := ⟨m2.nrows, selectAll slices m2.cols⟩) hm1 ⟨hm2.1, s3 _ _ _ hm2.2⟩
    refine ⟨_, v1, m1, v2, m2, rfl, rfl, hr1, hr2, fun he => ⟨?_, ?_⟩, ?_⟩
    · exact (rowsOf_all hr1 (by rw [hv2.1, ← hm2.1, he, hm1.1, hv1.1])).symm
    · rw [← rowsOf_all hr2 he]
    · intro hdi
      rw [r2 hdi] at g4
      rw [e4, g4, hm1.1]
      refine labels_filter (fun r hr => ?_) frame
      rw [e1.length]
      simpa using (List.mem_filter.mp hr).1

/-! ### Examples -/

namespace AloneSample

open BuilderSample HighSample

/-- `y` is missing in the second row and `x` in the last one (99 stands for NaN). -/
def data : Data := [(1, 2, "u"), (99, 4, "w"), (5, 6, "w"), (7, 99, "u")]

def left : List (Term String) := [⟨["y"]⟩]

def right : List (Term String) := [⟨[]⟩, ⟨["a"]⟩, ⟨["x"]⟩]

def together : Except Err (Table String Data ℚ × Table String Data ℚ) :=
  dmatrices ReorderSample.setting ReorderSample.isnan none data .dataframe (.desc ⟨left, right⟩)

def alone : Except Err (Table String Data ℚ) :=
  dmatrix ReorderSample.setting ReorderSample.isnan none data .dataframe (.desc ⟨[], right⟩)

theorem both_ok : isOk together = true ∧ isOk alone = true := by decide +kernel

theorem apart {P : Setting String Data ℚ (Redundancy.Subterm String)} {look : String → Data → Except Err (Seen ℚ)}
    (h : ∀ fs, P.memorize fs = .ok look) (gs fs : List String) : MemorisedApart P gs fs := by
  intro eval he
  rw [h] at he
  cases he
  exact ⟨look, h _, fun _ _ => rfl⟩

/-- The designs of the two sides in one call. -/
def designs : Except Err (List (DesignInfo String Data ℚ)) := designMatrixBuilders ReorderSample.setting [data] [left, right]

theorem designs_ok : isOk designs = true := by decide +kernel

theorem designs_length : (getOk designs designs_ok).length = 2 := by decide +kernel

/-- `1 + a` and `1 + a + x`. -/
def old : List (Term String) := [⟨[]⟩, ⟨["a"]⟩]

def new : List (Term String) := [⟨["x"]⟩]

def small : Except Err (List (DesignInfo String Data ℚ)) := designMatrixBuilders BuilderSample.setting [data] [old]

def large : Except Err (List (DesignInfo String Data ℚ)) := designMatrixBuilders BuilderSample.setting [data] [old ++ new]

theorem small_ok : isOk small = true := by decide +kernel

theorem large_ok : isOk large = true := by decide +kernel

def smallDesign : DesignInfo String Data ℚ := (getOk small small_ok)[0]'(by decide +kernel)

def largeDesign : DesignInfo String Data ℚ := (getOk large large_ok)[0]'(by decide +kernel)

theorem small_eq : small = .ok [smallDesign] := by
  rw [getOk_eq small_ok]
  congr 1
  exact List.ext_getElem (by decide +kernel) fun i h1 h2 => by
    obtain rfl : i = 0 := by simpa using h2
    rfl

theorem large_eq : large = .ok [largeDesign] := by
  rw [getOk_eq large_ok]
  congr 1
  exact List.ext_getElem (by decide +kernel) fun i h1 h2 => by
    obtain rfl : i = 0 := by simpa using h2
    rfl

def smallMatrix : Except Err (Built ℚ) := buildDesignMatrices ReorderSample.isnan {} false none [smallDesign] data

def largeMatrix : Except Err (Built ℚ) := buildDesignMatrices ReorderSample.isnan {} false none [largeDesign] data

theorem matrices_ok : isOk smallMatrix = true ∧ isOk largeMatrix = true := by decide +kernel

end AloneSample

open AloneSample in
/-- Example for `design_alone`: the right-hand side of `y ~ 1 + a + x`, made together with the left-hand side and alone. -/
example : (∀ l, (ReorderSample.setting.visit l).Perm l) ∧ [left, right][1]? = some right ∧
    (∀ gs fs, MemorisedApart ReorderSample.setting gs fs) ∧ ∃ d', (getOk designs designs_ok)[1]? = some d' ∧
      ∃ d, designMatrixBuilders ReorderSample.setting [data] [right] = .ok [d] ∧ Interchangeable d d' := by
  have h1 : (getOk designs designs_ok)[1]? = some ((getOk designs designs_ok)[1]'(by rw [designs_length]; omega)) :=
    List.getElem?_eq_getElem _
  exact ⟨ReorderSample.world.visits, rfl, apart fun _ => rfl, _, h1,
    design_alone ReorderSample.world.visits (getOk_eq designs_ok) rfl h1 (apart (fun _ => rfl) _ _)⟩

open AloneSample in
/-- Example for `right_side_alone` (and `matrix_alone`): together with `y` there is a row less. -/
example : World ReorderSample.setting ∧ (∀ t ∈ left ++ right, t.factors.Nodup) ∧
    (∀ gs fs, MemorisedApart ReorderSample.setting gs fs) ∧
    ∃ t t', together = .ok t ∧ alone = .ok t' ∧ t'.info.columnNames = ["Intercept", "a[T.w]", "x"] ∧
      t.2.info.columnNames = t'.info.columnNames ∧
      t'.mat = ⟨3, [[1, 1, 1], [0, 1, 1], [2, 4, 6]]⟩ ∧ t.2.mat = ⟨2, [[1, 1], [0, 1], [2, 6]]⟩ ∧ RowsOf [0, 2] t'.mat t.2.mat := by
  refine ⟨ReorderSample.world, by decide, apart fun _ => rfl, getOk _ both_ok.1, getOk _ both_ok.2, getOk_eq _, getOk_eq _,
    by decide +kernel, by decide +kernel, by decide +kernel, by decide +kernel, ?_⟩
  have h1 : (getOk alone both_ok.2).mat = ⟨3, [[1, 1, 1], [0, 1, 1], [2, 4, 6]]⟩ := by decide +kernel
  have h2 : (getOk together both_ok.1).2.mat = ⟨2, [[1, 1], [0, 1], [2, 6]]⟩ := by decide +kernel
  rw [h1, h2]
  exact ⟨by decide, by decide, rfl, .cons ⟨rfl, rfl⟩ (.cons ⟨rfl, rfl⟩ (.cons ⟨rfl, rfl⟩ .nil))⟩

open AloneSample in
/-- Example for `nested_calls`: `x`, which is missing in the last row, is added to `1 + a`. -/
example : RealWorld BuilderSample.setting ∧ (∀ t ∈ old ++ new, t.factors.Nodup) ∧
    (∀ gs fs, MemorisedApart BuilderSample.setting gs fs) ∧ Later (numericalIn largeDesign) old new ∧
    designMatrixBuilders BuilderSample.setting [data] [old] = .ok [smallDesign] ∧
    designMatrixBuilders BuilderSample.setting [data] [old ++ new] = .ok [largeDesign] ∧
    ∃ b1 b2, smallMatrix = .ok b1 ∧ largeMatrix = .ok b2 ∧ b1.mats = [⟨4, [[1, 1, 1, 1], [0, 1, 1, 0]]⟩] ∧
      b2.mats = [⟨3, [[1, 1, 1], [0, 1, 1], [2, 4, 6]]⟩] :=
  ⟨OutcomeSample.sample_world, by decide, apart fun _ => rfl, by unfold Later; decide +kernel, small_eq, large_eq,
    getOk _ matrices_ok.1, getOk _ matrices_ok.2, getOk_eq _, getOk_eq _, by decide +kernel, by decide +kernel⟩

namespace AloneSample

open BuilderSample HighSample

/-- `y ~ 1 + a` and `y ~ 1 + a + x`. -/
def smallSides : Except Err (List (DesignInfo String Data ℚ)) := designMatrixBuilders ReorderSample.setting [data] [left, old]

def largeSides : Except Err (List (DesignInfo String Data ℚ)) := designMatrixBuilders ReorderSample.setting [data] [left, old ++ new]

theorem sides_ok : isOk smallSides = true ∧ isOk largeSides = true := by decide +kernel

theorem two {A : Type} (l : List A) (h : l.length = 2) : l = [l[0], l[1]] := by
  match l, h with
  | [a, b], _ => rfl

theorem smallSides_eq : ∃ y1 d1, smallSides = .ok [y1, d1] ∧ y1.columnNames = ["y"] ∧ d1.columnNames = ["Intercept", "a[T.w]"] ∧
    okIs (buildDesignMatrices ReorderSample.isnan {} false none [y1, d1] data)
      ⟨[⟨3, [[1, 5, 7]]⟩, ⟨3, [[1, 1, 1], [0, 1, 0]]⟩], none⟩ = true :=
  ⟨(getOk smallSides sides_ok.1)[0]'(by decide +kernel), (getOk smallSides sides_ok.1)[1]'(by decide +kernel),
    (getOk_eq sides_ok.1).trans (congrArg Except.ok (two _ (by decide +kernel))), by decide +kernel, by decide +kernel, by decide +kernel⟩

theorem largeSides_eq : ∃ y2 d2, largeSides = .ok [y2, d2] ∧ d2.columnNames = ["Intercept", "a[T.w]", "x"] ∧
    Later (numericalIn d2) old new ∧
    okIs (buildDesignMatrices ReorderSample.isnan {} false none [y2, d2] data)
      ⟨[⟨2, [[1, 5]]⟩, ⟨2, [[1, 1], [0, 1], [2, 6]]⟩], none⟩ = true :=
  ⟨(getOk largeSides sides_ok.2)[0]'(by decide +kernel), (getOk largeSides sides_ok.2)[1]'(by decide +kernel),
    (getOk_eq sides_ok.2).trans (congrArg Except.ok (two _ (by decide +kernel))), by decide +kernel, by unfold Later; decide +kernel, by decide +kernel⟩

end AloneSample

open AloneSample in
/-- Example for `nested_sides`: `y ~ 1 + a` has three complete rows, `y ~ 1 + a + x` two of them. -/
example : World ReorderSample.setting ∧ (∀ t ∈ left ++ (old ++ new), t.factors.Nodup) ∧
    (∀ gs fs, MemorisedApart ReorderSample.setting gs fs) ∧
    (∃ y1 d1, designMatrixBuilders ReorderSample.setting [data] [left, old] = .ok [y1, d1]) ∧
    ∃ y2 d2, designMatrixBuilders ReorderSample.setting [data] [left, old ++ new] = .ok [y2, d2] ∧ Later (numericalIn d2) old new := by
  obtain ⟨y1, d1, h1, _⟩ := smallSides_eq
  obtain ⟨y2, d2, h2, _, h3, _⟩ := largeSides_eq
  exact ⟨ReorderSample.world, by decide, apart fun _ => rfl, ⟨y1, d1, h1⟩, y2, d2, h2, h3⟩

section Text

open Patsy.Tokens Patsy.EvalFactor Patsy.Program Patsy.Passes Patsy.Memorize

variable {V A S H : Type} [DecidableEq H]

/-- Factors that are `EvalFactor`s are memorised independently of each other. -/
theorem interp_apart {I : Interp D V A S K H} (hI : Sane I) {chunks : List D} {gs fs : List String} (hg : gs.Nodup) (hn : fs.Nodup)
    (hsub : ∀ f ∈ fs, f ∈ gs) (hgood : GoodCode I.stateful I.code gs fun f => (readTokens (I.code f)).getD .nil) :
    MemorisedApart (I.setting chunks) gs fs := by
  intro eval' h
  have hgood' : GoodCode I.stateful I.code fs fun f => (readTokens (I.code f)).getD .nil := fun f hf => hgood f (hsub f hf)
  simp only [Interp.setting] at h ⊢
  cases hm : memorizeFactors I.python I.stateful I.classOf I.visitNames I.visitFactors I.code chunks gs with
  | error e => rw [hm] at h; cases h
  | ok states =>
    rw [hm] at h
    cases h
    have h1 := memorized_states (P := I.python) (classOf := I.classOf) hgood hI.names hI.factors hg chunks
    have h2 := memorized_states (P := I.python) (classOf := I.classOf) hgood' hI.names hI.factors hn chunks
    obtain ⟨states', hs'⟩ := h2.1.mpr fun f hf => by
      obtain ⟨τ, hτ, _⟩ := h1.2 states hm f (hsub f hf)
      exact ⟨τ, hτ⟩
    refine ⟨fun f d => (evalMemorized I.python I.classOf states' f d).map I.see, ?_, fun f hf => ?_⟩
    · rw [hs']
      rfl
    obtain ⟨τ, hτ, h3⟩ := h1.2 states hm f (hsub f hf)
    obtain ⟨τ', hτ', h4⟩ := h2.2 states' hs' f hf
    funext d
    simp only [h3, h4, valueWith_unique hτ' hτ d]

/-- **C84** for formulas given as text: `dmatrices("y ~ x + a", data)` and `dmatrix("x + a", data)`.  Nothing is
assumed about stateful transforms in the two formulas. -/
theorem text_right_side [Mul K] [One K] {I : Interp D V A S K H} (hI : Sane I) {fin fin' : RawEnd} {raw raw' : List PyTok}
    (hfine : FineText I fin raw) {l r : List (Term String)} (hraw : I.fromFormula fin raw = .ok ⟨l, r⟩)
    (hraw' : I.fromFormula fin' raw' = .ok ⟨[], r⟩) {isnan : K → Bool}
    {dataIndex : Option (List Build.Label)} {data : D} {rt : ReturnType} {t : Table String D K × Table String D K}
    {t' : Table String D K} (h : I.dmatrices isnan dataIndex data rt fin raw = .ok t)
    (h' : I.dmatrix isnan dataIndex data rt fin' raw' = .ok t') :
    t.2.info.columnIndexes = t'.info.columnIndexes ∧ t.2.info.termSlices = t'.info.termSlices ∧
      t.2.info.termNameSlices = t'.info.termNameSlices ∧
      ∃ ks, RowsOf ks t'.mat t.2.mat ∧ (t.2.mat.nrows = t'.mat.nrows → t.2.mat = t'.mat) ∧
        (dataIndex ≠ none → PickedLabels t'.mat.nrows ks t'.index t.2.index) := by
  obtain ⟨_, ⟨n1, n2⟩, hcode⟩ := fromFormula_ok hfine hraw
  refine right_side_alone (interp_world hI [data]) (f := .text (I.fromFormula fin raw)) (f' := .text (I.fromFormula fin' raw'))
    (by rw [hraw]; rfl) (by rw [hraw']; rfl) ?_ ?_ h h'
  · intro t ht
    rcases List.mem_append.mp ht with ht | ht
    · exact n1.nodup t ht
    · exact n2.nodup t ht
  · refine interp_apart hI ((hI.visits _).nodup_iff.mpr (allFactors_nodup _)) ((hI.visits _).nodup_iff.mpr (allFactors_nodup _))
      ?_ (fine_good hfine fun f hf => hcode f ((hI.visits _).mem_iff.mp hf))
    intro f hf
    have hf := (hI.visits _).mem_iff.mp hf
    refine (hI.visits _).mem_iff.mpr ?_
    simp only [allFactors, List.mem_dedup, List.mem_flatMap, List.mem_cons, List.not_mem_nil, or_false, exists_eq_left] at hf ⊢
    exact ⟨r, .inr rfl, hf⟩

/-- What nested models have in common, in separate calls: `t` is made from the smaller formula, `t'` from the larger one. -/
def NestedTables (dataIndex : Option (List Build.Label)) (t t' : Table F D K × Table F D K) : Prop :=
  ∃ c1 slices ks, t.2.info.coding = some c1 ∧ List.Forall₂ (fun p s => t'.2.info.slice (.term p.1) = .ok s) c1.termCodings slices ∧
    t.2.info.columnNames = selectAll slices t'.2.info.columnNames ∧ t.1.info.columnNames = t'.1.info.columnNames ∧
    RowsOf ks t.1.mat t'.1.mat ∧ RowsOf ks t.2.mat ⟨t'.2.mat.nrows, selectAll slices t'.2.mat.cols⟩ ∧
    (t'.2.mat.nrows = t.2.mat.nrows → t.1.mat = t'.1.mat ∧ t.2.mat.cols = selectAll slices t'.2.mat.cols) ∧
    (dataIndex ≠ none → PickedLabels t.2.mat.nrows ks t.2.index t'.2.index)

theorem text_nested_core [Mul K] [One K] {I : Interp D V A S K H} (hI : Sane I) {fin fin' : RawEnd} {raw raw' : List PyTok}
    (hfine : FineText I fin' raw') {l ts new : List (Term String)} (hraw : I.fromFormula fin raw = .ok ⟨l, ts⟩)
    (hraw' : I.fromFormula fin' raw' = .ok ⟨l, ts ++ new⟩) {isnan : K → Bool}
    {dataIndex : Option (List Build.Label)} {data : D} {rt : ReturnType} {t t' : Table String D K × Table String D K}
    (h : highLevelDesign (I.setting [data]) isnan dataIndex data rt (.text (I.fromFormula fin raw)) = .ok t)
    (h' : highLevelDesign (I.setting [data]) isnan dataIndex data rt (.text (I.fromFormula fin' raw')) = .ok t')
    (hlate : Later (numericalIn t'.2.info) ts new) : NestedTables dataIndex t t' := by
  obtain ⟨_, ⟨n1, n2⟩, hcode⟩ := fromFormula_ok hfine hraw'
  obtain ⟨_, dl, dr, b, x, y, h1, h2, h3, rfl⟩ := (highLevelDesign_model (by rw [hraw]; rfl)).mp h
  obtain ⟨_, dl', dr', b', x', y', g1, g2, g3, rfl⟩ := (highLevelDesign_model (by rw [hraw']; rfl)).mp h'
  obtain ⟨c1, slices, a1, a2, a3, a4, a5⟩ := nested_sides (interp_world hI [data]) (by
      intro t ht
      rcases List.mem_append.mp ht with ht | ht
      · exact n1.nodup t ht
      · exact n2.nodup t ht) h1 g1 (by
      refine interp_apart hI ((hI.visits _).nodup_iff.mpr (allFactors_nodup _)) ((hI.visits _).nodup_iff.mpr (allFactors_nodup _))
        ?_ (fine_good hfine fun f hf => hcode f ((hI.visits _).mem_iff.mp hf))
      intro f hf
      have hf := (hI.visits _).mem_iff.mp hf
      refine (hI.visits _).mem_iff.mpr ?_
      simp only [allFactors, List.mem_dedup, List.mem_flatMap, List.mem_cons, List.not_mem_nil, or_false, exists_eq_or_imp, exists_eq_left] at hf ⊢
      rcases hf with hf | ⟨t, ht, hf⟩
      · exact .inl hf
      · exact .inr ⟨t, List.mem_append_left _ ht, hf⟩) hlate
  obtain ⟨ks, v1, m1, v2, m2, e1, e2, e3⟩ := a5 _ _ _ _ _ _ _ h2 g2
  rw [h3] at e1
  rw [g3] at e2
  cases e1
  cases e2
  exact ⟨c1, slices, ks, a1, a2, a3, a4, e3⟩

/-- **C77** for formulas given as text: `dmatrices("y ~ a", data)` and `dmatrices("y ~ a + b", data)`.  The larger model has some
of the rows of the smaller one, on both sides; if it has all of them, then the smaller matrix consists of columns of the larger one,
those of the terms that the formulas share, under the same names. -/
theorem text_nested [Mul K] [One K] {I : Interp D V A S K H} (hI : Sane I) {fin fin' : RawEnd} {raw raw' : List PyTok}
    (hfine : FineText I fin' raw') {l ts new : List (Term String)} (hraw : I.fromFormula fin raw = .ok ⟨l, ts⟩)
    (hraw' : I.fromFormula fin' raw' = .ok ⟨l, ts ++ new⟩) {isnan : K → Bool}
    {dataIndex : Option (List Build.Label)} {data : D} {rt : ReturnType} {t t' : Table String D K × Table String D K}
    (h : I.dmatrices isnan dataIndex data rt fin raw = .ok t) (h' : I.dmatrices isnan dataIndex data rt fin' raw' = .ok t')
    (hlate : Later (numericalIn t'.2.info) ts new) : NestedTables dataIndex t t' := by
  simp only [Interp.dmatrices, Build.dmatrices, bind_ok] at h h'
  obtain ⟨u, hu, h⟩ := h
  obtain ⟨u', hu', h'⟩ := h'
  split at h
  · cases h
  split at h'
  · cases h'
  cases h
  cases h'
  exact text_nested_core hI hfine hraw hraw' hu hu' hlate

/-- The same for `dmatrix`. -/
theorem text_nested_one [Mul K] [One K] {I : Interp D V A S K H} (hI : Sane I) {fin fin' : RawEnd} {raw raw' : List PyTok}
    (hfine : FineText I fin' raw') {ts new : List (Term String)} (hraw : I.fromFormula fin raw = .ok ⟨[], ts⟩)
    (hraw' : I.fromFormula fin' raw' = .ok ⟨[], ts ++ new⟩) {isnan : K → Bool}
    {dataIndex : Option (List Build.Label)} {data : D} {rt : ReturnType} {t t' : Table String D K}
    (h : I.dmatrix isnan dataIndex data rt fin raw = .ok t) (h' : I.dmatrix isnan dataIndex data rt fin' raw' = .ok t')
    (hlate : Later (numericalIn t'.info) ts new) :
    ∃ c1 slices ks, t.info.coding = some c1 ∧ List.Forall₂ (fun p s => t'.info.slice (.term p.1) = .ok s) c1.termCodings slices ∧
      t.info.columnNames = selectAll slices t'.info.columnNames ∧
      RowsOf ks t.mat ⟨t'.mat.nrows, selectAll slices t'.mat.cols⟩ ∧
      (t'.mat.nrows = t.mat.nrows → t.mat.cols = selectAll slices t'.mat.cols) ∧
      (dataIndex ≠ none → PickedLabels t.mat.nrows ks t.index t'.index) := by
  simp only [Interp.dmatrix, Build.dmatrix, bind_ok] at h h'
  obtain ⟨u, hu, h⟩ := h
  obtain ⟨u', hu', h'⟩ := h'
  split at h
  · cases h
  split at h'
  · cases h'
  cases h
  cases h'
  obtain ⟨c1, slices, ks, a1, a2, a3, _, _, a5, a6, a7⟩ := text_nested_core hI hfine hraw hraw' hu hu' hlate
  exact ⟨c1, slices, ks, a1, a2, a3, a5, fun e => (a6 e).2, a7⟩

namespace AloneSample

open ProgramSample FitSample2

/-- The second value is missing. -/
def someRows : Col := colOf [1, 99, 3, 5]

theorem text_fine : FineText ReorderSample.interp .exhausted ProgramSample.raw :=
  ProgramSample.fine_body _ rfl rfl (body := [exPy .name "x" 0, exPy .op "~" 1] ++ nestedTokens 2) rfl (by decide)
    (by unfold ProgramSample.AllExpressions; decide +kernel)

def model : ModelDesc String := ⟨[⟨["x"]⟩], [⟨[]⟩, ⟨["center(x + center(x))"]⟩]⟩

theorem models : ReorderSample.interp.fromFormula .exhausted ProgramSample.raw = .ok model ∧
    ReorderSample.interp.fromFormula .exhausted ReorderSample.oneRaw = .ok ⟨[], model.rhs⟩ :=
  ⟨eq_ok_of_okIs (by decide +kernel), eq_ok_of_okIs (by decide +kernel)⟩

theorem texts_ok : isOk (ReorderSample.interp.dmatrices FitSample.isnan none someRows .dataframe .exhausted ProgramSample.raw) = true ∧
    isOk (ReorderSample.interp.dmatrix FitSample.isnan none someRows .dataframe .exhausted ReorderSample.oneRaw) = true := by decide +kernel

end AloneSample

open AloneSample in
/-- Example for `text_right_side`: `x ~ center(x + center(x))` and `center(x + center(x))`.  In the example 99 stands for NaN
in the data, but is a number for `center`, so that only the left-hand side is missing in the second row. -/
example : Sane ReorderSample.interp ∧ FineText ReorderSample.interp .exhausted ProgramSample.raw ∧
    ReorderSample.interp.fromFormula .exhausted ProgramSample.raw = .ok model ∧
    ReorderSample.interp.fromFormula .exhausted ReorderSample.oneRaw = .ok ⟨[], model.rhs⟩ ∧
    ∃ t t', ReorderSample.interp.dmatrices FitSample.isnan none someRows .dataframe .exhausted ProgramSample.raw = .ok t ∧
      ReorderSample.interp.dmatrix FitSample.isnan none someRows .dataframe .exhausted ReorderSample.oneRaw = .ok t' ∧
      t'.mat = ⟨4, [[1, 1, 1, 1], [-52, 144, -48, -44]]⟩ ∧ t.2.mat = ⟨3, [[1, 1, 1], [-52, -48, -44]]⟩ :=
  ⟨ReorderSample.real.toSane, text_fine, models.1, models.2, getOk _ texts_ok.1, getOk _ texts_ok.2, getOk_eq _, getOk_eq _,
    by decide +kernel, by decide +kernel⟩

namespace AloneSample

open ProgramSample FitSample2

/-- The raw tokens of `x ~ x` and `x ~ x + center(x)`. -/
def smallRaw : List PyTok := [exPy .name "x" 0, exPy .op "~" 1, exPy .name "x" 2, exPy .newline "" 11, exPy .endmarker "" 12]

def largeRaw : List PyTok := [exPy .name "x" 0, exPy .op "~" 1, exPy .name "x" 2, exPy .op "+" 3, exPy .name "center" 4, exPy .op "(" 5,
  exPy .name "x" 6, exPy .op ")" 7, exPy .newline "" 11, exPy .endmarker "" 12]

theorem large_fine : FineText ReorderSample.interp .exhausted largeRaw :=
  ProgramSample.fine_body _ rfl rfl (body := largeRaw.take 8) rfl (by decide)
    (by unfold ProgramSample.AllExpressions; decide +kernel)

def shared : List (Term String) := [⟨[]⟩, ⟨["x"]⟩]

def added : List (Term String) := [⟨["center(x)"]⟩]

theorem nested_texts : ReorderSample.interp.fromFormula .exhausted smallRaw = .ok ⟨[⟨["x"]⟩], shared⟩ ∧
    ReorderSample.interp.fromFormula .exhausted largeRaw = .ok ⟨[⟨["x"]⟩], shared ++ added⟩ :=
  ⟨eq_ok_of_okIs (by decide +kernel), eq_ok_of_okIs (by decide +kernel)⟩

theorem nested_texts_ok : isOk (ReorderSample.interp.dmatrices FitSample.isnan none (colOf [1, 99, 3, 5]) .dataframe .exhausted smallRaw) = true ∧
    isOk (ReorderSample.interp.dmatrices FitSample.isnan none (colOf [1, 99, 3, 5]) .dataframe .exhausted largeRaw) = true := by
  decide +kernel

end AloneSample

open AloneSample in
/-- Example for `text_nested`: `x ~ x` and `x ~ x + center(x)`. -/
example : Sane ReorderSample.interp ∧ FineText ReorderSample.interp .exhausted largeRaw ∧
    ReorderSample.interp.fromFormula .exhausted smallRaw = .ok ⟨[⟨["x"]⟩], shared⟩ ∧
    ReorderSample.interp.fromFormula .exhausted largeRaw = .ok ⟨[⟨["x"]⟩], shared ++ added⟩ ∧
    ∃ t t', ReorderSample.interp.dmatrices FitSample.isnan none (colOf [1, 99, 3, 5]) .dataframe .exhausted smallRaw = .ok t ∧
      ReorderSample.interp.dmatrices FitSample.isnan none (colOf [1, 99, 3, 5]) .dataframe .exhausted largeRaw = .ok t' ∧
      Later (numericalIn t'.2.info) shared added ∧
      t.2.mat = ⟨3, [[1, 1, 1], [1, 3, 5]]⟩ ∧ t'.2.mat = ⟨3, [[1, 1, 1], [1, 3, 5], [-26, -24, -22]]⟩ ∧
      NestedTables none t t' := by
  have hl : Later (numericalIn (getOk _ nested_texts_ok.2).2.info) shared added := by unfold Later; decide +kernel
  exact ⟨ReorderSample.real.toSane, large_fine, nested_texts.1, nested_texts.2, getOk _ nested_texts_ok.1, getOk _ nested_texts_ok.2, getOk_eq _,
    getOk_eq _, hl, by decide +kernel, by decide +kernel,
    text_nested ReorderSample.real.toSane large_fine nested_texts.1 nested_texts.2 (getOk_eq _) (getOk_eq _) hl⟩

end Text

end Patsy.Props
