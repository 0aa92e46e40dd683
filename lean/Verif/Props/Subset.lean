import Verif.Lemmas.Subset
import Verif.Props.DesignInfo
import Verif.Props.Missing
import Mathlib.Data.List.Nodup

/-!
# Property C20: designs restricted to some of their terms
-/

set_option linter.unusedSectionVars false

namespace Patsy.Props

open Patsy.Build Patsy.Spec Patsy.Desc

variable {F D K : Type} [DecidableEq F]

/-- The column specification for an element of the argument of `subset`. -/
def specOf : TermSpec F → ColumnSpec F
  | .name n => .name n
  | .term t => .term t

/-- The columns selected by several slices, side by side. -/
def selectAll {A : Type} (slices : List Slice) (cols : List A) : List A :=
  slices.flatMap fun s => s.select cols

theorem forall₂_selectAll {A B : Type} {R : A → B → Prop} {l : List A} {m : List B}
    (h : List.Forall₂ R l m) (slices : List Slice) :
    List.Forall₂ R (selectAll slices l) (selectAll slices m) := by
  induction slices with
  | nil => exact .nil
  | cons s slices ih =>
    simp only [selectAll, List.flatMap_cons]
    rw [forall₂_append_iff (by
      have := (List.forall₂_drop s.start (List.forall₂_take s.stop h)).length_eq
      exact this.symm)]
    exact ⟨List.forall₂_drop _ (List.forall₂_take _ h), ih⟩

theorem prodFrom_congr [Mul K] {fis fis' : List (F × FactorInfo F D K)}
    {cms : List (F × ContrastMatrix K)} {cells cells' : F → Option (Cell K)} {fs : List F}
    (h : ∀ f ∈ fs, ∀ j, entryAt fis cms cells f j = entryAt fis' cms cells' f j) (x : K)
    (js : List Nat) : prodFrom fis cms cells x fs js = prodFrom fis' cms cells' x fs js := by
  induction fs generalizing x js with
  | nil => simp [prodFrom]
  | cons f fs ih =>
    cases js with
    | nil => simp [prodFrom]
    | cons j js =>
      simp only [prodFrom, h f (List.mem_cons_self ..)]
      congr 1
      funext y
      exact ih (fun g hg => h g (List.mem_cons_of_mem _ hg)) _ _

theorem mem_termBlock {fis : List (F × FactorInfo F D K)} {p : Term F × List (SubtermInfo F K)}
    {col : SubtermInfo F K × List Nat} (h : col ∈ termBlock fis p) : col.1 ∈ p.2 := by
  simp only [termBlock, columnsOfSts, List.mem_flatMap, List.mem_map] at h
  obtain ⟨st, h1, i, _, rfl⟩ := h
  exact h1

theorem slice_of_step {name : F → String} {names : List String} {c : Coding F D K}
    {d : DesignInfo F D K} (hd : GoodDesign name names c d) (hk : TermKeys c) {w : TermSpec F}
    {t : Term F} {sts : List (SubtermInfo F K)} {s : Slice} (h : Step c name w t sts s) :
    d.slice (specOf w) = .ok s := by
  obtain ⟨h1, h2, h3⟩ := h
  cases w with
  | term t' =>
    simp only at h3
    subst h3
    simp [specOf, DesignInfo.slice, hd.slices, h1]
  | name n =>
    simp only at h3
    have hnd : ((c.termCodings.map fun p => (termName name p.1, p.1)).map Prod.fst).Nodup := by
      rw [List.map_map]; exact hd.termNames
    rw [dictOf_eq hnd] at h3
    have hmem := dictGet_mem h3
    obtain ⟨k, hk'⟩ := List.getElem?_of_mem hmem
    rw [List.getElem?_map, Option.map_eq_some_iff] at hk'
    obtain ⟨p, hp, he⟩ := hk'
    simp only [Prod.mk.injEq] at he
    obtain ⟨rfl, rfl⟩ := he
    have hex := (columns_exact (make_good.mpr hd) hk).2.2.2.1 k p hp
    have h4 := hex.1 p.1 (by rw [Term.eqv_iff]; simp)
    simp only [DesignInfo.slice, hd.slices, h1, Except.ok.injEq] at h4
    simp only [specOf]
    rw [hex.2, ← h4]

/-- **C20**, the design.  The subset design consists of the selected columns of the full
design, in the requested order: the columns found by `slice` for the requested names or
terms.  Its factors are factors of the full design, and the entry of each of its columns in
any row is the entry of the same column of the full design. -/
theorem subset_columns [Mul K] [One K] {name : F → String} {names : List String}
    {c : Coding F D K} {d d' : DesignInfo F D K}
    (hd : DesignInfo.make name names (some c) = .ok d) (hk : TermKeys c)
    {which : List (TermSpec F)} (h : d.subset name which = .ok d') :
    ∃ slices c', List.Forall₂ (fun w s => d.slice (specOf w) = .ok s) which slices ∧
      DesignInfo.make name (selectAll slices names) (some c') = .ok d' ∧
      d'.columnNames = selectAll slices d.columnNames ∧
      (∀ fi ∈ factorsOf [c'], fi ∈ factorsOf [c]) ∧
      columnsOf c' = selectAll slices (columnsOf c) ∧
      ∀ col ∈ columnsOf c', ∀ V r,
        columnEntry c' (designCells c' V r) col = columnEntry c (designCells c V r) col := by
  have hg := make_good.mp hd
  simp only [DesignInfo.subset, hg.coding, hg.slices, bind_ok] at h
  obtain ⟨⟨names', fis', tcs'⟩, hloop, hmake⟩ := h
  simp only at hmake
  obtain ⟨steps, h1, h2, h3, h4⟩ := subsetLoop_spec hg
    (⟨by simp, by simp, by simp, by simp⟩ : Accs c names [] [] []) hloop
  simp only [List.nil_append] at h3
  have hg' := make_good.mp hmake
  have h5 := h4 hg'.nodup
  simp only [blocksOf, List.flatMap_nil, List.nil_append] at h5
  have hsl : steps.flatMap (fun q => q.2.2.select names) = selectAll (steps.map fun q => q.2.2) names := by
    simp [selectAll, List.flatMap_map]
  -- the factor dictionaries agree on the factors of the selected terms
  have hget : ∀ p ∈ tcs', ∀ st ∈ p.2, ∀ f ∈ st.factors,
      dictGet fis' f = dictGet c.factorInfos f := by
    intro p hp st hst f hf
    have hfp := hg'.valid.sub p hp st hst f hf
    have hkey : f ∈ fis'.map Prod.fst := (h2.keys f).mpr ⟨p, hp, hfp⟩
    cases hdg : dictGet fis' f with
    | none =>
      exfalso
      have := dictGet_isSome.mpr hkey
      rw [hdg] at this; simp at this
    | some fi => exact (h2.info (f, fi) (dictGet_mem hdg)).symm
  have hblk : ∀ p ∈ tcs', termBlock fis' p = termBlock c.factorInfos p := by
    intro p hp
    simp only [termBlock, columnsOfSts]
    have key : ∀ l : List (SubtermInfo F K), (∀ st ∈ l, st ∈ p.2) →
        (l.flatMap fun st => (List.range st.numColumns).map fun i => (st, digits (widths fis' st) i)) =
        l.flatMap fun st => (List.range st.numColumns).map fun i =>
          (st, digits (widths c.factorInfos st) i) := by
      intro l
      induction l with
      | nil => intro _; rfl
      | cons st l ih =>
        intro hsub
        simp only [List.flatMap_cons]
        rw [ih fun st hst => hsub st (List.mem_cons_of_mem _ hst)]
        have : widths fis' st = widths c.factorInfos st := by
          simp only [widths]
          apply List.map_congr_left
          intro f hf
          simp only [widthOf, hget p hp st (hsub st (List.mem_cons_self ..)) f hf]
        rw [this]
    exact key p.2 (fun st hst => hst)
  have hcols : columnsOf (⟨fis', tcs'⟩ : Coding F D K) =
      selectAll (steps.map fun q => q.2.2) (columnsOf c) := by
    rw [columnsOf_blocks]
    simp only
    have : tcs'.flatMap (termBlock fis') = tcs'.flatMap (termBlock c.factorInfos) := by
      have key : ∀ l : List (Term F × List (SubtermInfo F K)), (∀ p ∈ l, p ∈ tcs') →
          l.flatMap (termBlock fis') = l.flatMap (termBlock c.factorInfos) := by
        intro l
        induction l with
        | nil => intro _; rfl
        | cons p l ih =>
          intro hsub
          simp only [List.flatMap_cons]
          rw [ih fun p hp => hsub p (List.mem_cons_of_mem _ hp),
            hblk p (hsub p (List.mem_cons_self ..))]
      exact key tcs' fun p hp => hp
    rw [this, h5]
    simp only [selectAll, List.flatMap_map]
    have key : ∀ (l : List (Term F × List (SubtermInfo F K) × Slice)),
        (∀ q ∈ l, termGet (layout 0 (c.termCodings.map fun p => (p.1, termColumns p.2))) q.1 = some q.2.2 ∧
          termGet c.termCodings q.1 = some q.2.1) →
        (l.flatMap fun q => termBlock c.factorInfos (q.1, q.2.1)) =
        l.flatMap fun q => q.2.2.select (columnsOf c) := by
      intro l
      induction l with
      | nil => intro _; rfl
      | cons q l ih =>
        intro hq
        simp only [List.flatMap_cons]
        rw [ih fun q hq' => hq q (List.mem_cons_of_mem _ hq')]
        congr 1
        obtain ⟨h6, h7⟩ := hq q (List.mem_cons_self ..)
        obtain ⟨k, p, h8, _, h9, h10⟩ := termGet_layout h6
        rw [h7] at h9
        simp only [Option.some.injEq] at h9
        have hb := select_block (termBlock c.factorInfos) h8
        simp only [termBlock_length] at hb
        rw [h10, columnsOf_blocks, hb]
        simp only [termBlock, h9]
    apply key
    intro q hq
    obtain ⟨i, hi, rfl⟩ := List.getElem_of_mem hq
    have hl := h1.length_eq
    have := List.Forall₂.get h1 (i := i) (by omega) hi
    exact ⟨this.slice, this.coding⟩
  refine ⟨steps.map fun q => q.2.2, ⟨fis', tcs'⟩, ?_, ?_, ?_, ?_, hcols, ?_⟩
  · rw [List.forall₂_map_right_iff]
    exact h1.imp fun w q hstep => slice_of_step hg hk hstep
  · rw [← hsl, ← h3]; exact hmake
  · rw [(columns_exact hd hk).1, ← hsl, ← h3]
    simp [DesignInfo.columnNames, hg'.indexes, zip_range_keys]
  · intro fi hfi
    simp only [factorsOf, List.flatMap_cons, List.flatMap_nil, List.append_nil, List.mem_map] at hfi ⊢
    obtain ⟨p, hp, rfl⟩ := hfi
    exact ⟨_, dictGet_mem (h2.info p hp), rfl⟩
  · intro col hcol V r
    rw [columnsOf_blocks] at hcol
    obtain ⟨p, hp, hcol⟩ := List.mem_flatMap.mp hcol
    have hst := mem_termBlock hcol
    unfold columnEntry
    apply prodFrom_congr
    intro f hf j
    simp only [entryAt, designCells, hget p hp col.1 hst f hf]

theorem isMatrix_unique [Mul K] [One K] {c : Coding F D K} {rows : List (F → Option (Cell K))}
    {cols cols' : List (List K)} (h : IsMatrix c rows cols) (h' : IsMatrix c rows cols') :
    cols = cols' := by
  unfold IsMatrix at h h'
  generalize columnsOf c = cc at h h'
  induction h generalizing cols' with
  | nil => cases h'; rfl
  | cons h1 _ ih =>
    cases h' with
    | cons h2 h3 =>
      rw [ih h3]
      rw [h1] at h2
      simp only [Option.some.injEq] at h2
      rw [h2]

theorem subset_isMatrix [Mul K] [One K] {c c' : Coding F D K} {slices : List Slice}
    (hcols : columnsOf c' = selectAll slices (columnsOf c))
    (hent : ∀ col ∈ columnsOf c', ∀ V r,
        columnEntry c' (designCells c' V r) col = columnEntry c (designCells c V r) col)
    {V : FactorInfo F D K → Value K} {kept : List Nat} {cols : List (List K)}
    (h : IsMatrix c (kept.map (designCells c V)) cols) :
    IsMatrix c' (kept.map (designCells c' V)) (selectAll slices cols) := by
  unfold IsMatrix at h ⊢
  have h1 := forall₂_selectAll h slices
  rw [← hcols] at h1
  refine (forall₂_congr_mem ?_).mp h1
  intro col hcol vals
  rw [List.mapM_map, List.mapM_map]
  have : ((fun cells => columnEntry c cells col) ∘ designCells c V) =
      ((fun cells => columnEntry c' cells col) ∘ designCells c' V) := by
    funext r
    exact (hent col hcol V r).symm
  rw [this]

/-- **C20**, built together.  Building the full design and the subset design in one call
succeeds exactly if building the full design does; the matrix of the subset then consists
of the selected columns of the full matrix, on the same rows. -/
theorem subset_built_together [Mul K] [One K] {isnan : K → Bool} {na : NAAction} {frame : Bool}
    {dataIndex : Option (List Label)} {data : D} {name : F → String} {names : List String}
    {c : Coding F D K} {d d' : DesignInfo F D K}
    (hd : DesignInfo.make name names (some c) = .ok d) (hk : TermKeys c)
    (hid : SameIdentity (factorsOf [c])) (hfit : IndexFits na.types (factorsOf [c]) data)
    {which : List (TermSpec F)} (h : d.subset name which = .ok d') :
    ∃ slices, List.Forall₂ (fun w s => d.slice (specOf w) = .ok s) which slices ∧
      ∀ b, buildDesignMatrices isnan na frame dataIndex [d, d'] data = .ok b ↔
        ∃ m i, buildDesignMatrices isnan na frame dataIndex [d] data = .ok ⟨[m], i⟩ ∧
          b = ⟨[m, ⟨m.nrows, selectAll slices m.cols⟩], i⟩ := by
  obtain ⟨slices, c', h1, h2, _, hsub, hcols, hent⟩ := subset_columns hd hk h
  refine ⟨slices, h1, ?_⟩
  intro b
  have hmem : ∀ fi, fi ∈ factorsOf [c, c'] ↔ fi ∈ factorsOf [c] := by
    intro fi
    have : factorsOf [c, c'] = factorsOf [c] ++ factorsOf [c'] := by simp [factorsOf]
    rw [this, List.mem_append]
    exact ⟨fun h => h.elim id (hsub fi), .inl⟩
  have hid2 : SameIdentity (factorsOf [c, c']) := by
    intro a ha b hb
    exact hid a ((hmem a).mp ha) b ((hmem b).mp hb)
  have hfit2 : IndexFits na.types (factorsOf [c, c']) data := by
    intro a ha
    exact hfit a ((hmem a).mp ha)
  have hev : ∀ V n idx, Evaluation na.types (factorsOf [c, c']) dataIndex data V n idx ↔
      Evaluation na.types (factorsOf [c]) dataIndex data V n idx := by
    intro V n idx
    have hnil : factorsOf [c, c'] = [] ↔ factorsOf [c] = [] := by
      simp only [List.eq_nil_iff_forall_not_mem, hmem]
    constructor
    · intro e
      exact ⟨fun fi hf => e.value fi ((hmem fi).mpr hf), fun fi hf => e.kind fi ((hmem fi).mpr hf),
        fun fi hf => e.rows fi ((hmem fi).mpr hf), e.frame, e.length,
        fun h1 h2 => e.default h1 fun fi hf => h2 fi ((hmem fi).mp hf), fun h1 => e.known (hnil.mpr h1)⟩
    · intro e
      exact ⟨fun fi hf => e.value fi ((hmem fi).mp hf), fun fi hf => e.kind fi ((hmem fi).mp hf),
        fun fi hf => e.rows fi ((hmem fi).mp hf), e.frame, e.length,
        fun h1 h2 => e.default h1 fun fi hf => h2 fi ((hmem fi).mpr hf), fun h1 => e.known (hnil.mp h1)⟩
  have hcomp : ∀ V n, completeRows na isnan (factorsOf [c, c']) V n =
      completeRows na isnan (factorsOf [c]) V n := by
    intro V n
    apply List.filter_congr
    intro r _
    rw [Bool.eq_iff_iff]
    simp only [complete, List.all_eq_true, hmem]
  have hde : IsDesign d c := ⟨_, _, hd⟩
  have hde' : IsDesign d' c' := ⟨_, _, h2⟩
  rw [build_iff (by simp) (.cons hde (.cons hde' .nil)) hid2 hfit2]
  simp only [hev, hcomp]
  constructor
  · rintro ⟨V, n, idx, e1, e2, e3, e4⟩
    obtain ⟨mats, i⟩ := b
    simp only at e3 e4
    cases e3 with
    | @cons _ m _ l hm hl =>
      cases hl with
      | @cons _ m' _ l' hm' hl' =>
        cases hl'
        refine ⟨m, i, ?_, ?_⟩
        · rw [build_iff (by simp) (.cons hde .nil) hid hfit]
          exact ⟨V, n, idx, e1, e2, .cons hm .nil, e4⟩
        · congr 2
          obtain ⟨nr, cs⟩ := m'
          obtain ⟨hm1, hm2⟩ := hm'
          simp only at hm1 hm2
          have := isMatrix_unique hm2 (subset_isMatrix hcols hent hm.2)
          rw [this, hm1, hm.1]
  · rintro ⟨m, i, hb, rfl⟩
    rw [build_iff (by simp) (.cons hde .nil) hid hfit] at hb
    obtain ⟨V, n, idx, e1, e2, e3, e4⟩ := hb
    cases e3 with
    | cons hm _ =>
      exact ⟨V, n, idx, e1, e2, .cons hm (.cons ⟨hm.1, subset_isMatrix hcols hent hm.2⟩ .nil), e4⟩

/-- **C20**, built alone.  If the full design can be built and every row that it drops has a
missing value in a factor of the selected terms (in particular, if nothing is missing),
then the subset design can be built by itself (provided the number of rows is known: it
has factors, or the data is a data frame) and consists of the selected columns. -/
theorem subset_built_alone [Mul K] [One K] {isnan : K → Bool} {na : NAAction} {frame : Bool}
    {dataIndex : Option (List Label)} {data : D} {name : F → String} {names : List String}
    {c : Coding F D K} {d d' : DesignInfo F D K}
    (hd : DesignInfo.make name names (some c) = .ok d) (hk : TermKeys c)
    (hid : SameIdentity (factorsOf [c])) (hfit : IndexFits na.types (factorsOf [c]) data)
    {which : List (TermSpec F)} (h : d.subset name which = .ok d') {m : Mat K}
    {i : Option (List Label)}
    (hb : buildDesignMatrices isnan na frame dataIndex [d] data = .ok ⟨[m], i⟩) :
    ∃ slices c', List.Forall₂ (fun w s => d.slice (specOf w) = .ok s) which slices ∧
      IsDesign d' c' ∧
      ((factorsOf [c'] = [] → dataIndex ≠ none) →
        (∀ r, ∀ fi ∈ factorsOf [c], ∀ v i cell, fi.eval na.types data = .ok (v, i) → cellOf v r = some cell →
          cellMissing na isnan cell = true → ∃ fi' ∈ factorsOf [c'], ∃ v' i' cell',
            fi'.eval na.types data = .ok (v', i') ∧ cellOf v' r = some cell' ∧
            cellMissing na isnan cell' = true) →
        ∃ i', buildDesignMatrices isnan na frame dataIndex [d'] data =
            .ok ⟨[⟨m.nrows, selectAll slices m.cols⟩], i'⟩ ∧
          (dataIndex ≠ none → i' = i)) := by
  obtain ⟨slices, c', h1, h2, _, hsub, hcols, hent⟩ := subset_columns hd hk h
  have hde : IsDesign d c := ⟨_, _, hd⟩
  have hde' : IsDesign d' c' := ⟨_, _, h2⟩
  refine ⟨slices, c', h1, hde', ?_⟩
  intro hknown hmiss
  rw [build_iff (by simp) (.cons hde .nil) hid hfit] at hb
  obtain ⟨V, n, idx, e1, e2, e3, e4⟩ := hb
  have hcomp : completeRows na isnan (factorsOf [c']) V n = completeRows na isnan (factorsOf [c]) V n := by
    apply List.filter_congr
    intro r _
    rw [Bool.eq_iff_iff]
    simp only [complete, List.all_eq_true, Option.all_eq_true, Bool.not_eq_true']
    constructor
    · intro h3 fi hf cell hcell
      obtain ⟨i, h4, _⟩ := e1.value fi hf
      cases hm : cellMissing na isnan cell with
      | false => rfl
      | true =>
        obtain ⟨fi', hf', v', i', cell', h5, h6, h7⟩ := hmiss r fi hf _ i cell h4 hcell hm
        obtain ⟨i2, h8, _⟩ := e1.value fi' (hsub fi' hf')
        rw [h5] at h8
        simp only [Except.ok.injEq, Prod.mk.injEq] at h8
        rw [h3 fi' hf' cell' (by rw [← h8.1]; exact h6)] at h7
        simp at h7
    · intro h3 fi hf
      exact h3 fi (hsub fi hf)
  simp only at e3 e4
  cases e3 with
  | cons hm _ =>
  -- the labels: those of the full design if any are known
  by_cases hlab : dataIndex = none ∧ ∀ fi ∈ factorsOf [c'], ∀ v l, fi.eval na.types data ≠ .ok (v, some l)
  · refine ⟨if frame then some ((completeRows na isnan (factorsOf [c']) V n).filterMap
      fun r => ((List.range n).map Label.row)[r]?) else none, ?_, fun h => absurd hlab.1 h⟩
    rw [build_iff (by simp) (.cons hde' .nil) (fun a ha b hb => hid a (hsub a ha) b (hsub b hb))
      (fun a ha => hfit a (hsub a ha))]
    refine ⟨V, n, (List.range n).map Label.row, ?_, by rw [hcomp]; exact e2, ?_, rfl⟩
    · refine ⟨?_, fun fi hf => e1.kind fi (hsub fi hf), fun fi hf => e1.rows fi (hsub fi hf), ?_,
        by simp, fun _ _ => rfl, hknown⟩
      · intro fi hf
        obtain ⟨i, h4, h5⟩ := e1.value fi (hsub fi hf)
        refine ⟨i, h4, ?_⟩
        rintro l rfl
        exact absurd h4 (hlab.2 fi hf _ _)
      · intro l hl; rw [hlab.1] at hl; simp at hl
    · rw [hcomp]
      exact .cons ⟨hm.1, subset_isMatrix hcols hent hm.2⟩ .nil
  · refine ⟨i, ?_, fun _ => rfl⟩
    rw [build_iff (by simp) (.cons hde' .nil) (fun a ha b hb => hid a (hsub a ha) b (hsub b hb))
      (fun a ha => hfit a (hsub a ha))]
    refine ⟨V, n, idx, ?_, by rw [hcomp]; exact e2, ?_, by rw [hcomp]; exact e4⟩
    · refine ⟨fun fi hf => e1.value fi (hsub fi hf), fun fi hf => e1.kind fi (hsub fi hf),
        fun fi hf => e1.rows fi (hsub fi hf), e1.frame, e1.length, ?_, hknown⟩
      intro h3 h4
      exact absurd ⟨h3, h4⟩ hlab
    · rw [hcomp]
      exact .cons ⟨hm.1, subset_isMatrix hcols hent hm.2⟩ .nil

/-- The sample right-hand side restricted to two of its terms, in another order. -/
def sampleSubset : Except Err (DesignInfo String Sample.Data Int) :=
  Sample.rightDesign.subset id [.name "a:x", .term ⟨[]⟩]

/-- Example: the sample design satisfies the hypotheses; the subset design builds columns
3, 4, 5, 0 of the full matrix. -/
example : isOk sampleSubset = true ∧ TermKeys Sample.right ∧
    SameIdentity (factorsOf [Sample.right]) ∧ IndexFits ({} : NAAction).types (factorsOf [Sample.right]) Sample.data ∧
    (∃ d', sampleSubset = .ok d' ∧ d'.columnNames = ["a[a1]:x", "a[a2]:x", "a[a3]:x", "Intercept"]) ∧
    buildDesignMatrices Sample.isnan {} false none [Sample.rightDesign] Sample.data =
      .ok ⟨[⟨4, [[1, 1, 1, 1], [0, 0, 0, 1], [0, 1, 0, 0], [2, 0, 5, 0], [0, 0, 0, 6], [0, 3, 0, 0]]⟩], none⟩ ∧
    (∀ h, buildDesignMatrices Sample.isnan {} false none [getOk sampleSubset h] Sample.data =
      .ok ⟨[⟨4, [[2, 0, 5, 0], [0, 0, 0, 6], [0, 3, 0, 0], [1, 1, 1, 1]]⟩], none⟩) := by
  have hs : isOk sampleSubset = true := by decide +kernel
  refine ⟨hs, by simp [TermKeys, Sample.right, Term.eqv], ?_, ?_,
    ⟨getOk sampleSubset (by decide +kernel), getOk_eq hs, by decide +kernel⟩,
    eq_ok_of_okIs (by decide +kernel), fun h => ?_⟩
  rotate_left 2
  · have : ∀ h, okIs (buildDesignMatrices Sample.isnan {} false none [getOk sampleSubset h] Sample.data)
        ⟨[⟨4, [[2, 0, 5, 0], [0, 0, 0, 6], [0, 3, 0, 0], [1, 1, 1, 1]]⟩], none⟩ = true := by
      intro h
      revert h
      decide +kernel
    exact eq_ok_of_okIs (this h)
  · intro a ha b hb
    exact Sample.sameIdentity a (by simp_all [factorsOf]) b (by simp_all [factorsOf])
  · intro a ha
    exact Sample.indexFits _ _ a (by simp_all [factorsOf])

/-! ### Every selection of distinct terms is accepted -/

theorem expectedColumns_congr {fis fis' : List (F × FactorInfo F D K)}
    {cms : List (F × ContrastMatrix K)} {fs : List F}
    (h : ∀ f ∈ fs, dictGet fis f = dictGet fis' f) :
    expectedColumns fis cms fs = expectedColumns fis' cms fs := by
  induction fs with
  | nil => rfl
  | cons f fs ih =>
    simp only [expectedColumns, h f (List.mem_cons_self ..),
      ih fun g hg => h g (List.mem_cons_of_mem _ hg)]

theorem select_nodup {A : Type} {s : Slice} {l : List A} (h : l.Nodup) : (s.select l).Nodup :=
  ((List.drop_sublist _ _).trans (List.take_sublist _ _)).nodup h

theorem mem_select {A : Type} {s : Slice} {l : List A} {a : A} :
    a ∈ s.select l ↔ ∃ i, s.start ≤ i ∧ i < s.stop ∧ l[i]? = some a := by
  simp only [Slice.select, List.mem_iff_getElem?, List.getElem?_drop, List.getElem?_take]
  constructor
  · rintro ⟨i, hi⟩
    split at hi
    · exact ⟨s.start + i, by omega, by omega, hi⟩
    · simp at hi
  · rintro ⟨i, h1, h2, h3⟩
    refine ⟨i - s.start, ?_⟩
    rw [if_pos (by omega), show s.start + (i - s.start) = i by omega]
    exact h3

theorem before_mono {c : Coding F D K} {k l : Nat} {p : Term F × List (SubtermInfo F K)}
    (hk : c.termCodings[k]? = some p) (hkl : k < l) : before c k + width p ≤ before c l := by
  obtain ⟨j, rfl⟩ : ∃ j, l = k + 1 + j := ⟨l - (k + 1), by omega⟩
  simp only [before]
  rw [List.take_add, List.map_append, List.sum_append, List.take_add_one, hk]
  simp

/-- `w` denotes the term of `p`, by its name or by itself. -/
def Denotes (name : F → String) (w : TermSpec F) (p : Term F × List (SubtermInfo F K)) : Prop :=
  w = .name (termName name p.1) ∨ w = .term p.1

theorem foldlM_factors_ok {c : Coding F D K} {fs : List F}
    (h : ∀ f ∈ fs, ∃ fi, dictGet c.factorInfos f = some fi) (acc : List (F × FactorInfo F D K)) :
    ∃ out, fs.foldlM (fun acc f => do
      let fi ← orKeyError (dictGet c.factorInfos f)
      .ok (dictSet (fun a b => decide (a = b)) acc f fi)) acc = Except.ok (ε := Err) out := by
  induction fs generalizing acc with
  | nil => exact ⟨acc, rfl⟩
  | cons f fs ih =>
    obtain ⟨fi, hfi⟩ := h f (List.mem_cons_self ..)
    obtain ⟨out, ho⟩ := ih (fun g hg => h g (List.mem_cons_of_mem _ hg))
      (dictSet (fun a b => decide (a = b)) acc f fi)
    refine ⟨out, ?_⟩
    rw [List.foldlM_cons]
    simp only [hfi, orKeyError, bind, Except.bind]
    exact ho

/-- **C20**, totality.  Every selection of distinct terms of a design, by name or by term,
in any order, is accepted; the terms of the result are the selected ones with their codings
unchanged. -/
theorem subset_total {name : F → String} {names : List String} {c : Coding F D K}
    {d : DesignInfo F D K} (hd : DesignInfo.make name names (some c) = .ok d) (hk : TermKeys c)
    {which : List (TermSpec F)} {sel : List (Term F × List (SubtermInfo F K))}
    (hw : List.Forall₂ (Denotes name) which sel) (hsel : ∀ p ∈ sel, p ∈ c.termCodings)
    (hn : sel.Nodup) :
    ∃ d' fis', d.subset name which = .ok d' ∧ d'.coding = some ⟨fis', sel⟩ := by
  have hg := make_good.mp hd
  have hex := columns_exact hd hk
  -- position, slice and coding of each selected term
  have hpos : ∀ p ∈ c.termCodings, ∃ k, c.termCodings[k]? = some p ∧
      termGet (layout 0 (c.termCodings.map fun p => (p.1, termColumns p.2))) p.1 =
        some ⟨before c k, before c k + width p⟩ ∧ termGet c.termCodings p.1 = some p.2 ∧
      ∀ w, Denotes name w p → resolveTerm name c w = .ok p.1 := by
    intro p hp
    obtain ⟨k, hkp⟩ := List.getElem?_of_mem hp
    have hself : Term.eqv p.1 p.1 = true := by rw [Term.eqv_iff]; simp
    refine ⟨k, hkp, ?_, termGet_of_pairwise hk hkp hself, ?_⟩
    · have h1 := (hex.2.2.2.1 k p hkp).1 p.1 hself
      simp only [DesignInfo.slice, hg.slices] at h1
      split at h1
      · rename_i s hs; rw [hs]; simpa using h1
      · simp at h1
    · rintro w (rfl | rfl)
      · simp only [resolveTerm, orKeyError_ok]
        have hnd : ((c.termCodings.map fun p => (termName name p.1, p.1)).map Prod.fst).Nodup := by
          rw [List.map_map]; exact hg.termNames
        rw [dictOf_eq hnd]
        exact dictGet_of_nodup hnd (k := k) (p := (termName name p.1, p.1)) (by simp [hkp])
      · rfl
  have hdist : ∀ p ∈ c.termCodings, ∀ q ∈ c.termCodings, p ≠ q → Term.eqv p.1 q.1 = false := by
    intro p hp q hq hne
    refine List.Pairwise.forall_of_forall_of_flip (R := fun p q => p ≠ q → Term.eqv p.1 q.1 = false)
      ?_ ?_ ?_ hp hq hne
    · intro x _ h; exact absurd rfl h
    · exact List.Pairwise.imp (fun {a b} h (_ : a ≠ b) => h) hk
    · refine hk.imp ?_
      intro a b h _
      rw [Bool.eq_false_iff] at h ⊢
      intro hba
      apply h
      rw [Term.eqv_iff] at hba ⊢
      exact fun f => (hba f).symm
  choose! pos hp1 hp2 hp3 hp4 using hpos
  let nm := fun p => (Slice.mk (before c (pos p)) (before c (pos p) + width p)).select names
  have hfac : ∀ p ∈ c.termCodings, ∀ f ∈ p.1.factors, ∃ fi, dictGet c.factorInfos f = some fi := by
    intro p hp f hf
    have := (hg.valid.same f).mp (List.mem_flatMap.mpr ⟨p, hp, hf⟩)
    exact Option.isSome_iff_exists.mp (dictGet_isSome.mpr this)
  -- the loop
  have hloop : ∀ (which : List (TermSpec F)) (sel : List (Term F × List (SubtermInfo F K))),
      List.Forall₂ (Denotes name) which sel → (∀ p ∈ sel, p ∈ c.termCodings) → sel.Nodup →
      ∀ names0 fis0 (tcs0 : List (Term F × List (SubtermInfo F K))),
      (∀ p ∈ tcs0, p ∈ c.termCodings ∧ p ∉ sel) →
      ∃ fis', subsetLoop name d c (layout 0 (c.termCodings.map fun p => (p.1, termColumns p.2)))
        which names0 fis0 tcs0 = .ok (names0 ++ sel.flatMap nm, fis', tcs0 ++ sel) := by
    intro which sel hw
    induction hw with
    | nil => intro _ _ names0 fis0 tcs0 _; exact ⟨fis0, by simp [subsetLoop]⟩
    | @cons w p which sel hwp _ ih =>
      intro hsel hn names0 fis0 tcs0 htcs
      rw [List.nodup_cons] at hn
      have hp := hsel p (List.mem_cons_self ..)
      obtain ⟨newFis, hnew⟩ := foldlM_factors_ok (hfac p hp) fis0
      have hset : dictSet Term.eqv tcs0 p.1 p.2 = tcs0 ++ [p] := by
        have : ∀ l : List (Term F × List (SubtermInfo F K)), (∀ q ∈ l, Term.eqv q.1 p.1 = false) →
            dictSet Term.eqv l p.1 p.2 = l ++ [p] := by
          intro l
          induction l with
          | nil => intro _; simp [dictSet]
          | cons q l ih =>
            intro h
            simp only [dictSet, h q (List.mem_cons_self ..), Bool.false_eq_true, if_false,
              ih fun r hr => h r (List.mem_cons_of_mem _ hr), List.cons_append]
        apply this
        intro q hq
        obtain ⟨h1, h2⟩ := htcs q hq
        refine hdist q h1 p hp ?_
        rintro rfl
        exact h2 (List.mem_cons_self ..)
      obtain ⟨fis', hf⟩ := ih (fun q hq => hsel q (List.mem_cons_of_mem _ hq)) hn.2
        (names0 ++ nm p) newFis (tcs0 ++ [p]) (by
          intro q hq
          rcases List.mem_append.mp hq with hq | hq
          · exact ⟨(htcs q hq).1, fun h => (htcs q hq).2 (List.mem_cons_of_mem _ h)⟩
          · simp only [List.mem_singleton] at hq
            subst hq
            exact ⟨hp, hn.1⟩)
      refine ⟨fis', ?_⟩
      have hcn : d.columnNames = names := hex.1
      simp only [subsetLoop, hp4 p hp w hwp, hp2 p hp, hp3 p hp, orKeyError, bind, Except.bind]
      simp only [orKeyError, bind, Except.bind] at hnew
      simp only [hnew, hset, hcn]
      rw [hf]
      simp
  obtain ⟨fis', hl⟩ := hloop which sel hw hsel hn [] [] [] (by simp)
  simp only [List.nil_append] at hl
  obtain ⟨_, _, hacc, _, _⟩ := subsetLoop_spec hg
    (⟨by simp, by simp, by simp, by simp⟩ : Accs c names [] [] []) hl
  simp only at hacc
  have hget : ∀ p ∈ sel, ∀ f ∈ p.1.factors, dictGet fis' f = dictGet c.factorInfos f := by
    intro p hp f hf
    have hkey : f ∈ fis'.map Prod.fst := (hacc.keys f).mpr ⟨p, hp, hf⟩
    cases hdg : dictGet fis' f with
    | none =>
      exfalso
      have := dictGet_isSome.mpr hkey
      rw [hdg] at this; simp at this
    | some fi => exact (hacc.info (f, fi) (dictGet_mem hdg)).symm
  have hle : ∀ p ∈ c.termCodings, before c (pos p) + width p ≤ names.length := by
    intro p hp
    rw [← hex.2.2.1]
    apply before_mono (hp1 p hp)
    by_contra hge
    have := hp1 p hp
    rw [List.getElem?_eq_none (by omega)] at this
    simp at this
  have hlen : ∀ p ∈ c.termCodings, (nm p).length = width p := by
    intro p hp
    have := hle p hp
    simp only [nm, Slice.select, List.length_drop, List.length_take]
    omega
  have hnd : (sel.flatMap nm).Nodup := by
    rw [List.nodup_flatMap]
    refine ⟨fun p _ => select_nodup hg.nodup, ?_⟩
    have : sel.Pairwise fun p q => p ∈ c.termCodings ∧ q ∈ c.termCodings ∧ p ≠ q := by
      have h1 : sel.Pairwise fun p q => p ∈ sel ∧ q ∈ sel ∧ p ≠ q := List.Pairwise.and_mem.mp hn
      exact h1.imp fun ⟨a, b, e⟩ => ⟨hsel _ a, hsel _ b, e⟩
    refine this.imp ?_
    rintro p q ⟨hp, hq, hne⟩ a ha hb
    obtain ⟨i, hi1, hi2, hi3⟩ := mem_select.mp ha
    obtain ⟨j, hj1, hj2, hj3⟩ := mem_select.mp hb
    simp only at hi1 hi2 hj1 hj2
    have hij : i = j := by
      have hil : i < names.length := by
        by_contra hge
        rw [List.getElem?_eq_none (by omega)] at hi3
        simp at hi3
      exact (List.getElem?_inj hil hg.nodup).mp (hi3.trans hj3.symm)
    subst hij
    rcases Nat.lt_trichotomy (pos p) (pos q) with hlt | heq | hlt
    · have := before_mono (hp1 p hp) hlt; omega
    · have h1 := hp1 p hp
      rw [heq, hp1 q hq] at h1
      exact hne (by simpa using h1.symm)
    · have := before_mono (hp1 q hq) hlt; omega
  have htn : (sel.map fun p => termName name p.1).Nodup := by
    refine (List.nodup_map_iff_inj_on hn).mpr ?_
    intro p hp q hq he
    exact List.inj_on_of_nodup_map hg.termNames (hsel p hp) (hsel q hq) he
  have htot : (sel.map fun p => termColumns p.2).sum = (sel.flatMap nm).length := by
    rw [List.length_flatMap]
    congr 1
    apply List.map_congr_left
    intro p hp
    exact (hlen p (hsel p hp)).symm
  let ns := layout 0 (sel.map fun p => (termName name p.1, termColumns p.2))
  have hgood : GoodDesign name (sel.flatMap nm) ⟨fis', sel⟩
      ⟨(sel.flatMap nm).zip (List.range (sel.flatMap nm).length), some ⟨fis', sel⟩,
        some (layout 0 (sel.map fun p => (p.1, termColumns p.2))), ns⟩ := by
    refine ⟨rfl, ⟨?_, ?_, ?_, ?_⟩, rfl, hnd, rfl, rfl, htn, htot, ?_⟩
    · intro p hp
      exact hg.valid.sub p (hsel p hp)
    · intro f
      rw [hacc.keys, List.mem_flatMap]
    · intro p hp
      exact hg.valid.keys (p.1, p.2) (dictGet_mem (hacc.info p hp))
    · intro p hp st hst
      have h1 := hg.valid.subterms p (hsel p hp) st hst
      unfold checkSubterm at h1 ⊢
      rw [expectedColumns_congr (fis' := c.factorInfos)]
      · exact h1
      · intro f hf
        exact hget p hp f (hg.valid.sub p (hsel p hp) st hst f hf)
    · -- a column with the name of a term
      intro i n hi s hs
      simp only at hs
      have hmem := dictGet_mem hs
      obtain ⟨j, hj⟩ := List.getElem?_of_mem hmem
      have hjl : j < sel.length := by
        by_contra hge
        rw [List.getElem?_eq_none (by simp [ns, layout_length]; omega)] at hj
        simp at hj
      have hlj : (sel.map fun p => (termName name p.1, termColumns p.2))[j]? =
          some (termName name sel[j].1, termColumns sel[j].2) := by
        simp [List.getElem?_eq_getElem hjl]
      rw [layout_getElem? hlj] at hj
      simp only [Option.some.injEq, Prod.mk.injEq, Nat.zero_add] at hj
      obtain ⟨hname, hslice⟩ := hj
      have hq := List.getElem_mem hjl
      have hqc := hsel _ hq
      -- in the full design, the term named `n` is the column `n`
      obtain ⟨q, hqs, hqn⟩ : ∃ q ∈ sel, n ∈ nm q := by
        have := List.mem_of_getElem? hi
        simpa [List.mem_flatMap] using this
      obtain ⟨i0, _, _, hi0⟩ := mem_select.mp hqn
      have hcol := hex.2.2.2.2 i0 n hi0
      have hterm := (hex.2.2.2.1 _ _ (hp1 _ hqc)).2
      rw [hname, hcol] at hterm
      simp only [Except.ok.injEq, Slice.mk.injEq] at hterm
      have hnmj : nm sel[j] = [n] := by
        have h1 := hlen _ hqc
        have h2 : n ∈ nm sel[j] := mem_select.mpr ⟨i0, by simp only; omega, by simp only; omega, hi0⟩
        have h3 : (nm sel[j]).length = 1 := by omega
        obtain ⟨a, ha⟩ := List.length_eq_one_iff.mp h3
        rw [ha] at h2 ⊢
        simp at h2; rw [h2]
      have hw1 : termColumns sel[j].2 = 1 := by
        have h1 := hlen _ hqc
        rw [hnmj] at h1
        exact h1.symm
      have hb := select_block nm (List.getElem?_eq_getElem hjl)
      have hsum : ((sel.take j).map fun a => (nm a).length).sum =
          (((sel.map fun p => (termName name p.1, termColumns p.2)).take j).map Prod.snd).sum := by
        rw [← List.map_take, List.map_map]
        congr 1
        apply List.map_congr_left
        intro p hp
        exact hlen p (hsel p (List.mem_of_mem_take hp))
      rw [hsum, hnmj] at hb
      have hmem2 : n ∈ [n] := List.mem_singleton.mpr rfl
      rw [← hb] at hmem2
      obtain ⟨i1, hi1, hi2, hi3⟩ := mem_select.mp hmem2
      simp only [List.length_singleton] at hi1 hi2
      have hii : i = i1 := by
        have hil : i < (sel.flatMap nm).length := by
          by_contra hge
          rw [List.getElem?_eq_none (by omega)] at hi
          simp at hi
        exact (List.getElem?_inj hil hnd).mp (hi.trans hi3.symm)
      rw [← hslice, hw1]
      simp only [Slice.mk.injEq]
      omega
  refine ⟨_, fis', ?_, hgood.coding⟩
  simp only [DesignInfo.subset, hg.coding, hg.slices, bind_ok]
  exact ⟨_, hl, make_good.mpr hgood⟩

/-- **C20**, unknown terms.  A name or term that the design does not have is an error. -/
theorem subset_unknown {name : F → String} {names : List String} {c : Coding F D K}
    {d : DesignInfo F D K} (hd : DesignInfo.make name names (some c) = .ok d)
    {which : List (TermSpec F)} {w : TermSpec F} (hw : w ∈ which)
    (hun : ∀ p ∈ c.termCodings, w ≠ .name (termName name p.1) ∧
      ∀ t, w = .term t → Term.eqv p.1 t = false) :
    ∀ d', d.subset name which ≠ .ok d' := by
  intro d' h
  have hg := make_good.mp hd
  simp only [DesignInfo.subset, hg.coding, hg.slices, bind_ok] at h
  obtain ⟨out, hloop, _⟩ := h
  obtain ⟨steps, h1, _⟩ := subsetLoop_spec hg
    (⟨by simp, by simp, by simp, by simp⟩ : Accs c names [] [] []) hloop
  obtain ⟨i, hi, rfl⟩ := List.getElem_of_mem hw
  have hstep := List.Forall₂.get h1 (i := i) hi (by have := h1.length_eq; omega)
  obtain ⟨_, p, hp, he, _⟩ := termGet_layout hstep.slice
  have hspec := hstep.spec
  simp only [List.get_eq_getElem] at hspec he
  generalize hwi : which[i] = w at *
  cases w with
  | term t =>
    simp only at hspec
    have := (hun p (List.mem_of_getElem? hp)).2 t rfl
    rw [hspec, he] at this
    simp at this
  | name n =>
    simp only at hspec
    have hnd : ((c.termCodings.map fun p => (termName name p.1, p.1)).map Prod.fst).Nodup := by
      rw [List.map_map]; exact hg.termNames
    rw [dictOf_eq hnd] at hspec
    obtain ⟨q, hq, he⟩ := List.mem_map.mp (dictGet_mem hspec)
    simp only [Prod.mk.injEq] at he
    exact (hun q hq).1 (by rw [he.1])

/-- Example: all orders of two of the three terms of the sample design are accepted, an
unknown name and a repeated term are not. -/
example : isOk (Sample.rightDesign.subset id [.name "a:x", .name "a"]) = true ∧
    isOk (Sample.rightDesign.subset id [.term ⟨["a"]⟩, .term ⟨["x", "a"]⟩]) = true ∧
    isOk (Sample.rightDesign.subset id [.name "x"]) = false ∧
    isOk (Sample.rightDesign.subset id [.name "a", .name "a"]) = false := by
  decide +kernel

/-- **C20**, formulas.  A formula without left-hand side whose terms are terms of the design (with their factors in the
same order) selects exactly these, in the order of the formula. -/
theorem subset_formula {name : F → String} {names : List String} {c : Coding F D K}
    {d : DesignInfo F D K} (hd : DesignInfo.make name names (some c) = .ok d) (hk : TermKeys c)
    {desc : ModelDesc F} (hl : desc.lhs = []) {sel : List (Term F × List (SubtermInfo F K))}
    (hr : desc.rhs = sel.map Prod.fst) (hsel : ∀ p ∈ sel, p ∈ c.termCodings) (hn : sel.Nodup) :
    ∃ d' fis', d.subsetFormula name desc = .ok d' ∧ d'.coding = some ⟨fis', sel⟩ := by
  have hw : List.Forall₂ (Denotes name) (desc.rhs.map fun t => .name (termName name t)) sel := by
    rw [hr, List.map_map]
    clear hsel hn hr
    induction sel with
    | nil => exact .nil
    | cons p sel ih => exact .cons (.inl rfl) ih
  obtain ⟨d', fis', h1, h2⟩ := subset_total hd hk hw hsel hn
  refine ⟨d', fis', ?_, h2⟩
  rw [DesignInfo.subsetFormula, if_neg (by simp [hl])]
  exact h1

/-- **C20**, formulas.  A formula with a left-hand side, or with a term whose name the design does not have, is
refused. -/
theorem subset_formula_refused {name : F → String} {names : List String} {c : Coding F D K}
    {d : DesignInfo F D K} (hd : DesignInfo.make name names (some c) = .ok d) {desc : ModelDesc F}
    (h : desc.lhs ≠ [] ∨ ∃ t ∈ desc.rhs, ∀ p ∈ c.termCodings, termName name t ≠ termName name p.1) :
    ∀ d', d.subsetFormula name desc ≠ .ok d' := by
  intro d' hc
  rw [DesignInfo.subsetFormula] at hc
  split at hc
  · cases hc
  · rename_i hl
    rcases h with h | ⟨t, ht, hun⟩
    · exact hl h
    · refine subset_unknown hd (which := desc.rhs.map fun t => .name (termName name t))
        (List.mem_map.2 ⟨t, ht, rfl⟩) ?_ d' hc
      intro p hp
      refine ⟨?_, fun u hu => by cases hu⟩
      intro hc
      simp only [TermSpec.name.injEq] at hc
      exact hun p hp hc

/-- Example: `~ 0 + a:x + a` is accepted, `y ~ a` is not, and neither is `~ 0 + x:a`, although `x:a` and `a:x` are
the same term. -/
example : isOk (Sample.rightDesign.subsetFormula id ⟨[], [⟨["a", "x"]⟩, ⟨["a"]⟩]⟩) = true ∧
    isOk (Sample.rightDesign.subsetFormula id ⟨[⟨["y"]⟩], [⟨["a"]⟩]⟩) = false ∧
    isOk (Sample.rightDesign.subsetFormula id ⟨[], [⟨["x", "a"]⟩]⟩) = false ∧
    Term.eqv (⟨["x", "a"]⟩ : Term String) ⟨["a", "x"]⟩ = true := by
  decide +kernel

/-- **C20**, designs without coding (only column names): any selection of different columns gives
a design with exactly these columns, in the order asked for; an unknown name and a term are a
`KeyError`. -/
theorem subset_plain {name : F → String} {names : List String} {d : DesignInfo F D K}
    (hd : DesignInfo.make name names none = .ok d) :
    (∀ ws : List String, ws.Nodup → (∀ w ∈ ws, w ∈ names) →
      ∃ d', d.subset name (ws.map .name) = .ok d' ∧ d'.columnNames = ws ∧ d'.coding = none) ∧
    ∀ (which : List (TermSpec F)), ∀ w ∈ which, (∀ n ∈ names, w ≠ .name n) →
      d.subset name which = .error .keyError := by
  obtain ⟨hn, hcols, hsl⟩ := columns_exact_plain.1 d hd
  have hshape : d.coding = none ∧ d.termNameSlices.map Prod.fst = names := by
    simp only [DesignInfo.make, bind_unit_ok, DesignInfo.make.finish, Except.ok.injEq] at hd
    obtain ⟨_, _, rfl⟩ := hd
    have hkeys : (layout 0 (names.map fun c => (c, 1))).map Prod.fst = names := by
      rw [layout_keys, List.map_map]; exact List.map_id names
    refine ⟨rfl, ?_⟩
    simp only
    rw [dictOf_eq (by rw [hkeys]; exact hn), hkeys]
  obtain ⟨hc, hk⟩ := hshape
  have hsub : ∀ which, d.subset name which = (subsetNames d which []).bind fun ns => DesignInfo.make name ns none := by
    intro which
    rw [DesignInfo.subset]
    simp only [hc]
    rfl
  have hget : ∀ (i : Nat) n, names[i]? = some n → dictGet d.termNameSlices n = some ⟨i, i + 1⟩ := by
    intro i n hi
    have h1 := hsl i n hi
    have h2 : (dictGet d.termNameSlices n).isSome := by
      rw [dictGet_isSome, hk]
      exact List.mem_of_getElem? hi
    obtain ⟨s, hs⟩ := Option.isSome_iff_exists.mp h2
    simp only [DesignInfo.slice, hs, Except.ok.injEq] at h1
    rw [hs, h1]
  constructor
  · intro ws hws hin
    have hloop : ∀ acc, subsetNames d (ws.map .name) acc = .ok (acc ++ ws) := by
      clear hws
      induction ws with
      | nil => intro acc; simp [subsetNames]
      | cons w ws ih =>
        intro acc
        obtain ⟨i, hi⟩ := List.getElem?_of_mem (hin w (by simp))
        have hsel : (⟨i, i + 1⟩ : Slice).select d.columnNames = [w] := by
          rw [hcols, Slice.select]
          obtain ⟨hlt, rfl⟩ := List.getElem?_eq_some_iff.mp hi
          simp only
          rw [List.take_add_one, List.getElem?_eq_getElem hlt, List.drop_append]
          simp [Nat.min_eq_left (Nat.le_of_lt hlt)]
        simp only [List.map_cons, subsetNames, hget i w hi]
        rw [ih (fun v hv => hin v (by simp [hv])), hsel]
        simp
    obtain ⟨d', hd'⟩ := (columns_exact_plain (F := F) (D := D) (K := K) (name := name) (names := ws)).2 hws
    refine ⟨d', ?_, (columns_exact_plain.1 d' hd').2.1, ?_⟩
    · rw [hsub, hloop]
      exact hd'
    · simp only [DesignInfo.make, bind_unit_ok, DesignInfo.make.finish, Except.ok.injEq] at hd'
      obtain ⟨_, _, rfl⟩ := hd'
      rfl
  · intro which w hw hun
    have hloop : ∀ acc, subsetNames d which acc = .error .keyError := by
      induction which with
      | nil => cases hw
      | cons v which ih =>
        intro acc
        cases v with
        | term t => rfl
        | name n =>
          simp only [subsetNames]
          cases hg : dictGet d.termNameSlices n with
          | none => rfl
          | some s =>
            simp only
            rcases List.mem_cons.mp hw with rfl | hw
            · have : n ∈ names := by
                rw [← hk, ← dictGet_isSome, hg]; rfl
              exact absurd rfl (hun n this)
            · exact ih hw _
    rw [hsub, hloop]
    rfl

/-- Example: three columns of an array, two of them selected in another order. -/
example : okIs ((getOk (DesignInfo.make (F := String) (D := Unit) (K := Int) id ["x0", "x1", "x2"] none) (by decide +kernel)
      |>.subset id [.name "x2", .name "x0"]).map (·.columnNames)) ["x2", "x0"] = true ∧
    ["x2", "x0"].Nodup ∧ (∀ w ∈ ["x2", "x0"], w ∈ ["x0", "x1", "x2"]) := by
  decide +kernel

end Patsy.Props
