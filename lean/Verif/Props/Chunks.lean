import Verif.Lemmas.BuildTop
import Verif.Spec.Sample
import Mathlib.Data.List.Induction

/-!
# Property C16: rows are built independently

A data set is a list of rows of an arbitrary type.  The factors are row-wise (`RowWise`):
the state of stateful transforms is fixed by the design.
-/

set_option linter.unusedSectionVars false

namespace Patsy.Props

open Patsy.Build Patsy.Spec Patsy.Desc

variable {F R K : Type} [DecidableEq F] [Mul K] [One K]

/-- **C16**, rows are independent.  Building on `rows` succeeds with `b` exactly if every
single row is acceptable (its factors evaluate, and with `NA_action="raise"` none of them
is missing), and `b` consists of the matrices of the rows that are kept.  Acceptability of
a row, whether it is kept, and its entries (`columnEntry` of the row's values) do not
depend on any other row. -/
theorem rows_independent {isnan : K → Bool} {na : NAAction} {frame : Bool}
    {lab : Option (R → Label)} {dis : List (DesignInfo F (List R) K)}
    {cs : List (Coding F (List R) K)} {g : FactorInfo F (List R) K → R → Option (Cell K)}
    (hne : dis ≠ []) (hdis : List.Forall₂ IsDesign dis cs)
    (hid : SameIdentity (factorsOf cs)) (hg : RowWise na.types (factorsOf cs) g lab)
    (hknown : factorsOf cs = [] → lab ≠ none) (rows : List R) {b : Built K} :
    buildDesignMatrices isnan na frame (lab.map fun f => rows.map f) dis rows = .ok b ↔
      (∀ r ∈ rows, (∀ fi ∈ factorsOf cs, (g fi r).isSome) ∧
        (na.onNA = .raise → keepRow na isnan (factorsOf cs) g r = true)) ∧
      List.Forall₂ (fun c m =>
        m.nrows = (rows.filter (keepRow na isnan (factorsOf cs) g)).length ∧
        IsMatrix c ((rows.filter (keepRow na isnan (factorsOf cs) g)).map (rowCells c g)) m.cols)
        cs b.mats ∧
      b.index = if frame then
        some (keptLabels lab (keepRow na isnan (factorsOf cs) g) rows) else none := by
  have hfit : IndexFits na.types (factorsOf cs) rows := by
    intro fi hf v l h
    obtain ⟨_, h1, _, h2⟩ := (hg fi hf rows).2 v _ h
    obtain ⟨f, _, rfl⟩ := h2 l rfl
    simp [h1]
  -- complete rows in terms of the data rows
  have hcomp : ∀ V, (∀ fi ∈ factorsOf cs, ∀ q : Nat, cellOf (V fi) q = rows[q]?.bind (g fi)) →
      completeRows na isnan (factorsOf cs) V rows.length =
      (List.range rows.length).filter fun q =>
        (rows[q]?.any (keepRow na isnan (factorsOf cs) g)) := by
    intro V hV
    apply List.filter_congr
    intro q hq
    have hq : q < rows.length := by simpa using hq
    rw [List.getElem?_eq_getElem hq]
    simp only [Option.any_some, complete, keepRow]
    rw [Bool.eq_iff_iff]
    simp only [List.all_eq_true]
    constructor
    · intro h fi hf
      have := h fi hf
      rw [hV fi hf, List.getElem?_eq_getElem hq] at this
      exact this
    · intro h fi hf
      rw [hV fi hf, List.getElem?_eq_getElem hq]
      exact h fi hf
  have hsel : ((List.range rows.length).filter fun q =>
        (rows[q]?.any (keepRow na isnan (factorsOf cs) g))).filterMap (fun q => rows[q]?) =
      rows.filter (keepRow na isnan (factorsOf cs) g) := by
    generalize keepRow na isnan (factorsOf cs) g = p
    clear hcomp hfit
    induction rows using List.reverseRecOn with
    | nil => rfl
    | append_singleton l x ih =>
      rw [List.length_append, List.length_singleton, List.range_succ, List.filter_append,
        List.filterMap_append, List.filter_append]
      congr 1
      · rw [← ih]
        have h1 : (List.range l.length).filter (fun q => (l ++ [x])[q]?.any p) =
            (List.range l.length).filter (fun q => l[q]?.any p) := by
          apply List.filter_congr
          intro q hq
          rw [List.getElem?_append_left (by simpa using hq)]
        rw [h1]
        apply List.filterMap_congr
        intro q hq
        rw [List.getElem?_append_left (by simpa using (List.mem_filter.mp hq).1)]
      · by_cases hp : p x <;> simp [hp]
  -- labels and cells of the kept rows
  have hlabs : ∀ {A : Type} (f : R → A), ((List.range rows.length).filter fun q =>
        (rows[q]?.any (keepRow na isnan (factorsOf cs) g))).filterMap (fun q => (rows.map f)[q]?) =
      (rows.filter (keepRow na isnan (factorsOf cs) g)).map f := by
    intro A f
    rw [← hsel, List.map_filterMap]
    simp [List.getElem?_map]
  have hcells : ∀ V, (∀ fi ∈ factorsOf cs, ∀ q : Nat, cellOf (V fi) q = rows[q]?.bind (g fi)) →
      ∀ c ∈ cs, ((List.range rows.length).filter fun q =>
        (rows[q]?.any (keepRow na isnan (factorsOf cs) g))).map (designCells c V) =
      (rows.filter (keepRow na isnan (factorsOf cs) g)).map (rowCells c g) := by
    intro V hV c hc
    rw [← hlabs, ← List.filterMap_eq_map]
    apply List.filterMap_congr
    intro q hq
    have hq : q < rows.length := by simpa using (List.mem_filter.mp hq).1
    simp only [List.getElem?_map, List.getElem?_eq_getElem hq, Option.map_some, Function.comp,
      Option.some.injEq]
    funext f
    simp only [designCells, rowCells]
    cases hd : dictGet c.factorInfos f with
    | none => rfl
    | some fi =>
      simp only [Option.bind_some]
      rw [hV fi (List.mem_flatMap.mpr ⟨c, hc, List.mem_map.mpr ⟨_, dictGet_mem hd, rfl⟩⟩),
        List.getElem?_eq_getElem hq]
      rfl
  have hlen : (rows.filter (keepRow na isnan (factorsOf cs) g)).length =
      ((List.range rows.length).filter fun q =>
        (rows[q]?.any (keepRow na isnan (factorsOf cs) g))).length := by
    rw [← hsel]
    apply length_filterMap_getElem?
    intro q hq
    simpa using (List.mem_filter.mp hq).1
  have hmats : ∀ V, (∀ fi ∈ factorsOf cs, ∀ q : Nat, cellOf (V fi) q = rows[q]?.bind (g fi)) →
      (AreMatrices cs V (completeRows na isnan (factorsOf cs) V rows.length) b.mats ↔
      List.Forall₂ (fun c m =>
        m.nrows = (rows.filter (keepRow na isnan (factorsOf cs) g)).length ∧
        IsMatrix c ((rows.filter (keepRow na isnan (factorsOf cs) g)).map (rowCells c g)) m.cols)
        cs b.mats) := by
    intro V hV
    rw [hcomp V hV]
    apply forall₂_congr_mem
    intro c hc m
    rw [hcells V hV c hc, hlen]
  have hraise : ∀ V, (∀ fi ∈ factorsOf cs, ∀ q : Nat, cellOf (V fi) q = rows[q]?.bind (g fi)) →
      (completeRows na isnan (factorsOf cs) V rows.length = List.range rows.length ↔
      ∀ r ∈ rows, keepRow na isnan (factorsOf cs) g r = true) := by
    intro V hV
    rw [hcomp V hV, range_filter_self]
    constructor
    · intro h r hr
      obtain ⟨q, hq, rfl⟩ := List.getElem_of_mem hr
      have := h q hq
      rw [List.getElem?_eq_getElem hq] at this
      simpa using this
    · intro h q hq
      rw [List.getElem?_eq_getElem hq]
      simpa using h _ (List.getElem_mem hq)
  have hrange : ∀ n : Nat, ∀ l : List Nat, (∀ q ∈ l, q < n) →
      l.filterMap (fun r => ((List.range n).map Label.row)[r]?) = l.map Label.row := by
    intro n l hl
    rw [← List.filterMap_eq_map]
    apply List.filterMap_congr
    intro q hq
    simp [List.getElem?_range (hl q hq)]
  rw [build_iff hne hdis hid hfit]
  constructor
  · rintro ⟨V, n, idx, hev, h1, h2, h3⟩
    have hV : ∀ fi ∈ factorsOf cs, ∀ q : Nat, cellOf (V fi) q = rows[q]?.bind (g fi) := by
      intro fi hf
      obtain ⟨i, h4, _⟩ := hev.value fi hf
      exact ((hg fi hf rows).2 _ _ h4).2.2.1
    have hn : n = rows.length := by
      cases hf : factorsOf cs with
      | nil =>
        cases hl : lab with
        | none => exact absurd hl (hknown hf)
        | some f =>
          have := hev.frame (rows.map f) (by simp [hl])
          rw [← hev.length, ← this]; simp
      | cons fi l =>
        have hmem : fi ∈ factorsOf cs := by rw [hf]; exact List.mem_cons_self ..
        obtain ⟨i, h4, _⟩ := hev.value fi hmem
        rw [← hev.rows fi hmem]
        exact ((hg fi hmem rows).2 _ _ h4).2.1
    subst hn
    refine ⟨?_, (hmats V hV).mp h2, ?_⟩
    · intro r hr
      refine ⟨?_, fun hna => (hraise V hV).mp (h1 hna) r hr⟩
      intro fi hf
      obtain ⟨i, h4, _⟩ := hev.value fi hf
      exact (hg fi hf rows).1.mp ⟨_, _, h4⟩ r hr
    · rw [h3, hcomp V hV]
      cases frame with
      | false => simp
      | true =>
        simp only [if_true]
        cases hl : lab with
        | some f =>
          simp only [keptLabels, Option.some.injEq]
          rw [← hev.frame (rows.map f) (by simp [hl])]
          exact hlabs f
        | none =>
          simp only [keptLabels, Option.some.injEq]
          rw [hev.default (by simp [hl]) ?_]
          · exact hrange _ _ fun q hq => by simpa using (List.mem_filter.mp hq).1
          · intro fi hf v l h4
            obtain ⟨_, _, _, h5⟩ := (hg fi hf rows).2 v _ h4
            obtain ⟨f, h6, _⟩ := h5 l rfl
            rw [hl] at h6; simp at h6
  · rintro ⟨h1, h2, h3⟩
    have hex : ∀ fi ∈ factorsOf cs, ∃ v i, fi.eval na.types rows = .ok (v, i) := by
      intro fi hf
      exact (hg fi hf rows).1.mpr fun r hr => (h1 r hr).1 fi hf
    have hve : ∀ fi ∈ factorsOf cs, ∃ i, fi.eval na.types rows = .ok (evalValue na.types rows fi, i) := by
      intro fi hf
      obtain ⟨v, i, h4⟩ := hex fi hf
      exact ⟨i, by simp [evalValue, h4]⟩
    have hV : ∀ fi ∈ factorsOf cs, ∀ q : Nat,
        cellOf (evalValue na.types rows fi) q = rows[q]?.bind (g fi) := by
      intro fi hf
      obtain ⟨i, h4⟩ := hve fi hf
      exact ((hg fi hf rows).2 _ _ h4).2.2.1
    refine ⟨evalValue na.types rows, rows.length,
      lab.elim ((List.range rows.length).map Label.row) (fun f => rows.map f), ?_, ?_, (hmats _ hV).mpr h2, ?_⟩
    · refine ⟨?_, ?_, ?_, ?_, ?_, ?_, ?_⟩
      · intro fi hf
        obtain ⟨i, h4⟩ := hve fi hf
        refine ⟨i, h4, ?_⟩
        intro l hl
        obtain ⟨f, h5, h6⟩ := ((hg fi hf rows).2 _ _ h4).2.2.2 l hl
        simp only [h5, Option.elim]; exact h6
      · intro fi hf
        obtain ⟨i, h4⟩ := hve fi hf
        exact ((hg fi hf rows).2 _ _ h4).1
      · intro fi hf
        obtain ⟨i, h4⟩ := hve fi hf
        exact ((hg fi hf rows).2 _ _ h4).2.1
      · intro l hl
        cases hlab : lab with
        | none => simp [hlab] at hl
        | some f => simp [hlab] at hl; simp [hl]
      · cases lab <;> simp
      · intro hl _
        cases hlab : lab with
        | none => rfl
        | some f => simp [hlab] at hl
      · intro hf hl
        apply hknown hf
        simpa using hl
    · intro hna
      rw [hraise _ hV]
      intro r hr
      exact (h1 r hr).2 hna
    · rw [h3, hcomp _ hV]
      cases frame with
      | false => simp
      | true =>
        simp only [if_true]
        cases hl : lab with
        | some f => simp only [keptLabels, Option.elim, Option.some.injEq]; exact (hlabs f).symm
        | none =>
          simp only [keptLabels, Option.elim, Option.some.injEq]
          exact (hrange _ _ fun q hq => by simpa using (List.mem_filter.mp hq).1).symm

theorem isMatrix_append {D : Type} {c : Coding F D K} {l1 l2 : List (F → Option (Cell K))}
    {cols : List (List K)} :
    IsMatrix c (l1 ++ l2) cols ↔ ∃ c1 c2, IsMatrix c l1 c1 ∧ IsMatrix c l2 c2 ∧
      cols = List.zipWith (· ++ ·) c1 c2 := by
  unfold IsMatrix
  generalize columnsOf c = cc
  induction cc generalizing cols with
  | nil =>
    constructor
    · intro h; cases h; exact ⟨[], [], .nil, .nil, rfl⟩
    · rintro ⟨_, _, h1, h2, rfl⟩; cases h1; cases h2; exact .nil
  | cons x cc ih =>
    constructor
    · intro h
      cases h with
      | @cons _ v _ vs h1 h2 =>
        obtain ⟨c1, c2, h3, h4, rfl⟩ := ih.mp h2
        rw [List.mapM_append] at h1
        simp only [Option.bind_eq_bind, Option.bind_eq_some_iff] at h1
        obtain ⟨v1, h5, v2, h6, h7⟩ := h1
        simp only [pure, Option.some.injEq] at h7
        exact ⟨v1 :: c1, v2 :: c2, .cons h5 h3, .cons h6 h4, by simp [h7]⟩
    · rintro ⟨_, _, h1, h2, rfl⟩
      cases h1 with
      | cons h3 h4 =>
        cases h2 with
        | cons h5 h6 =>
          refine .cons ?_ (ih.mpr ⟨_, _, h4, h6, rfl⟩)
          rw [List.mapM_append, h3, h5]
          rfl

theorem forall₂_zipWith {A B : Type} {P Q S : A → B → Prop} {op : B → B → B}
    {l : List A} {m : List B}
    (h : ∀ a ∈ l, ∀ x, S a x ↔ ∃ y z, P a y ∧ Q a z ∧ x = op y z) :
    List.Forall₂ S l m ↔ ∃ m1 m2, List.Forall₂ P l m1 ∧ List.Forall₂ Q l m2 ∧
      m = List.zipWith op m1 m2 := by
  induction l generalizing m with
  | nil =>
    constructor
    · intro h; cases h; exact ⟨[], [], .nil, .nil, rfl⟩
    · rintro ⟨_, _, h1, h2, rfl⟩; cases h1; cases h2; exact .nil
  | cons a l ih =>
    have ih' := @ih
    constructor
    · intro hm
      cases hm with
      | @cons _ x _ xs h1 h2 =>
        obtain ⟨m1, m2, h3, h4, rfl⟩ := (ih fun a ha => h a (List.mem_cons_of_mem _ ha)).mp h2
        obtain ⟨y, z, h5, h6, rfl⟩ := (h a (List.mem_cons_self ..) x).mp h1
        exact ⟨y :: m1, z :: m2, .cons h5 h3, .cons h6 h4, rfl⟩
    · rintro ⟨_, _, h1, h2, rfl⟩
      cases h1 with
      | @cons _ y _ ys h3 h4 =>
        cases h2 with
        | @cons _ z _ zs h5 h6 =>
          exact .cons ((h a (List.mem_cons_self ..) _).mpr ⟨y, z, h3, h5, rfl⟩)
            ((ih fun a ha => h a (List.mem_cons_of_mem _ ha)).mpr ⟨_, _, h4, h6, rfl⟩)

/-- **C16**, two chunks, in terms of the matrices: for every kind of result, building on the
concatenation of two data sets succeeds exactly if building on each of them does, and the
matrices are the stacked matrices of the two (rows with missing values dropped or not). -/
theorem two_chunks_matrices {isnan : K → Bool} {na : NAAction} {frame : Bool}
    {lab : Option (R → Label)} {dis : List (DesignInfo F (List R) K)}
    {cs : List (Coding F (List R) K)} {g : FactorInfo F (List R) K → R → Option (Cell K)}
    (hne : dis ≠ []) (hdis : List.Forall₂ IsDesign dis cs)
    (hid : SameIdentity (factorsOf cs)) (hg : RowWise na.types (factorsOf cs) g lab)
    (hknown : factorsOf cs = [] → lab ≠ none) (rows rows' : List R) {mats : List (Mat K)} :
    (∃ i, buildDesignMatrices isnan na frame (lab.map fun f => (rows ++ rows').map f) dis
        (rows ++ rows') = .ok ⟨mats, i⟩) ↔
      ∃ b b', buildDesignMatrices isnan na frame (lab.map fun f => rows.map f) dis rows = .ok b ∧
        buildDesignMatrices isnan na frame (lab.map fun f => rows'.map f) dis rows' = .ok b' ∧
        mats = List.zipWith stack b.mats b'.mats := by
  simp only [rows_independent hne hdis hid hg hknown]
  generalize keepRow na isnan (factorsOf cs) g = keep
  have hM : List.Forall₂ (fun c m => m.nrows = ((rows ++ rows').filter keep).length ∧
      IsMatrix c (((rows ++ rows').filter keep).map (rowCells c g)) m.cols) cs mats ↔
      ∃ m1 m2, List.Forall₂ (fun c m => m.nrows = (rows.filter keep).length ∧
          IsMatrix c ((rows.filter keep).map (rowCells c g)) m.cols) cs m1 ∧
        List.Forall₂ (fun c m => m.nrows = (rows'.filter keep).length ∧
          IsMatrix c ((rows'.filter keep).map (rowCells c g)) m.cols) cs m2 ∧
        mats = List.zipWith stack m1 m2 := by
    apply forall₂_zipWith
    intro c _ m
    rw [List.filter_append, List.map_append, isMatrix_append, List.length_append]
    constructor
    · rintro ⟨h1, c1, c2, h2, h3, h4⟩
      refine ⟨⟨_, c1⟩, ⟨_, c2⟩, ⟨rfl, h2⟩, ⟨rfl, h3⟩, ?_⟩
      obtain ⟨n, cols⟩ := m
      simp only at h1 h4
      simp [stack, h1, h4]
    · rintro ⟨y, z, ⟨h1, h2⟩, ⟨h3, h4⟩, rfl⟩
      exact ⟨by simp [stack, h1, h3], _, _, h2, h4, rfl⟩
  simp only [hM]
  constructor
  · rintro ⟨i, h1, ⟨m1, m2, h2, h3, h4⟩, h5⟩
    refine ⟨⟨m1, _⟩, ⟨m2, _⟩, ⟨fun r hr => h1 r (by simp [hr]), h2, rfl⟩,
      ⟨fun r hr => h1 r (by simp [hr]), h3, rfl⟩, h4⟩
  · rintro ⟨b, b', ⟨h1, h2, _⟩, ⟨h3, h4, _⟩, h5⟩
    refine ⟨_, ?_, ⟨_, _, h2, h4, h5⟩, rfl⟩
    intro r hr
    rcases List.mem_append.mp hr with hr | hr
    · exact h1 r hr
    · exact h3 r hr

/-- **C16**, two chunks, with the index (labelled rows, or no data frames requested): the
result is the stacked result. -/
theorem two_chunks {isnan : K → Bool} {na : NAAction} {frame : Bool}
    {lab : Option (R → Label)} {dis : List (DesignInfo F (List R) K)}
    {cs : List (Coding F (List R) K)} {g : FactorInfo F (List R) K → R → Option (Cell K)}
    (hne : dis ≠ []) (hdis : List.Forall₂ IsDesign dis cs)
    (hid : SameIdentity (factorsOf cs)) (hg : RowWise na.types (factorsOf cs) g lab)
    (hknown : factorsOf cs = [] → lab ≠ none) (hframe : frame = true → lab ≠ none)
    (rows rows' : List R) {B : Built K} :
    buildDesignMatrices isnan na frame (lab.map fun f => (rows ++ rows').map f) dis
        (rows ++ rows') = .ok B ↔
      ∃ b b', buildDesignMatrices isnan na frame (lab.map fun f => rows.map f) dis rows = .ok b ∧
        buildDesignMatrices isnan na frame (lab.map fun f => rows'.map f) dis rows' = .ok b' ∧
        B = stackBuilt b b' := by
  have hmat := two_chunks_matrices (isnan := isnan) (na := na) (frame := frame) hne hdis hid hg
    hknown rows rows' (mats := B.mats)
  have hind := fun (rows : List R) (b : Built K) => rows_independent (isnan := isnan) (na := na)
    (frame := frame) hne hdis hid hg hknown rows (b := b)
  have hidx : ∀ b b' : Built K,
      (buildDesignMatrices isnan na frame (lab.map fun f => rows.map f) dis rows = .ok b) →
      (buildDesignMatrices isnan na frame (lab.map fun f => rows'.map f) dis rows' = .ok b') →
      (stackBuilt b b').index = if frame then
        some (keptLabels lab (keepRow na isnan (factorsOf cs) g) (rows ++ rows')) else none := by
    intro b b' h1 h2
    obtain ⟨_, _, h3⟩ := (hind rows b).mp h1
    obtain ⟨_, _, h4⟩ := (hind rows' b').mp h2
    simp only [stackBuilt, h3, h4]
    cases frame with
    | false => simp
    | true =>
      cases hl : lab with
      | none => exact absurd hl (hframe rfl)
      | some f => simp [keptLabels]
  constructor
  · intro h
    obtain ⟨b, b', h1, h2, h3⟩ := hmat.mp ⟨_, h⟩
    refine ⟨b, b', h1, h2, ?_⟩
    have h4 := hidx b b' h1 h2
    obtain ⟨_, _, h5⟩ := (hind _ B).mp h
    obtain ⟨m, i⟩ := B
    simp only at h3 h5
    rw [← h4] at h5
    rw [h3, h5]
    rfl
  · rintro ⟨b, b', h1, h2, rfl⟩
    obtain ⟨i, h3⟩ := hmat.mpr ⟨b, b', h1, h2, rfl⟩
    obtain ⟨_, _, h5⟩ := (hind _ _).mp h3
    rw [h3]
    have h4 := hidx b b' h1 h2
    simp only at h5
    rw [← h4] at h5
    rw [h5]

/-- **C16**, chunks.  For every way of cutting the data into chunks, building on all data
at once succeeds exactly if building on every chunk does, and gives the stacked
results. -/
theorem chunked_build {isnan : K → Bool} {na : NAAction} {frame : Bool}
    {lab : Option (R → Label)} {dis : List (DesignInfo F (List R) K)}
    {cs : List (Coding F (List R) K)} {g : FactorInfo F (List R) K → R → Option (Cell K)}
    (hne : dis ≠ []) (hdis : List.Forall₂ IsDesign dis cs)
    (hid : SameIdentity (factorsOf cs)) (hg : RowWise na.types (factorsOf cs) g lab)
    (hknown : factorsOf cs = [] → lab ≠ none) (hframe : frame = true → lab ≠ none)
    (chunk : List R) (chunks : List (List R)) {B : Built K} :
    buildDesignMatrices isnan na frame (lab.map fun f => (chunk :: chunks).flatten.map f) dis
        (chunk :: chunks).flatten = .ok B ↔
      ∃ b bs, buildDesignMatrices isnan na frame (lab.map fun f => chunk.map f) dis chunk = .ok b ∧
        List.Forall₂ (fun rows b => buildDesignMatrices isnan na frame
          (lab.map fun f => rows.map f) dis rows = .ok b) chunks bs ∧
        B = bs.foldl stackBuilt b := by
  induction chunks generalizing chunk with
  | nil =>
    simp only [List.flatten_cons, List.flatten_nil, List.append_nil, List.forall₂_nil_left_iff]
    constructor
    · intro h; exact ⟨B, [], h, rfl, rfl⟩
    · rintro ⟨b, bs, h, rfl, rfl⟩; exact h
  | cons c chunks ih =>
    have := ih (chunk ++ c)
    simp only [List.flatten_cons, List.append_assoc] at this ⊢
    rw [this]
    simp only [two_chunks hne hdis hid hg hknown hframe]
    constructor
    · rintro ⟨b, bs, ⟨b1, b2, h1, h2, rfl⟩, h3, rfl⟩
      exact ⟨b1, b2 :: bs, h1, .cons h2 h3, rfl⟩
    · rintro ⟨b1, _, h1, h2, rfl⟩
      cases h2 with
      | @cons _ b2 _ bs h3 h4 =>
        exact ⟨_, bs, ⟨b1, b2, h1, h3, rfl⟩, h4, rfl⟩

/-- The values of the sample factors in one row. -/
def sampleCells (fi : FactorInfo String Sample.Data Int) (r : Int × Int × Int) : Option (Cell Int) :=
  if fi.uid = 0 then some (.num [r.1])
  else if fi.uid = 1 then some (.num [r.2.1])
  else some (.code r.2.2)

/-- Example: the sample design is row-wise, and its matrices on two chunks are the expected
ones. -/
example : RowWise ({} : NAAction).types (factorsOf [Sample.left, Sample.right]) sampleCells none ∧
    buildDesignMatrices Sample.isnan {} false none [Sample.leftDesign, Sample.rightDesign]
      (Sample.data.take 3) = .ok ⟨[⟨2, [[10, 30]]⟩,
        ⟨2, [[1, 1], [0, 0], [0, 1], [2, 0], [0, 0], [0, 3]]⟩], none⟩ ∧
    buildDesignMatrices Sample.isnan {} false none [Sample.leftDesign, Sample.rightDesign]
      (Sample.data.drop 3) = .ok ⟨[⟨1, [[60]]⟩, ⟨1, [[1], [1], [0], [0], [6], [0]]⟩], none⟩ := by
  refine ⟨?_, eq_ok_of_okIs (by decide +kernel), eq_ok_of_okIs (by decide +kernel)⟩
  intro fi hf rows
  rcases Sample.mem_factors hf with rfl | rfl | rfl
  all_goals
    refine ⟨⟨fun _ r _ => by simp [sampleCells, Sample.fiY, Sample.fiX, Sample.fiA],
      fun _ => ⟨_, _, rfl⟩⟩, ?_⟩
    intro v i h
    simp only [Sample.fiY, Sample.fiX, Sample.fiA, Except.ok.injEq, Prod.mk.injEq] at h
    obtain ⟨rfl, rfl⟩ := h
    refine ⟨by first | exact rfl | trivial, by simp [Value.nrows], ?_, by simp⟩
    intro q
    simp only [cellOf, sampleCells, Sample.fiY, Sample.fiX, Sample.fiA]
    cases hq : rows[q]? <;> simp [hq, sampleCells]

end Patsy.Props
