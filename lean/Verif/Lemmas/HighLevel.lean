import Verif.Props.Builders
import Verif.Spec.HighLevel

/-! Lemmas about `highlevel.py`. -/

namespace Patsy.Build

open Patsy.Desc Patsy.Cat Patsy.Spec Patsy.Props
open Patsy.Redundancy (Subterm codingLookup pickContrasts pickContrasts_spec cnt_pos_of_mem)

variable {F D K : Type} [DecidableEq F]

/-! ### Number of columns -/

theorem columnsOf_length (c : Coding F D K) :
    (columnsOf c).length = (c.termCodings.map fun p => termColumns p.2).sum := by
  simp only [columnsOf, List.length_flatMap, List.length_map, List.length_range, termColumns]

theorem isMatrix_width [Mul K] [One K] {d : DesignInfo F D K} {c : Coding F D K} (hd : IsDesign d c)
    {rows : List (F → Option (Cell K))} {cols : List (List K)} (h : IsMatrix c rows cols) :
    cols.length = d.columnNames.length := by
  obtain ⟨name, names, hd⟩ := hd
  have hg := make_good.mp hd
  rw [← List.Forall₂.length_eq h, columnsOf_length, hg.total, DesignInfo.columnNames, hg.indexes]
  simp

/-! ### A design with a term has a column -/

theorem prod_pos {l : List Nat} (h : ∀ n ∈ l, 0 < n) : 0 < l.prod := by
  induction l with
  | nil => simp
  | cons n l ih =>
    rw [List.prod_cons]
    exact Nat.mul_pos (h n (by simp)) (ih fun m hm => h m (by simp [hm]))

theorem le_sum_of_mem {l : List Nat} {n : Nat} (h : n ∈ l) : n ≤ l.sum := by
  induction l with
  | nil => simp at h
  | cons m l ih =>
    rw [List.sum_cons]
    rcases List.mem_cons.mp h with rfl | h
    · omega
    · have := ih h
      omega

theorem exists_mem_of_forall₂ {A B : Type} {R : A → B → Prop} {l : List A} {m : List B} (h : List.Forall₂ R l m)
    {a : A} (ha : a ∈ l) : ∃ b ∈ m, R a b := by
  induction h with
  | nil => simp at ha
  | @cons x y l m h1 h2 ih =>
    rcases List.mem_cons.mp ha with rfl | ha
    · exact ⟨y, by simp, h1⟩
    · obtain ⟨b, hb, h⟩ := ih ha
      exact ⟨b, by simp [hb], h⟩

theorem exists_mem_of_forall₂' {A B : Type} {R : A → B → Prop} {l : List A} {m : List B} (h : List.Forall₂ R l m)
    {b : B} (hb : b ∈ m) : ∃ a ∈ l, R a b := exists_mem_of_forall₂ h.flip hb

theorem makeDesign_columns_pos {H : Type} [DecidableEq H] {name : F → String} {hash : Subterm F → H}
    {nums : List (F × Nat)} {coder : F → Bool → Except Err (ContrastMatrix K)}
    {fis : List (F × FactorInfo F D K)} {ts : List (Term F)} (hts : ts ≠ []) (hnd : ∀ t ∈ ts, t.factors.Nodup)
    (hnum : ∀ t ∈ ts, ∀ f ∈ t.factors, ∀ n, dictGet nums f = some n → 0 < n)
    (hcat : ∀ t ∈ ts, ∀ f ∈ t.factors, dictGet nums f = none → ∀ cm, coder f true = .ok cm → 0 < cm.ncols)
    {d : DesignInfo F D K} (h : makeDesign name hash nums coder fis ts = .ok d) : 0 < d.columnNames.length := by
  simp only [makeDesign, bind_ok] at h
  obtain ⟨infos, hi, h⟩ := h
  split at h
  swap
  · simp at h
  simp only [bind_ok] at h
  obtain ⟨own, _, names, _, h⟩ := h
  have hg := make_good.mp h
  rw [DesignInfo.columnNames, hg.indexes, List.length_map, List.length_zip, List.length_range, Nat.min_self, ← hg.total]
  obtain ⟨assigned, h1, h2, _, h4⟩ := makeSubtermInfos_spec hi
  obtain ⟨o1, _, o3⟩ := order_spec nums ts
  obtain ⟨t0, ht0⟩ := List.exists_mem_of_ne_nil ts hts
  have hb := (o1 (bucketOf nums t0)).mpr ⟨t0, ht0, rfl⟩
  obtain ⟨out, hout, hcode⟩ := exists_mem_of_forall₂ h1 hb
  have hsorted : ∀ t, t ∈ sortByDegree ((dictGet (buckets nums ts).2 (bucketOf nums t0)).getD []) ↔
      t ∈ ts ∧ bucketOf nums t = bucketOf nums t0 := by
    intro t
    rw [o3 _ hb, sortByDegree, List.mem_insertionSort]
    simp
  cases hL : sortByDegree ((dictGet (buckets nums ts).2 (bucketOf nums t0)).getD []) with
  | nil =>
    have := (hsorted t0).mpr ⟨ht0, rfl⟩
    rw [hL] at this
    simp at this
  | cons t L =>
    have ht : t ∈ ts := ((hsorted t).mp (by rw [hL]; simp)).1
    rw [hL] at hcode
    simp only [codeBucket, bind_ok, Except.ok.injEq] at hcode
    obtain ⟨c, hc, sts, hsts, rest, hrest, rfl⟩ := hcode
    obtain ⟨cs, used', hp, _, _, hcnt, _⟩ := pickContrasts_spec hash (isNumeric nums) t.factors (hnd t ht) []
    rw [hc] at hp
    obtain rfl : c = (cs, used') := Except.ok.inj hp
    have h0 := hcnt ∅
    rw [if_pos ⟨by simp, by simp⟩] at h0
    obtain ⟨e, he, hsp⟩ : ∃ e ∈ cs, Redundancy.Sp e ∅ := by
      by_contra hno
      have : Redundancy.cnt cs ∅ = 0 := by
        simp only [Redundancy.cnt]
        rw [List.countP_eq_zero]
        intro e he hsp
        exact hno ⟨e, he, by simpa using hsp⟩
      omega
    obtain ⟨st, hst, hmk⟩ := exists_mem_of_forall₂ (mapM_ok.mp hsts) he
    have hr := makeSubterm_realizes hmk
    have hpos : 0 < st.numColumns := by
      rw [hr.columns]
      refine Nat.mul_pos (prod_pos ?_) (prod_pos ?_)
      · intro n hn
        obtain ⟨f, hf, hfn⟩ := List.mem_filterMap.mp hn
        exact hnum t ht f hf n hfn
      · intro n hn
        obtain ⟨p, hp', rfl⟩ := List.mem_map.mp hn
        obtain ⟨f, hf, rfl, full, hfull, hcm⟩ := exists_mem_of_forall₂' hr.contrasts hp'
        have hf' := List.mem_filter.mp hf
        have hnone : dictGet nums p.1 = none := by
          have := hf'.2
          simp only [Bool.and_eq_true, Option.isNone_iff_eq_none] at this
          exact this.1
        have hfull' : full = true := by
          simp only [codingLookup] at hfull
          split at hfull
          · exact (Option.some.inj hfull).symm
          · split at hfull
            · rename_i hm
              have := hsp.1 (Redundancy.mem_minusOf.mpr hm)
              simp at this
            · cases hfull
        subst hfull'
        exact hcat t ht p.1 hf'.1 hnone _ hcm
    have h5 : st.numColumns ≤ termColumns sts := le_sum_of_mem (List.mem_map.mpr ⟨st, hst, rfl⟩)
    have h6 : termColumns sts ≤ (infos.map fun p => termColumns p.2).sum := by
      refine le_sum_of_mem (List.mem_map.mpr ⟨(t, sts), ?_, rfl⟩)
      rw [h2]
      exact List.mem_flatten.mpr ⟨_, hout, by simp⟩
    simp only
    omega

/-! ### The index of an evaluated factor fits -/

theorem mapM_length {A B : Type} {f : A → Except Err B} {l : List A} {m : List B} (h : l.mapM f = .ok m) :
    m.length = l.length := (mapM_ok.mp h).length_eq.symm

theorem arrayToInt_length {na : NAAction} {levels : List PyVal} {kind : Kind} {ndim : Nat} {vals : List PyVal}
    {codes : List Int} (h : arrayToInt na levels kind ndim vals = .ok codes) : codes.length = vals.length := by
  simp only [arrayToInt] at h
  split at h
  · cases h
  · simp only [bind_ok] at h
    obtain ⟨d, _, h⟩ := h
    split at h
    · split at h
      · cases h
      · split at h
        · cases h
        · cases h; simp
        · exact mapM_length h
      · exact mapM_length h
    · exact mapM_length h

theorem categoricalToInt_length {Cn : Type} {na : NAAction} {levels : List PyVal} {v : CatValue Cn} {codes : List Int}
    (h : categoricalToInt na levels v = .ok codes) : codes.length = valueLength v := by
  have hif : ∀ (b : Bool) (x : Except Err (List Int)),
      (if b then Except.error .patsyError else x) = .ok codes → x = .ok codes := by
    intro b x hx
    cases b with
    | true => cases hx
    | false => exact hx
  match v with
  | .raw (.pandas cats cs) =>
    simp only [categoricalToInt] at h
    split at h
    · cases h; rfl
    · cases h
  | .raw (.array kind ndim _ vals) => exact arrayToInt_length h
  | .box (.pandas cats cs) _ l =>
    have := arrayToInt_length (hif _ _ h)
    rw [this]
    simp [pandasValues, valueLength, rawLength]
  | .box (.array kind ndim _ vals) _ l =>
    exact arrayToInt_length (hif _ _ h)

theorem treated_fits {ty : NATypes} {ev : D → Except Err (Seen K)} {fi : FactorInfo F D K}
    {T : FactorType (Contrast.Spec K)} (h : TreatedAs ev fi T) {d : D} (hs : ∀ s, ev d = .ok s → SeenFits s)
    {v : Value K} {l : List Label} (he : fi.eval ty d = .ok (v, some l)) : l.length = v.nrows := by
  cases T with
  | numerical n =>
    rw [h.2] at he
    simp only [bind_ok] at he
    obtain ⟨s, hs', he⟩ := he
    simp only [numericValue] at he
    split at he
    · rename_i ndim ncols vals hval
      split at he
      · cases he
      · simp only [Except.ok.injEq, Prod.mk.injEq] at he
        obtain ⟨rfl, he⟩ := he
        exact ((hs s hs' l he).2 ⟨_, _, _, hval⟩).symm
    · cases he
  | categorical levels c =>
    rw [show fi.eval ty d = _ from h.2 ⟨.drop, ty.nan, ty.none⟩ d] at he
    simp only [bind_ok, categoricalValue, pure_ok, Prod.mk.injEq] at he
    obtain ⟨s, hs', codes, hc, rfl, he⟩ := he
    rw [← (hs s hs' l he).1, ← categoricalToInt_length hc]
    rfl

/-! ### The builders -/

theorem forall₂_two {A B : Type} {R : A → B → Prop} {a b : A} {m : List B} (h : List.Forall₂ R [a, b] m) :
    ∃ x y, m = [x, y] ∧ R a x ∧ R b y := by
  cases h with
  | cons h1 h =>
    cases h with
    | cons h2 h =>
      cases h
      exact ⟨_, _, rfl, h1, h2⟩

theorem forall₂_one {A B : Type} {R : A → B → Prop} {a : A} {m : List B} (h : List.Forall₂ R [a] m) :
    ∃ x, m = [x] ∧ R a x := by
  cases h with
  | cons h1 h => cases h; exact ⟨_, rfl, h1⟩

/-- A coding without terms. -/
def EmptyCoding (c : Coding F D K) : Prop := c.termCodings = [] ∧ c.factorInfos = []

theorem builders_sound {H : Type} [DecidableEq H] {P : Setting F D K H} (hw : World P)
    {chunks : List D} {tls : List (List (Term F))} (hnd : ∀ tl ∈ tls, ∀ t ∈ tl, t.factors.Nodup)
    {dis : List (DesignInfo F D K)} (h : designMatrixBuilders P chunks tls = .ok dis) :
    ∃ cs, List.Forall₂ IsDesign dis cs ∧ SameIdentity (Spec.factorsOf cs) ∧
      (∀ ty data, IndexFits ty (Spec.factorsOf cs) data) ∧ List.Forall₂ (fun tl c => tl = [] → EmptyCoding c) tls cs := by
  obtain ⟨cs, h1, h2, _, _, isNum, _, h3⟩ := builders_consistent hw.visits hnd h
  obtain ⟨eval, he, hall⟩ := builders_own hw.visits h
  refine ⟨cs, h1, h2, ?_, h3.imp ?_⟩
  · intro ty data fi hfi v l hv
    simp only [Spec.factorsOf, List.mem_flatMap, List.mem_map] at hfi
    obtain ⟨c, hc, p, hp, rfl⟩ := hfi
    obtain ⟨d, hd, hdc⟩ := exists_mem_of_forall₂' h1 hc
    obtain ⟨T, _, hT⟩ := hall d hd c (coding_of_isDesign hdc) p hp
    exact treated_fits hT (fun s hs => hw.fits _ _ he _ _ s hs) hv
  · rintro tl c ⟨g1, _, ps, hps, _, hout⟩ rfl
    simp only [List.zipIdx_nil, List.perm_nil] at hps
    subst hps
    refine ⟨by simpa using hout, ?_⟩
    cases hc : c.factorInfos with
    | nil => rfl
    | cons p q =>
      have := (g1 p.1).mp (by rw [hc]; simp)
      simp at this

/-- What is known about the designs of a formula-like. -/
structure BuilderPair (data : D) (l r : DesignInfo F D K) (cl cr : Coding F D K) : Prop where
  left : IsDesign l cl
  right : IsDesign r cr
  same : SameIdentity (Spec.factorsOf [cl, cr])
  fits : ∀ ty, IndexFits ty (Spec.factorsOf [cl, cr]) data

theorem descBuilders_sound {H : Type} [DecidableEq H] {P : Setting F D K H} (hw : World P) {chunks : List D} {data : D}
    {m : ModelDesc F} (hm : ∀ t ∈ m.lhs ++ m.rhs, t.factors.Nodup) {o : Option (List (DesignInfo F D K))}
    (h : descBuilders P chunks m = .ok o) :
    ∃ l r cl cr, o = some [l, r] ∧ designMatrixBuilders P chunks [m.lhs, m.rhs] = .ok [l, r] ∧
      BuilderPair data l r cl cr ∧ (m.lhs = [] → EmptyCoding cl) := by
  simp only [descBuilders, bind_ok, pure_ok] at h
  obtain ⟨dis, hd, rfl⟩ := h
  obtain ⟨cs, h1, h2, h3, h4⟩ := builders_sound hw (tls := [m.lhs, m.rhs]) (by
    intro tl htl t ht
    simp only [List.mem_cons, List.not_mem_nil, or_false] at htl
    rcases htl with rfl | rfl
    · exact hm t (by simp [ht])
    · exact hm t (by simp [ht])) hd
  obtain ⟨cl, cr, rfl, e1, _⟩ := forall₂_two h4
  obtain ⟨l, r, rfl, d1, d2⟩ := forall₂_two h1.flip
  exact ⟨l, r, cl, cr, rfl, hd, ⟨d1, d2, h2, (fun ty => h3 ty data)⟩, e1⟩

/-- The formula-like stands for designs. -/
def HasDesigns : FormulaLike F D K → Prop
  | .pair _ _ => False
  | .tuple _ => False
  | .array _ => False
  | _ => True

theorem tryIncrBuilders_none {H : Type} [DecidableEq H] {P : Setting F D K H} {chunks : List D} {f : FormulaLike F D K}
    (h : ¬ HasDesigns f) : tryIncrBuilders P chunks f = .ok none := by
  cases f <;> first | rfl | exact absurd trivial h

theorem emptyCoding_columns {d : DesignInfo F D K} {c : Coding F D K} (h : IsDesign d c) (he : EmptyCoding c) :
    d.columnNames = [] := by
  obtain ⟨name, names, hd⟩ := h
  have hg := make_good.mp hd
  have := hg.total
  rw [he.1] at this
  simp only [List.map_nil, List.sum_nil] at this
  have hn : names = [] := List.length_eq_zero_iff.mp this.symm
  rw [DesignInfo.columnNames, hg.indexes, hn]
  rfl

theorem tryIncrBuilders_sound {H : Type} [DecidableEq H] {P : Setting F D K H} (hw : World P) {chunks : List D} {data : D}
    {f : FormulaLike F D K} (hf : Sound data f) (hb : HasDesigns f) {o : Option (List (DesignInfo F D K))}
    (h : tryIncrBuilders P chunks f = .ok o) :
    ∃ l r cl cr, o = some [l, r] ∧ BuilderPair data l r cl cr ∧ (NoOutcome f → l.columnNames = []) ∧
      (NoOutcome f → (∀ l r, f ≠ .designs l r) → EmptyCoding cl) ∧
      (∀ m, modelOf f = some m → designMatrixBuilders P chunks [m.lhs, m.rhs] = .ok [l, r]) := by
  have hdesc : ∀ m, modelOf f = some m → (NoOutcome f → m.lhs = []) → (∀ t ∈ m.lhs ++ m.rhs, t.factors.Nodup) →
      ∀ o, descBuilders P chunks m = .ok o →
      ∃ l r cl cr, o = some [l, r] ∧ BuilderPair data l r cl cr ∧ (NoOutcome f → l.columnNames = []) ∧
        (NoOutcome f → (∀ l r, f ≠ .designs l r) → EmptyCoding cl) ∧
        (∀ m, modelOf f = some m → designMatrixBuilders P chunks [m.lhs, m.rhs] = .ok [l, r]) := by
    intro m hm hno hn o ho
    obtain ⟨l, r, cl, cr, h1, h2, h3, h4⟩ := descBuilders_sound (data := data) hw hn ho
    refine ⟨l, r, cl, cr, h1, h3, fun h => emptyCoding_columns h3.left (h4 (hno h)), fun h _ => h4 (hno h), ?_⟩
    intro m' hm'
    obtain rfl : m = m' := Option.some.inj (hm.symm.trans hm')
    exact h2
  cases f with
  | design d =>
    obtain ⟨c, c1, c2, c3⟩ := hf
    simp only [tryIncrBuilders, bind_ok, pure_ok] at h
    obtain ⟨dis, hd, e, he, rfl⟩ := h
    obtain ⟨cs, h1, _, _, h4⟩ := builders_sound hw (tls := [[]]) (by simp) hd
    obtain ⟨ce, rfl, hce⟩ := forall₂_one h4
    obtain ⟨e', rfl, hee⟩ := forall₂_one h1.flip
    obtain rfl : e' = e := Except.ok.inj he
    have hempty := hce rfl
    have hfac : Spec.factorsOf [ce, c] = Spec.factorsOf [c] := by
      simp [Spec.factorsOf, hempty.2]
    refine ⟨e', d, ce, c, rfl, ⟨hee, c1, ?_, ?_⟩, fun _ => emptyCoding_columns hee hempty, fun _ _ => hempty, ?_⟩
    · rw [hfac]; exact c2
    · rw [hfac]; exact c3
    · intro m hm; cases hm
  | designs l r =>
    obtain ⟨cl, cr, c1, c2, c3, c4⟩ := hf
    cases h
    exact ⟨l, r, cl, cr, rfl, ⟨c1, c2, c3, c4⟩, fun h => h, fun _ h => absurd rfl (h l r), fun m hm => by cases hm⟩
  | provider result =>
    simp only [tryIncrBuilders, bind_ok] at h
    obtain ⟨om, h0, m, h1, h⟩ := h
    subst h0
    cases om with
    | none => cases h1
    | some m' =>
      obtain rfl : m' = m := Except.ok.inj h1
      exact hdesc m' rfl (fun h => h m' rfl) (hf m' rfl) o h
  | text parsed =>
    simp only [tryIncrBuilders, bind_ok] at h
    obtain ⟨m, h0, h⟩ := h
    subst h0
    exact hdesc m rfl (fun h => h m rfl) (hf m rfl) o h
  | desc m => exact hdesc m rfl (fun h => h m rfl) (hf m rfl) o h
  | pair _ _ => exact hb.elim
  | tuple _ => exact hb.elim
  | array _ => exact hb.elim

/-! ### The matrices -/

theorem asTables_ok {dis : List (DesignInfo F D K)} {b : Built K} {t : Table F D K × Table F D K} :
    asTables dis b = .ok t ↔ dis = [t.1.info, t.2.info] ∧ b.mats = [t.1.mat, t.2.mat] ∧ t.1.index = b.index ∧
      t.2.index = b.index := by
  obtain ⟨⟨l, x, i⟩, ⟨r, y, j⟩⟩ := t
  simp only [asTables]
  constructor
  · intro h
    split at h
    · simp only [Except.ok.injEq, Prod.mk.injEq, Table.mk.injEq] at h
      obtain ⟨⟨rfl, rfl, rfl⟩, rfl, rfl, rfl⟩ := h
      rename_i _ h1
      exact ⟨rfl, h1, rfl, rfl⟩
    · cases h
  · rintro ⟨rfl, h2, rfl, rfl⟩
    rw [h2]

/-- What `_do_highlevel_design` returns for formulas and designs. -/
theorem highLevel_built {H : Type} [DecidableEq H] [Mul K] [One K] {P : Setting F D K H} (hw : World P)
    {isnan : K → Bool} {dataIndex : Option (List Label)} {data : D} {rt : ReturnType} {f : FormulaLike F D K}
    (hf : Sound data f) (hb : HasDesigns f) {t : Table F D K × Table F D K}
    (h : highLevelDesign P isnan dataIndex data rt f = .ok t) :
    rt ≠ .other ∧ tryIncrBuilders P [data] f = .ok (some [t.1.info, t.2.info]) ∧
    buildDesignMatrices isnan P.na (rt = .dataframe) dataIndex [t.1.info, t.2.info] data =
      .ok ⟨[t.1.mat, t.2.mat], t.1.index⟩ ∧ t.2.index = t.1.index ∧
    ∃ cl cr, BuilderPair data t.1.info t.2.info cl cr ∧ (NoOutcome f → t.1.info.columnNames = []) ∧
      (NoOutcome f → (∀ l r, f ≠ .designs l r) → EmptyCoding cl) ∧
      (∀ m, modelOf f = some m → designMatrixBuilders P [data] [m.lhs, m.rhs] = .ok [t.1.info, t.2.info]) := by
  simp only [highLevelDesign] at h
  split at h
  · cases h
  · rename_i hrt
    simp only [bind_ok] at h
    obtain ⟨o, ho, h⟩ := h
    obtain ⟨l, r, cl, cr, rfl, hp, h2, h3, h4⟩ := tryIncrBuilders_sound hw hf hb ho
    simp only [bind_ok] at h
    obtain ⟨b, hbuild, h⟩ := h
    rw [asTables_ok] at h
    obtain ⟨h5, h6, h7, h8⟩ := h
    simp only [List.cons.injEq, and_true] at h5
    obtain ⟨rfl, rfl⟩ := h5
    refine ⟨hrt, ho, ?_, h8.trans h7.symm, cl, cr, hp, h2, h3, h4⟩
    rw [hbuild, ← h6, h7]

end Patsy.Build
