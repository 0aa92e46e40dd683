import Verif.Lemmas.Reorder

/-!
# Rows in another order: matrices
-/

set_option linter.unusedSectionVars false

namespace Patsy.Spec

open Patsy.Build Patsy.Desc Patsy.Cat

variable {F D K A B : Type} [DecidableEq F] {n : Nat} {σ : Nat → Nat}

theorem moved_unique {l a b : List B} (ha : Moved n σ l a) (hb : Moved n σ l b) : a = b := by
  apply List.ext_getElem?
  intro q
  rcases Nat.lt_or_ge q n with hq | hq
  · rw [ha.2.2 q hq, hb.2.2 q hq]
  · rw [List.getElem?_eq_none (by rw [ha.2.1]; exact hq), List.getElem?_eq_none (by rw [hb.2.1]; exact hq)]

theorem mapM_some_get {g : A → Option B} {l : List A} {m : List B} (h : l.mapM g = some m) :
    m.length = l.length ∧ ∀ (i : Nat) (a : A), l[i]? = some a → m[i]? = g a := by
  rw [mapM_some] at h
  induction h with
  | nil => exact ⟨rfl, by simp⟩
  | cons h1 _ ih =>
    refine ⟨by simp [ih.1], fun i a hi => ?_⟩
    cases i with
    | zero => simp only [List.getElem?_cons_zero, Option.some.injEq] at hi ⊢; rw [← hi, h1]
    | succ i => exact ih.2 i a (by simpa using hi)

theorem mapM_some_of {g : A → Option B} : ∀ {l : List A}, (∀ a ∈ l, (g a).isSome) → ∃ m, l.mapM g = some m := by
  intro l
  simp only [mapM_some]
  induction l with
  | nil => exact fun _ => ⟨[], .nil⟩
  | cons a l ih =>
    intro h
    obtain ⟨m, hm⟩ := ih fun a ha => h a (by simp [ha])
    obtain ⟨b, hb⟩ := Option.isSome_iff_exists.mp (h a (by simp))
    exact ⟨b :: m, .cons hb hm⟩

theorem mapM_isSome {g : A → Option B} {l : List A} {m : List B} (h : l.mapM g = some m) : ∀ a ∈ l, (g a).isSome := by
  intro a ha
  obtain ⟨b, _, hb⟩ := exists_mem_of_forall₂ (mapM_some.mp h) ha
  simp [hb]

/-- What is computed row by row can be computed in the other order. -/
theorem sameRows_mapM {g : Nat → Option B} {old new : List Nat} (hsub : ∀ r ∈ new, r ∈ old) {l : List B}
    (h : old.mapM g = some l) : ∃ l', new.mapM g = some l' ∧ SameRows old new l l' := by
  obtain ⟨l', h'⟩ := mapM_some_of (g := g) (l := new) fun r hr => mapM_isSome h r (hsub r hr)
  obtain ⟨a1, a2⟩ := mapM_some_get h
  obtain ⟨b1, b2⟩ := mapM_some_get h'
  refine ⟨l', h', a1, b1, fun i j r hi hj => ?_⟩
  rw [a2 i r hi, b2 j r hj]

theorem movedVal_nrows {v v' : Value K} (h : MovedVal n σ v v') : v.nrows = n ∧ v'.nrows = n := by
  match v, v', h with
  | .num _ _, .num _ _, h => exact ⟨h.2.1, h.2.2.1⟩
  | .cat _, .cat _, h => exact ⟨h.1, h.2.1⟩

theorem movedVal_kind {T : FType} {v v' : Value K} (h : MovedVal n σ v v') (hk : kindOK T v) : kindOK T v' := by
  match T, v, v', h with
  | .numerical _, .num _ _, .num _ _, h => exact h.1.trans hk
  | .categorical _, .cat _, .cat _, h => trivial

theorem movedVal_cell {v v' : Value K} (h : MovedVal n σ v v') {q : Nat} (hq : q < n) : cellOf v' q = cellOf v (σ q) := by
  match v, v', h with
  | .num _ _, .num _ _, h => simp only [cellOf, h.2.2.2 q hq]
  | .cat _, .cat _, h => simp only [cellOf, h.2.2 q hq]

/-- The numbers of the rows that are kept, in the new order. -/
theorem filter_map_range (kept : Nat → Bool) :
    ((List.range n).filter fun q => kept (σ q)).map σ = ((List.range n).map σ).filter kept := by
  rw [List.filter_map]
  rfl

variable [Mul K] [One K]

/-- The matrices for the new data. -/
theorem areMatrices_moved {cs : List (Coding F D K)} {V V' : FactorInfo F D K → Value K} {old news : List Nat}
    (hV : ∀ fi ∈ Spec.factorsOf cs, ∀ q ∈ news, cellOf (V' fi) q = cellOf (V fi) (σ q)) (hsub : ∀ q ∈ news, σ q ∈ old)
    {mats : List (Mat K)} (h : AreMatrices cs V old mats) :
    ∃ mats', AreMatrices cs V' news mats' ∧ List.Forall₂ (SameMat old (news.map σ)) mats mats' := by
  unfold AreMatrices at h
  have hcs : ∀ c ∈ cs, ∀ q ∈ news, designCells c V' q = designCells c V (σ q) := by
    intro c hc q hq
    funext f
    unfold designCells
    cases hd : dictGet c.factorInfos f with
    | none => rfl
    | some fi =>
      exact hV fi (List.mem_flatMap.mpr ⟨c, hc, List.mem_map.mpr ⟨_, dictGet_mem hd, rfl⟩⟩) q hq
  clear hV
  induction h with
  | nil => exact ⟨[], .nil, .nil⟩
  | @cons c m cs ms h1 _ ih =>
    obtain ⟨mats', i1, i2⟩ := ih fun c hc => hcs c (by simp [hc])
    obtain ⟨hr, hm⟩ := h1
    have hnews : news.map (designCells c V') = (news.map σ).map (designCells c V) := by
      rw [List.map_map]
      exact List.map_congr_left fun q hq => hcs c (by simp) q hq
    have hcol : ∃ cols', IsMatrix c (news.map (designCells c V')) cols' ∧
        List.Forall₂ (SameRows old (news.map σ)) m.cols cols' := by
      rw [hnews]
      unfold IsMatrix at hm ⊢
      clear ih i1 i2 hcs hnews
      generalize columnsOf c = L at hm
      generalize m.cols = M at hm
      induction hm with
      | nil => exact ⟨[], .nil, .nil⟩
      | @cons col vals _ _ h2 _ ih =>
        obtain ⟨cols', j1, j2⟩ := ih
        rw [List.mapM_map] at h2
        obtain ⟨l', k1, k2⟩ := sameRows_mapM (new := news.map σ) (by
          intro r hr
          obtain ⟨q, hq, rfl⟩ := List.mem_map.mp hr
          exact hsub q hq) h2
        refine ⟨l' :: cols', .cons ?_ j1, .cons k2 j2⟩
        rw [List.mapM_map]
        exact k1
    obtain ⟨cols', j1, j2⟩ := hcol
    exact ⟨⟨news.length, cols'⟩ :: mats', .cons ⟨rfl, j1⟩ i1, .cons ⟨hr, by simp, j2⟩ i2⟩

/-- `build_design_matrices` on the data with the rows in another order. -/
theorem build_moved (hσ : Rearranges n σ) {isnan : K → Bool} {na : NAAction} {frame : Bool}
    {dataIndex dataIndex' : Option (List Build.Label)} (hdi : MovedLabels n σ dataIndex dataIndex')
    {dis : List (DesignInfo F D K)} {data data' : D} {cs : List (Coding F D K)} (hne : dis ≠ [])
    (hdis : List.Forall₂ IsDesign dis cs) (hid : SameIdentity (Spec.factorsOf cs))
    (hfit : ∀ d, IndexFits na.types (Spec.factorsOf cs) d)
    (hmove : ∀ fi ∈ Spec.factorsOf cs, ∀ v i, fi.eval na.types data = .ok (v, i) →
      ∃ v' i', fi.eval na.types data' = .ok (v', i') ∧ MovedVal n σ v v' ∧ MovedLabels n σ i i')
    {b : Built K} (h : buildDesignMatrices isnan na frame dataIndex dis data = .ok b) :
    ∃ V idx b', Evaluation na.types (Spec.factorsOf cs) dataIndex data V n idx ∧
      buildDesignMatrices isnan na frame dataIndex' dis data' = .ok b' ∧
      List.Forall₂ (SameMat ((List.range n).filter (complete na isnan (Spec.factorsOf cs) V))
        (((List.range n).map σ).filter (complete na isnan (Spec.factorsOf cs) V))) b.mats b'.mats ∧
      (frame = false → b.index = none ∧ b'.index = none) ∧
      (frame = true → (dataIndex ≠ none ∨ ∃ fi ∈ Spec.factorsOf cs, ∃ v l, fi.eval na.types data = .ok (v, some l)) →
        ∃ l l', b.index = some l ∧ b'.index = some l' ∧
          SameRows ((List.range n).filter (complete na isnan (Spec.factorsOf cs) V))
            (((List.range n).map σ).filter (complete na isnan (Spec.factorsOf cs) V)) l l') ∧
      (frame = true → ¬ (dataIndex ≠ none ∨ ∃ fi ∈ Spec.factorsOf cs, ∃ v l, fi.eval na.types data = .ok (v, some l)) →
        b.index = some (((List.range n).filter (complete na isnan (Spec.factorsOf cs) V)).map Build.Label.row) ∧
        b'.index = some (((List.range n).filter fun q => complete na isnan (Spec.factorsOf cs) V (σ q)).map
          Build.Label.row)) := by
  rw [Props.build_keeps_complete_rows hne hdis hid (hfit data)] at h
  obtain ⟨V, n0, idx, hev, hraise, hmats, hidx⟩ := h
  -- the number of rows
  obtain rfl : n0 = n := by
    cases hfs : Spec.factorsOf cs with
    | nil =>
      obtain ⟨l, hl⟩ := Option.ne_none_iff_exists'.mp (hev.known hfs)
      rw [hl] at hdi
      match dataIndex', hdi with
      | some l', hdi => rw [← hev.length, ← hev.frame l hl, hdi.1]
    | cons fi fis =>
      have hfi : fi ∈ Spec.factorsOf cs := by simp [hfs]
      obtain ⟨i, hi, _⟩ := hev.value fi hfi
      obtain ⟨v', i', _, h2, _⟩ := hmove fi hfi _ _ hi
      rw [← hev.rows fi hfi, (movedVal_nrows h2).1]
  -- the values
  obtain ⟨V', hV'⟩ : ∃ V' : FactorInfo F D K → Value K, ∀ fi ∈ Spec.factorsOf cs, ∀ i, fi.eval na.types data = .ok (V fi, i) →
      ∃ i', fi.eval na.types data' = .ok (V' fi, i') ∧ MovedVal n0 σ (V fi) (V' fi) ∧ MovedLabels n0 σ i i' := by
    refine ⟨fun fi => match fi.eval na.types data' with | .ok (v, _) => v | .error _ => V fi, fun fi hfi i hi => ?_⟩
    obtain ⟨v', i', h1, h2, h3⟩ := hmove fi hfi _ _ hi
    refine ⟨i', ?_⟩
    simp only [h1]
    exact ⟨trivial, h2, h3⟩
  have hcell : ∀ fi ∈ Spec.factorsOf cs, ∀ q, q < n0 → cellOf (V' fi) q = cellOf (V fi) (σ q) := by
    intro fi hfi q hq
    obtain ⟨i, hi, _⟩ := hev.value fi hfi
    obtain ⟨_, _, h2, _⟩ := hV' fi hfi i hi
    exact movedVal_cell h2 hq
  -- the labels
  generalize hix : (dataIndex ≠ none ∨ ∃ fi ∈ Spec.factorsOf cs, ∃ v l, fi.eval na.types data = .ok (v, some l)) = indexed
  obtain ⟨mv, hmv⟩ : ∃ l', Moved n0 σ idx l' := by
    obtain ⟨l', hl'⟩ := mapM_some_of (g := fun q => idx[σ q]?) (l := List.range n0) (by
      intro q hq
      have := rearranges_lt hσ (List.mem_range.mp hq)
      rw [← hev.length] at this
      simp [this])
    obtain ⟨h1, h2⟩ := mapM_some_get hl'
    refine ⟨l', hev.length, by simpa using h1, fun q hq => h2 q q (by simp [hq])⟩
  obtain ⟨idx', hi1, hi2⟩ : ∃ idx', (indexed → idx' = mv) ∧ (¬ indexed → idx' = (List.range n0).map Build.Label.row) := by
    by_cases hx : indexed
    · exact ⟨mv, fun _ => rfl, fun h => absurd hx h⟩
    · exact ⟨_, fun h => absurd h hx, fun _ => rfl⟩
  have hframe : ∀ l', dataIndex' = some l' → l' = idx' := by
    intro l' hl'
    rw [hl'] at hdi
    match dataIndex, hdi, hev.frame, hix with
    | some l, hdi, hfr, hix =>
      rw [hi1 (hix ▸ Or.inl (by simp))]
      rw [hfr l rfl] at hdi
      exact moved_unique hdi hmv
  have hev' : Evaluation na.types (Spec.factorsOf cs) dataIndex' data' V' n0 idx' := by
    refine ⟨?_, ?_, ?_, hframe, ?_, ?_, ?_⟩
    · intro fi hfi
      obtain ⟨i, hi, hl⟩ := hev.value fi hfi
      obtain ⟨i', h1, _, h3⟩ := hV' fi hfi i hi
      refine ⟨i', h1, ?_⟩
      rintro l' rfl
      match i, h3 with
      | some l, h3 =>
        rw [hi1 (hix ▸ Or.inr ⟨fi, hfi, _, l, hi⟩)]
        rw [hl l rfl] at h3
        exact moved_unique h3 hmv
    · intro fi hfi
      obtain ⟨i, hi, _⟩ := hev.value fi hfi
      obtain ⟨_, _, h2, _⟩ := hV' fi hfi i hi
      exact movedVal_kind h2 (hev.kind fi hfi)
    · intro fi hfi
      obtain ⟨i, hi, _⟩ := hev.value fi hfi
      obtain ⟨_, _, h2, _⟩ := hV' fi hfi i hi
      exact (movedVal_nrows h2).2
    · by_cases hx : indexed
      · rw [hi1 hx]; exact hmv.2.1
      · rw [hi2 hx]; simp
    · intro hd hall
      refine hi2 ?_
      rw [← hix]
      rintro (hne | ⟨fi, hfi, v, l, hv⟩)
      · rw [hd] at hdi
        match dataIndex, hdi, hne with
        | none, _, hne => exact hne rfl
      · obtain ⟨v', i', h1, _, h3⟩ := hmove fi hfi _ _ hv
        match i', h3, h1 with
        | some l', _, h1 => exact hall fi hfi _ _ h1
    · intro hfs hd
      refine hev.known hfs ?_
      rw [hd] at hdi
      match dataIndex, hdi with
      | none, _ => rfl
  -- the rows that are kept
  have hcomp : ∀ q ∈ List.range n0, complete na isnan (Spec.factorsOf cs) V' q = complete na isnan (Spec.factorsOf cs) V (σ q) := by
    intro q hq
    unfold complete
    rw [Bool.eq_iff_iff, List.all_eq_true, List.all_eq_true]
    refine forall₂_congr fun fi hfi => ?_
    rw [hcell fi hfi q (List.mem_range.mp hq)]
  have hnew : completeRows na isnan (Spec.factorsOf cs) V' n0 =
      (List.range n0).filter fun q => complete na isnan (Spec.factorsOf cs) V (σ q) := List.filter_congr hcomp
  have hin : ∀ q ∈ (List.range n0).filter (fun q => complete na isnan (Spec.factorsOf cs) V (σ q)),
      σ q ∈ (List.range n0).filter (complete na isnan (Spec.factorsOf cs) V) := by
    intro q hq
    obtain ⟨h1, h2⟩ := List.mem_filter.mp hq
    exact List.mem_filter.mpr ⟨List.mem_range.mpr (rearranges_lt hσ (List.mem_range.mp h1)), h2⟩
  obtain ⟨mats', hm1, hm2⟩ := areMatrices_moved (V' := V') (σ := σ)
    (news := (List.range n0).filter fun q => complete na isnan (Spec.factorsOf cs) V (σ q))
    (fun fi hfi q hq => hcell fi hfi q (List.mem_range.mp (List.mem_filter.mp hq).1)) hin hmats
  rw [filter_map_range] at hm2
  refine ⟨V, idx, ⟨mats', if frame then
    some ((completeRows na isnan (Spec.factorsOf cs) V' n0).filterMap fun r => idx'[r]?) else none⟩, hev, ?_, hm2, ?_, ?_, ?_⟩
  · rw [Props.build_keeps_complete_rows hne hdis hid (hfit data')]
    refine ⟨V', n0, idx', hev', ?_, by rw [hnew]; exact hm1, rfl⟩
    intro hr
    have := hraise hr
    rw [hnew, List.filter_eq_self]
    rw [completeRows, List.filter_eq_self] at this
    intro q hq
    exact this _ (List.mem_range.mpr (rearranges_lt hσ (List.mem_range.mp hq)))
  · rintro rfl
    exact ⟨by simpa using hidx, by simp⟩
  · rintro rfl hx
    simp only [if_true] at hidx ⊢
    refine ⟨_, _, hidx, rfl, ?_⟩
    have hlen := hev.length
    obtain ⟨l, hl⟩ := mapM_some_of (g := fun r => idx[r]?) (l := (List.range n0).filter (complete na isnan (Spec.factorsOf cs) V)) (by
      intro r hr
      have := List.mem_range.mp (List.mem_filter.mp hr).1
      simp [hlen, this])
    obtain ⟨l', hl1, hl2⟩ := sameRows_mapM (new := ((List.range n0).map σ).filter (complete na isnan (Spec.factorsOf cs) V)) (by
      intro r hr
      obtain ⟨h1, h2⟩ := List.mem_filter.mp hr
      obtain ⟨q, hq, rfl⟩ := List.mem_map.mp h1
      exact List.mem_filter.mpr ⟨List.mem_range.mpr (rearranges_lt hσ (List.mem_range.mp hq)), h2⟩) hl
    have hfm : ∀ {g : Nat → Option Build.Label} {L : List Nat} {m : List Build.Label}, L.mapM g = some m → L.filterMap g = m := by
      intro g L m h
      rw [mapM_some] at h
      induction h with
      | nil => rfl
      | cons h1 _ ih => rw [List.filterMap_cons, h1, ih]
    rw [show completeRows na isnan (Spec.factorsOf cs) V n0 =
      (List.range n0).filter (complete na isnan (Spec.factorsOf cs) V) from rfl, hfm hl, hnew]
    have : ((List.range n0).filter fun q => complete na isnan (Spec.factorsOf cs) V (σ q)).filterMap (fun r => idx'[r]?) = l' := by
      rw [← hfm hl1, ← filter_map_range, List.filterMap_map]
      refine List.filterMap_congr fun q hq => ?_
      rw [hi1 hx]
      exact hmv.2.2 q (List.mem_range.mp (List.mem_filter.mp hq).1)
    rw [this]
    exact hl2
  · rintro rfl hx
    simp only [if_true] at hidx ⊢
    have hix' : idx = (List.range n0).map Build.Label.row := by
      refine hev.default ?_ ?_
      · by_contra hd
        exact hx (hix ▸ Or.inl hd)
      · intro fi hfi v l hv
        exact hx (hix ▸ Or.inr ⟨fi, hfi, v, l, hv⟩)
    have hrow : ∀ (L : List Nat), (∀ r ∈ L, r < n0) → L.filterMap (fun r => ((List.range n0).map Build.Label.row)[r]?) =
        L.map Build.Label.row := by
      intro L hL
      rw [← List.filterMap_eq_map]
      refine List.filterMap_congr fun r hr => ?_
      simp [hL r hr]
    constructor
    · rw [hidx, hix', hrow]
      · rfl
      · intro r hr
        exact List.mem_range.mp (List.mem_filter.mp hr).1
    · rw [hi2 hx, hrow, hnew]
      intro r hr
      exact List.mem_range.mp (List.mem_filter.mp hr).1

end Patsy.Spec
