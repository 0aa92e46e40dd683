import Verif.Props.TermOrder
import Verif.Props.Missing
import Verif.Props.Names
import Verif.Lemmas.RenameBuilders
import Verif.Lemmas.HighLevel
import Verif.Props.Builders
import Verif.Model.DesignTerms

/-!
# Making a design again from its own terms (lemmas for C67)
-/

set_option linter.unusedSectionVars false

namespace Patsy.Build

open Patsy.Desc Patsy.Redundancy Patsy.Spec

variable {F D K H : Type} [DecidableEq F] [DecidableEq H]

/-! ### The order of the terms -/

theorem findIdx_blocks {A B : Type} [DecidableEq B] {key : A → B} {block : B → List A} {l1 l2 : List B} {a b : B}
    (hkey : ∀ c ∈ l1 ++ a :: l2, ∀ x ∈ block c, key x = c) (hne : ∃ x, x ∈ block a) (hn : (l1 ++ a :: l2).Nodup) (hb : b ∈ l2) :
    (((l1 ++ a :: l2).flatMap block).findIdx fun x => decide (key x = a)) <
      ((l1 ++ a :: l2).flatMap block).findIdx fun x => decide (key x = b) := by
  obtain ⟨x, hx⟩ := hne
  have hab : ∀ c ∈ l1 ++ [a], c ≠ b := by
    rintro c hc rfl
    have hn' : ((l1 ++ [a]) ++ l2).Nodup := by simpa using hn
    exact List.disjoint_of_nodup_append hn' hc hb
  have hsplit : (l1 ++ a :: l2).flatMap block = (l1 ++ [a]).flatMap block ++ l2.flatMap block := by
    rw [← List.flatMap_append]; simp
  rw [hsplit, List.findIdx_append, List.findIdx_append]
  have h1 : ((l1 ++ [a]).flatMap block).findIdx (fun x => decide (key x = a)) < ((l1 ++ [a]).flatMap block).length := by
    rw [List.findIdx_lt_length]
    exact ⟨x, List.mem_flatMap.mpr ⟨a, by simp, hx⟩, by simpa using hkey a (by simp) x hx⟩
  have h2 : ¬ ((l1 ++ [a]).flatMap block).findIdx (fun x => decide (key x = b)) < ((l1 ++ [a]).flatMap block).length := by
    rw [List.findIdx_lt_length]
    rintro ⟨y, hy, he⟩
    obtain ⟨c, hc, hy⟩ := List.mem_flatMap.mp hy
    have hck := hkey c (by simp only [List.mem_append, List.mem_singleton, List.mem_cons] at hc ⊢; tauto) y hy
    exact hab c hc (hck.symm.trans (by simpa using he))
  rw [if_pos h1, if_neg h2]
  omega

theorem sortByDegree_perm (ts : List (Term F)) : (sortByDegree ts).Perm ts := List.perm_insertionSort _ _

theorem sortByDegree_idem (ts : List (Term F)) : sortByDegree (sortByDegree ts) = sortByDegree ts := by
  unfold sortByDegree
  have : Std.Total (fun s t : Term F => s.factors.length ≤ t.factors.length) := ⟨fun a b => Nat.le_total _ _⟩
  have : IsTrans (Term F) (fun s t : Term F => s.factors.length ≤ t.factors.length) := ⟨fun a b c => Nat.le_trans⟩
  exact List.Pairwise.insertionSort_eq (List.pairwise_insertionSort _ _)

theorem order_again (nums : List (F × Nat)) (ts : List (Term F)) :
    let order := fun ts : List (Term F) => moveEmptyFirst (buckets nums ts).1 (buckets nums ts).2
    let block := fun (ts : List (Term F)) b => sortByDegree ((dictGet (buckets nums ts).2 b).getD [])
    let out := (order ts).flatMap (block ts)
    order out = order ts ∧ ∀ b ∈ order ts, block out b = block ts b := by
  intro order block out
  obtain ⟨h1, h2, h3⟩ := order_spec nums ts
  obtain ⟨k1, k2, k3⟩ := order_spec nums out
  have hblock : ∀ b ∈ order ts, ∀ t, t ∈ block ts b ↔ t ∈ ts ∧ bucketOf nums t = b := by
    intro b hb t
    show t ∈ sortByDegree _ ↔ _
    rw [(sortByDegree_perm _).mem_iff, h3 b hb, List.mem_filter]
    simp
  have hout : ∀ t, t ∈ out ↔ t ∈ ts := by
    intro t
    rw [List.mem_flatMap]
    constructor
    · rintro ⟨b, hb, ht⟩
      exact ((hblock b hb t).mp ht).1
    · intro ht
      have hb := (h1 (bucketOf nums t)).mpr ⟨t, ht, rfl⟩
      exact ⟨_, hb, (hblock _ hb t).mpr ⟨ht, rfl⟩⟩
  have hmem : ∀ b, b ∈ order out ↔ b ∈ order ts := by
    intro b
    rw [k1, h1]
    simp only [hout]
  have hn : (order ts).Nodup := h2.imp fun {a b} h e => by subst e; exact Nat.lt_irrefl _ h
  have hn' : (order out).Nodup := k2.imp fun {a b} h e => by subst e; exact Nat.lt_irrefl _ h
  have hrank : (order ts).Pairwise fun a b => bucketRank nums out a < bucketRank nums out b := by
    rw [List.pairwise_iff_forall_sublist]
    intro a b hab
    have hlt : bucketRank nums ts a < bucketRank nums ts b := List.pairwise_iff_forall_sublist.mp h2 hab
    have hb0 : b ≠ ∅ := by
      rintro rfl
      simp [bucketRank] at hlt
    by_cases ha0 : a = ∅
    · simp [bucketRank, ha0, hb0]
    · simp only [bucketRank, ha0, hb0, if_false]
      obtain ⟨r1, r2, he, ha, hb⟩ := List.cons_sublist_iff.mp hab
      obtain ⟨s, t, rfl⟩ := List.append_of_mem ha
      have hb : b ∈ r2 := List.singleton_sublist.mp hb
      have he' : order ts = s ++ a :: (t ++ r2) := by rw [show order ts = _ from he]; simp
      have ha' : a ∈ order ts := by rw [he']; simp
      obtain ⟨u, hu, hua⟩ := (h1 a).mp ha'
      have := findIdx_blocks (key := bucketOf nums) (block := block ts) (l1 := s) (l2 := t ++ r2) (a := a) (b := b)
        (by rw [← he']; exact fun c hc x hx => ((hblock c hc x).mp hx).2) ⟨u, (hblock a ha' u).mpr ⟨hu, hua⟩⟩ (he' ▸ hn) (by simp [hb])
      rw [← he'] at this
      have hfin : (out.findIdx fun t => decide (bucketOf nums t = a)) < out.findIdx fun t => decide (bucketOf nums t = b) := this
      omega
  have heq : order out = order ts := by
    refine List.Perm.eq_of_pairwise ?_ k2 hrank ((List.perm_ext_iff_of_nodup hn' hn).mpr hmem)
    intro a b _ _ hab hba
    exact absurd hab (Nat.lt_asymm hba)
  refine ⟨heq, fun b hb => ?_⟩
  show sortByDegree _ = _
  rw [k3 b ((hmem b).mpr hb)]
  have hfil : out.filter (fun t => decide (bucketOf nums t = b)) = block ts b := by
    obtain ⟨i, hi, hib⟩ := List.getElem_of_mem hb
    refine Props.pairwise_flatten_filter (order := order ts) (blocks := (order ts).map (block ts)) ?_ hn (i := i) (b := b) ?_ ?_
    · rw [List.forall₂_map_right_iff, List.forall₂_same]
      exact fun c hc t ht => ((hblock c hc t).mp ht).2
    · rw [List.getElem?_eq_getElem hi, hib]
    · rw [List.getElem?_map, List.getElem?_eq_getElem hi, hib]; rfl
  rw [hfil]
  exact sortByDegree_idem _

theorem makeSubtermInfos_again {hash : Subterm F → H} {nums : List (F × Nat)} {coder : F → Bool → Except Err (ContrastMatrix K)}
    {ts : List (Term F)} {infos : List (Term F × List (SubtermInfo F K))} (h : makeSubtermInfos hash nums coder ts = .ok infos) :
    makeSubtermInfos hash nums coder (infos.map Prod.fst) = .ok infos := by
  obtain ⟨_, _, _, _, h4⟩ := Props.makeSubtermInfos_spec h
  obtain ⟨o1, o2⟩ := order_again nums ts
  rw [← h4] at o1 o2
  beta_reduce at o1 o2
  rw [← h]
  unfold makeSubtermInfos
  simp only [o1]
  have e1 : ∀ (l : List (Finset F)), (∀ b ∈ l, b ∈ moveEmptyFirst (buckets nums ts).1 (buckets nums ts).2) →
      (l.mapM fun b => codeBucket hash nums coder (sortByDegree ((dictGet (buckets nums (infos.map Prod.fst)).2 b).getD [])) []) =
      l.mapM fun b => codeBucket hash nums coder (sortByDegree ((dictGet (buckets nums ts).2 b).getD [])) [] := by
    intro l
    induction l with
    | nil => intro _; rfl
    | cons b l ih =>
      intro hl
      rw [List.mapM_cons, List.mapM_cons, ih fun c hc => hl c (List.mem_cons_of_mem _ hc), o2 b (hl b (by simp))]
  rw [e1 _ fun _ h => h, List.flatMap_congr o2]

/-! ### The factors of a design as a dictionary -/

/-- The same dictionary, except for the order of the entries. -/
def SameDict {A B : Type} [DecidableEq A] (d d' : List (A × B)) : Prop :=
  (∀ a, dictGet d' a = dictGet d a) ∧ ∀ p, p ∈ d' ↔ p ∈ d

theorem designFactors_mem {fis own : List (F × FactorInfo F D K)} {ts : List (Term F)} (h : designFactors fis ts = .ok own) :
    (∀ p, p ∈ own ↔ (∃ t ∈ ts, p.1 ∈ t.factors) ∧ dictGet fis p.1 = some p.2) ∧
    ∀ f, dictGet own f = if (∃ t ∈ ts, f ∈ t.factors) then dictGet fis f else none := by
  obtain ⟨h1, h2⟩ := designFactors_fold (by simp) h
  have hk : ∀ f, f ∈ own.map Prod.fst ↔ ∃ t ∈ ts, f ∈ t.factors := by
    intro f
    rw [h2]
    simp
  have hm : ∀ p, p ∈ own ↔ (∃ t ∈ ts, p.1 ∈ t.factors) ∧ dictGet fis p.1 = some p.2 := by
    intro p
    constructor
    · intro hp
      exact ⟨(hk _).mp (List.mem_map_of_mem hp), h1 p hp⟩
    · rintro ⟨h3, h4⟩
      obtain ⟨q, hq, hqp⟩ := List.mem_map.mp ((hk _).mpr h3)
      have h5 := h1 q hq
      rw [hqp, h4] at h5
      have : q = p := Prod.ext hqp (Option.some.inj h5).symm
      exact this ▸ hq
  refine ⟨hm, fun f => ?_⟩
  cases hd : dictGet own f with
  | some fi =>
    have := (hm (f, fi)).mp (dictGet_mem hd)
    rw [if_pos this.1, this.2]
  | none =>
    rw [if_neg]
    intro hf
    have := dictGet_isSome.mpr ((hk f).mpr hf)
    rw [hd] at this
    cases this

theorem expectedColumns_congr {fis fis' : List (F × FactorInfo F D K)} (h : ∀ f, dictGet fis' f = dictGet fis f)
    (cms : List (F × ContrastMatrix K)) (fs : List F) : expectedColumns fis' cms fs = expectedColumns fis cms fs := by
  induction fs with
  | nil => rfl
  | cons f fs ih => simp only [expectedColumns, h, ih]

theorem checkCoding_congr {own own' : List (F × FactorInfo F D K)} (h : SameDict own own')
    {tcs : List (Term F × List (SubtermInfo F K))} (hc : checkCoding ⟨own, tcs⟩ = .ok ()) : checkCoding ⟨own', tcs⟩ = .ok () := by
  simp only [checkCoding, bind_ok] at hc ⊢
  obtain ⟨u, h1, h2⟩ := hc
  refine ⟨u, h1, ?_⟩
  split at h2
  · cases h2
  · rename_i hs
    simp only [bind_ok] at h2
    obtain ⟨v, h3, h4⟩ := h2
    have hmem : ∀ f, f ∈ own'.map Prod.fst ↔ f ∈ own.map Prod.fst := by
      intro f
      simp only [List.mem_map, h.2]
    rw [if_neg]
    · simp only [bind_ok]
      refine ⟨(), forAll_ok.mpr fun p hp => forAll_ok.mp h3 p ((h.2 p).mp hp), ?_⟩
      rw [← h4]
      congr 1
      funext p
      congr 1
      funext st
      simp only [checkSubterm, expectedColumns_congr h.1]
    · intro hs'
      apply hs
      rw [← hs']
      simp only [sameSet, hmem]
      congr 1
      rw [Bool.eq_iff_iff]
      simp only [List.all_eq_true, decide_eq_true_eq]
      exact ⟨fun g f hf => g f ((hmem f).mp hf), fun g f hf => g f ((hmem f).mpr hf)⟩

theorem make_congr {name : F → String} {names : List String} {own own' : List (F × FactorInfo F D K)} (h : SameDict own own')
    {tcs : List (Term F × List (SubtermInfo F K))} {d : DesignInfo F D K}
    (hd : DesignInfo.make name names (some ⟨own, tcs⟩) = .ok d) :
    DesignInfo.make name names (some ⟨own', tcs⟩) = .ok { d with coding := some ⟨own', tcs⟩ } := by
  simp only [DesignInfo.make, bind_ok] at hd ⊢
  obtain ⟨u, h1, h2⟩ := hd
  refine ⟨(), checkCoding_congr h h1, ?_⟩
  split at h2
  · cases h2
  · rename_i ht
    rw [if_neg ht]
    split at h2
    · cases h2
    · rename_i hs
      rw [if_neg hs]
      simp only [bind_ok, DesignInfo.make.finish] at h2 ⊢
      obtain ⟨v, h3, w, h4, h5⟩ := h2
      cases h5
      exact ⟨v, h3, w, h4, rfl⟩

/-- The second design is the first one except for the order of its factors. -/
structure SameDesign (d d' : DesignInfo F D K) : Prop where
  indexes : d'.columnIndexes = d.columnIndexes
  slices : d'.termSlices = d.termSlices
  nameSlices : d'.termNameSlices = d.termNameSlices
  coding : ∃ c c', IsDesign d c ∧ IsDesign d' c' ∧ c'.termCodings = c.termCodings ∧ SameDict c.factorInfos c'.factorInfos

theorem terms_eq {name : F → String} {names : List String} {c : Coding F D K} {d : DesignInfo F D K}
    (h : DesignInfo.make name names (some c) = .ok d) : d.terms = some (c.termCodings.map Prod.fst) := by
  simp only [DesignInfo.make, bind_ok] at h
  obtain ⟨u, _, h2⟩ := h
  split at h2
  · cases h2
  · split at h2
    · cases h2
    · simp only [bind_ok, DesignInfo.make.finish] at h2
      obtain ⟨v, _, w, _, h5⟩ := h2
      cases h5
      simp [DesignInfo.terms, layout_keys, List.map_map, Function.comp_def]

theorem makeDesign_again {name : F → String} {hash : Subterm F → H} {nums : List (F × Nat)}
    {coder : F → Bool → Except Err (ContrastMatrix K)} {fis : List (F × FactorInfo F D K)} {ts : List (Term F)}
    {d : DesignInfo F D K} (h : makeDesign name hash nums coder fis ts = .ok d) :
    ∃ ts', d.terms = some ts' ∧ (∀ t, t ∈ ts' ↔ t ∈ ts) ∧ ∃ d', makeDesign name hash nums coder fis ts' = .ok d' ∧ SameDesign d d' := by
  simp only [makeDesign, bind_ok] at h
  obtain ⟨infos, hi, h⟩ := h
  split at h
  · rename_i hcond
    simp only [bind_ok] at h
    obtain ⟨own, ho, names, hn, h⟩ := h
    have hown := terms_eq h
    simp only at hown
    obtain ⟨_, _, _, _, h4⟩ := Props.makeSubtermInfos_spec hi
    obtain ⟨o1, _, o3⟩ := order_spec nums ts
    have hmem : ∀ t, t ∈ infos.map Prod.fst ↔ t ∈ ts := by
      intro t
      rw [h4, List.mem_flatMap]
      constructor
      · rintro ⟨b, hb, ht⟩
        rw [o3 b hb, (sortByDegree_perm _).mem_iff] at ht
        exact (List.mem_filter.mp ht).1
      · intro ht
        have hb := (o1 (bucketOf nums t)).mpr ⟨t, ht, rfl⟩
        refine ⟨_, hb, ?_⟩
        rw [o3 _ hb, (sortByDegree_perm _).mem_iff]
        exact List.mem_filter.mpr ⟨ht, by simp⟩
    refine ⟨_, hown, hmem, ?_⟩
    obtain ⟨p1, p2⟩ := designFactors_mem ho
    obtain ⟨own', ho'⟩ := Props.designFactors_total (fis := fis) (ts := infos.map Prod.fst) (by
      intro t ht f hf
      have hf' : ∃ t ∈ ts, f ∈ t.factors := ⟨t, (hmem t).mp ht, hf⟩
      obtain ⟨_, hkeys⟩ := designFactors_fold (by simp) ho
      have : f ∈ own.map Prod.fst := (hkeys f).mpr (.inr (by simpa using hf'))
      obtain ⟨q, hq, rfl⟩ := List.mem_map.mp this
      exact ⟨_, ((p1 q).mp hq).2⟩)
    obtain ⟨q1, q2⟩ := designFactors_mem ho'
    have hsame : SameDict own own' := by
      constructor
      · intro f
        rw [p2, q2]
        simp only [hmem]
      · intro p
        rw [p1, q1]
        simp only [hmem]
    have hcond' : ((infos.all fun p => (infos.map Prod.fst).any (Term.eqv p.1)) &&
        ((infos.map Prod.fst).all fun t => infos.any fun p => Term.eqv p.1 t)) = true := by
      rw [Bool.and_eq_true] at hcond ⊢
      constructor
      · rw [List.all_eq_true] at hcond ⊢
        intro p hp
        obtain ⟨t, ht, he⟩ := List.any_eq_true.mp (hcond.1 p hp)
        exact List.any_eq_true.mpr ⟨t, (hmem t).mpr ht, he⟩
      · rw [List.all_eq_true]
        intro t ht
        exact List.all_eq_true.mp hcond.2 t ((hmem t).mp ht)
    refine ⟨{ d with coding := some ⟨own', infos⟩ }, ?_, rfl, rfl, rfl, ?_⟩
    · simp only [makeDesign, bind_ok]
      refine ⟨infos, makeSubtermInfos_again hi, ?_⟩
      rw [if_pos hcond']
      simp only [bind_ok]
      exact ⟨own', ho', names, hn, make_congr hsame h⟩
    · exact ⟨⟨own, infos⟩, ⟨own', infos⟩, ⟨name, _, h⟩, ⟨name, _, make_congr hsame h⟩, rfl, hsame⟩
  · cases h

/-! ### Building from designs that differ only in the order of their factors -/

/-- The same coding, except for the order of the factors. -/
def SameCoding (c c' : Coding F D K) : Prop := c'.termCodings = c.termCodings ∧ SameDict c.factorInfos c'.factorInfos

theorem sameDesigns_codings {dis dis' : List (DesignInfo F D K)} (h : List.Forall₂ SameDesign dis dis') {cs : List (Coding F D K)}
    (hcs : List.Forall₂ IsDesign dis cs) : ∃ cs', List.Forall₂ IsDesign dis' cs' ∧ List.Forall₂ SameCoding cs cs' := by
  induction h generalizing cs with
  | nil => cases hcs; exact ⟨[], .nil, .nil⟩
  | @cons d d' l l' h1 _ ih =>
    cases hcs with
    | @cons _ c _ cs hc hcs =>
      obtain ⟨cs', i1, i2⟩ := ih hcs
      obtain ⟨c0, c', g1, g2, g3, g4⟩ := h1.coding
      have : c0 = c := Option.some.inj ((Props.coding_of_isDesign g1).symm.trans (Props.coding_of_isDesign hc))
      subst this
      exact ⟨c' :: cs', .cons g2 i1, .cons ⟨g3, g4⟩ i2⟩

theorem sameCodings_mem {cs cs' : List (Coding F D K)} (h : List.Forall₂ SameCoding cs cs') (fi : FactorInfo F D K) :
    fi ∈ Spec.factorsOf cs' ↔ fi ∈ Spec.factorsOf cs := by
  induction h with
  | nil => rfl
  | cons h1 _ ih =>
    simp only [Spec.factorsOf, List.flatMap_cons, List.mem_append, List.mem_map, h1.2.2] at ih ⊢
    rw [ih]

theorem evaluation_set {ty : NATypes} {fis fis' : List (FactorInfo F D K)} (h : ∀ fi, fi ∈ fis' ↔ fi ∈ fis)
    {dataIndex : Option (List Label)} {data : D} {V : FactorInfo F D K → Value K} {n : Nat} {idx : List Label}
    (e : Evaluation ty fis dataIndex data V n idx) : Evaluation ty fis' dataIndex data V n idx where
  value fi hfi := e.value fi ((h fi).mp hfi)
  kind fi hfi := e.kind fi ((h fi).mp hfi)
  rows fi hfi := e.rows fi ((h fi).mp hfi)
  frame := e.frame
  length := e.length
  default h1 h2 := e.default h1 fun fi hfi => h2 fi ((h fi).mpr hfi)
  known h1 := e.known (by
    cases hf : fis with
    | nil => rfl
    | cons fi l =>
      have := (h fi).mpr (by rw [hf]; simp)
      rw [h1] at this
      cases this)

theorem completeRows_set {fis fis' : List (FactorInfo F D K)} (h : ∀ fi, fi ∈ fis' ↔ fi ∈ fis) (na : NAAction) (isnan : K → Bool)
    (V : FactorInfo F D K → Value K) (n : Nat) : Spec.completeRows na isnan fis' V n = Spec.completeRows na isnan fis V n := by
  unfold Spec.completeRows
  apply List.filter_congr
  intro r _
  unfold complete
  rw [Bool.eq_iff_iff]
  simp only [List.all_eq_true, h]

theorem isMatrix_dict [Mul K] [One K] {c c' : Coding F D K} (h : SameCoding c c') (rows : List (F → Option (Cell K)))
    (cols : List (List K)) : IsMatrix c' rows cols ↔ IsMatrix c rows cols := by
  obtain ⟨h1, h2, _⟩ := h
  have hw : ∀ st, widths c'.factorInfos st = widths c.factorInfos st := by
    intro st
    have : widthOf c'.factorInfos st.contrasts = widthOf c.factorInfos st.contrasts := by
      funext f
      simp only [widthOf, h2]
    simp only [widths, this]
  have hp : ∀ (cms : List (F × ContrastMatrix K)) (cells : F → Option (Cell K)) (fs : List F) (js : List Nat) (x : K),
      prodFrom c'.factorInfos cms cells x fs js = prodFrom c.factorInfos cms cells x fs js := by
    intro cms cells fs
    induction fs with
    | nil => intro js x; cases js <;> rfl
    | cons f fs ih =>
      intro js x
      cases js with
      | nil => rfl
      | cons j js => simp only [prodFrom, entryAt, h2, ih]
  have hcol : columnsOf c' = columnsOf c := by simp only [columnsOf, h1, hw]
  simp only [IsMatrix, hcol, columnEntry, hp]

theorem areMatrices_dict [Mul K] [One K] {cs cs' : List (Coding F D K)} (h : List.Forall₂ SameCoding cs cs')
    {V : FactorInfo F D K → Value K} {kept : List Nat} {mats : List (Mat K)} :
    AreMatrices cs' V kept mats ↔ AreMatrices cs V kept mats := by
  unfold AreMatrices
  induction h generalizing mats with
  | nil => rfl
  | @cons c c' l l' h1 _ ih =>
    have hcells : designCells c' V = designCells c V := by
      funext r f
      simp only [designCells, h1.2.1]
    cases mats with
    | nil => simp
    | cons m mats => rw [List.forall₂_cons, List.forall₂_cons, ih, hcells, isMatrix_dict h1]

/-- Designs that differ only in the order of their factors give the same matrices. -/
theorem build_sameDesigns [Mul K] [One K] {dis dis' : List (DesignInfo F D K)} (h : List.Forall₂ SameDesign dis dis') (hne : dis ≠ [])
    {cs : List (Coding F D K)} (hcs : List.Forall₂ IsDesign dis cs) (hid : SameIdentity (Spec.factorsOf cs))
    (hfit : ∀ ty data, IndexFits ty (Spec.factorsOf cs) data) {isnan : K → Bool} {na : NAAction} {frame : Bool}
    {dataIndex : Option (List Label)} {data : D} {b : Built K} :
    buildDesignMatrices isnan na frame dataIndex dis' data = .ok b ↔ buildDesignMatrices isnan na frame dataIndex dis data = .ok b := by
  obtain ⟨cs', hcs', hsame⟩ := sameDesigns_codings h hcs
  have hmem := sameCodings_mem hsame
  have hne' : dis' ≠ [] := by
    rintro rfl
    cases h
    exact hne rfl
  rw [build_iff hne hcs hid (hfit _ _), build_iff hne' hcs' (fun a ha b hb => hid a ((hmem a).mp ha) b ((hmem b).mp hb))
    (fun fi hfi => hfit _ _ fi ((hmem fi).mp hfi))]
  simp only [completeRows_set hmem, areMatrices_dict hsame]
  constructor
  · rintro ⟨V, n, idx, h1, h2⟩
    exact ⟨V, n, idx, evaluation_set (fun fi => (hmem fi).symm) h1, h2⟩
  · rintro ⟨V, n, idx, h1, h2⟩
    exact ⟨V, n, idx, evaluation_set hmem h1, h2⟩

/-! ### `design_matrix_builders` -/

theorem designs_again {name : F → String} {hash : Subterm F → H} {nums : List (F × Nat)}
    {coder : F → Bool → Except Err (ContrastMatrix K)} {fis : List (F × FactorInfo F D K)} {tls : List (List (Term F))}
    {dis : List (DesignInfo F D K)} (h : tls.mapM (makeDesign name hash nums coder fis) = .ok dis) :
    ∃ tls' dis', List.Forall₂ (fun d ts => d.terms = some ts) dis tls' ∧ List.Forall₂ (fun ts ts' => ∀ t, t ∈ ts' ↔ t ∈ ts) tls tls' ∧
      tls'.mapM (makeDesign name hash nums coder fis) = .ok dis' ∧ List.Forall₂ SameDesign dis dis' := by
  rw [mapM_ok] at h
  induction h with
  | nil => exact ⟨[], [], .nil, .nil, rfl, .nil⟩
  | @cons ts d tls dis h1 _ ih =>
    obtain ⟨tls', dis', i1, i2, i3, i4⟩ := ih
    obtain ⟨ts', j1, j2, d', j3, j4⟩ := makeDesign_again h1
    refine ⟨ts' :: tls', d' :: dis', .cons j1 i1, .cons j2 i2, ?_, .cons j4 i4⟩
    rw [mapM_ok] at i3 ⊢
    exact .cons j3 i3

theorem allFactors_again {tls tls' : List (List (Term F))} (h : List.Forall₂ (fun ts ts' => ∀ t, t ∈ ts' ↔ t ∈ ts) tls tls') :
    (allFactors tls').Perm (allFactors tls) := by
  refine (List.perm_ext_iff_of_nodup (allFactors_nodup _) (allFactors_nodup _)).mpr fun f => ?_
  simp only [allFactors, List.mem_dedup]
  induction h with
  | nil => rfl
  | cons h1 _ ih =>
    rw [List.flatMap_cons, List.flatMap_cons, List.mem_append, List.mem_append, ih]
    simp only [List.mem_flatMap, h1]

theorem renameTerms_id (tls : List (List (Term F))) : tls.map (List.map (renameTerm id)) = tls := by
  have : (renameTerm (id : F → F)) = id := by funext t; simp [renameTerm]
  rw [this]
  simp

theorem builders_again {P : Setting F D K H} {used : F → Prop} (A : Alike used id P P) (hM : MemoriseAlike used id P P)
    {chunks : List D} {tls : List (List (Term F))} (hu : ∀ f ∈ allFactors tls, used f) {dis : List (DesignInfo F D K)}
    (h : designMatrixBuilders P chunks tls = .ok dis) :
    ∃ tls' dis' σ, List.Forall₂ (fun d ts => d.terms = some ts) dis tls' ∧ List.Forall₂ (fun ts ts' => ∀ t, t ∈ ts' ↔ t ∈ ts) tls tls' ∧
      Function.Injective σ ∧ designMatrixBuilders P chunks tls' = .ok (dis'.map (renameDesign id σ)) ∧ List.Forall₂ SameDesign dis dis' := by
  obtain ⟨eval, hm, h⟩ := builders_rest.mp h
  simp only [buildersRest, buildersOn, bind_ok] at h
  obtain ⟨types, ht, infos, hi, hd⟩ := h
  obtain ⟨tls', dis', h1, h2, h3, h4⟩ := designs_again hd
  have hfs : (P.visit (allFactors tls)).Nodup := (A.visits _).nodup_iff.mpr (allFactors_nodup tls)
  have hp : (P.visit (allFactors tls')).Perm ((P.visit (allFactors tls)).map id) := by
    rw [List.map_id]
    exact (A.visits _).trans ((allFactors_again h2).trans (A.visits _).symm)
  have hu' : ∀ f ∈ P.visit (allFactors tls), used f := fun f hf => hu f ((A.visits _).mem_iff.mp hf)
  obtain ⟨eval', hm'⟩ := (hM _ _ hu' hfs hp).mp ⟨eval, hm⟩
  have he := A.values _ _ hu' hfs hp eval eval' hm hm'
  have hon : buildersOn P P.name eval chunks (P.visit (allFactors tls)) tls' = .ok dis' := by
    simp only [buildersOn, bind_ok]
    exact ⟨types, ht, infos, hi, h3⟩
  have := (buildersOn_rename A hfs hp he (name := P.name) (name' := P.name) fun _ => rfl).1 dis' hon
  rw [renameTerms_id] at this
  exact ⟨tls', dis', _, h1, h2, renumber_injective A.distinct hfs hp, builders_rest.mpr ⟨eval', hm', this⟩, h4⟩

end Patsy.Build
