import Verif.Lemmas.Rank
import Verif.Lemmas.Builders
import Verif.Lemmas.BuildMatrices
import Verif.Props.TermOrder

/-!
# The columns of a design as products of contrast columns
-/

set_option linter.unusedSectionVars false

namespace Patsy.Rank

open Patsy.Build Patsy.Contrast Patsy.Spec Patsy.Desc Patsy.Redundancy Patsy.Props

variable {F D K : Type} [DecidableEq F] [Field K]

/-! ### Pieces -/

/-- A piece of a term: the subterm and the choice of ranks. -/
structure Piece (F K : Type) where
  term : Term F
  st : SubtermInfo F K
  coding : F → Option Bool

/-- The numerical factors of a term. -/
def groupOf (nums : List (F × Nat)) (t : Term F) : Finset F :=
  (t.factors.filter fun f => (dictGet nums f).isSome).toFinset

omit [Field K] in
theorem exists_pieces {H : Type} [DecidableEq H] {hash : Subterm F → H}
    {nums : List (F × Nat)} {coder : F → Bool → Except Err (ContrastMatrix K)} {ts : List (Term F)}
    (hnd : ∀ t ∈ ts, t.factors.Nodup)
    (hsep : Separates hash (fun f => (dictGet nums f).isSome) (ts.map (·.factors)))
    {infos : List (Term F × List (SubtermInfo F K))} (h : makeSubtermInfos hash nums coder ts = .ok infos) :
    ∃ L : List (Piece F K), L.map (·.st) = infos.flatMap (·.2) ∧
      (∀ x ∈ L, x.term ∈ ts ∧ Realizes nums coder x.term x.coding x.st ∧ Mentions nums x.term x.coding) ∧
      L.Pairwise (fun x y => groupOf nums x.term = groupOf nums y.term →
        ∀ S, ¬ (Spans x.coding S ∧ Spans y.coding S)) ∧
      ∀ t ∈ ts, ∀ S, Contains (t.factors.filter fun f => (dictGet nums f).isNone) S →
        ∃ x ∈ L, groupOf nums x.term = groupOf nums t ∧ Spans x.coding S := by
  classical
  have hterms : ∀ p ∈ infos, p.1 ∈ ts := by
    intro p hp
    obtain ⟨ps, hps, _, hmap⟩ := term_order hnd h
    have : p.1 ∈ infos.map Prod.fst := List.mem_map_of_mem hp
    rw [hmap] at this
    obtain ⟨r, hr, he⟩ := List.mem_map.mp this
    rw [← he]
    exact List.fst_mem_of_mem_zipIdx (hps.mem_iff.mp hr)
  obtain ⟨cs, h1, h2⟩ := groups_covered_once hnd hsep h
  let mk : (Term F × List (SubtermInfo F K)) × List (Subterm F) → List (Piece F K) := fun q =>
    (q.1.2.zip q.2).map fun s => ⟨q.1.1, s.1, codingLookup s.2⟩
  have hL : ∀ x ∈ (infos.zip cs).flatMap mk, ∃ p ∈ infos, ∃ e, x.term = p.1 ∧ x.coding = codingLookup e ∧
      Realizes nums coder p.1 (codingLookup e) x.st ∧ Mentions nums p.1 (codingLookup e) := by
    intro x hx
    obtain ⟨q, hq, hx⟩ := List.mem_flatMap.mp hx
    obtain ⟨s, hs, rfl⟩ := List.mem_map.mp hx
    obtain ⟨hp, _⟩ := List.of_mem_zip hq
    have := (List.forall₂_iff_zip.mp (List.forall₂_iff_zip.mp h1 |>.2 hq)).2 hs
    exact ⟨q.1, hp, s.2, rfl, rfl, this.1, this.2⟩
  have hcount : ∀ N S, (((infos.zip cs).flatMap mk).filter fun x => decide (groupOf nums x.term = N)).countP
        (fun x => decide (Spans x.coding S)) =
      spanCount (((infos.zip cs).filter fun q => decide (groupOf nums q.1.1 = N)).flatMap Prod.snd) S := by
    intro N S
    have hz : ∀ q ∈ infos.zip cs, q.1.2.length = q.2.length := fun q hq =>
      (List.forall₂_iff_zip.mp h1 |>.2 hq).length_eq
    generalize infos.zip cs = Z at hz
    induction Z with
    | nil => rfl
    | cons q Z ih =>
      have hq := hz q (List.mem_cons_self ..)
      rw [List.flatMap_cons, List.filter_append, List.countP_append, ih fun q hq => hz q (List.mem_cons_of_mem _ hq),
        List.filter_cons]
      by_cases hg : groupOf nums q.1.1 = N
      · have hf : ((mk q).filter fun x => decide (groupOf nums x.term = N)) = mk q := by
          rw [List.filter_eq_self]
          intro x hx
          obtain ⟨s, _, rfl⟩ := List.mem_map.mp hx
          simpa using hg
        rw [hf, if_pos (by simpa using hg), List.flatMap_cons]
        unfold spanCount
        rw [List.countP_append]
        congr 1
        simp only [mk, List.countP_map]
        conv_rhs => rw [← List.map_snd_zip (l₁ := q.1.2) (l₂ := q.2) (Nat.le_of_eq hq.symm), List.countP_map]
        rfl
      · have hf : ((mk q).filter fun x => decide (groupOf nums x.term = N)) = [] := by
          rw [List.filter_eq_nil_iff]
          intro x hx
          obtain ⟨s, _, rfl⟩ := List.mem_map.mp hx
          simpa using hg
        rw [hf, if_neg (by simpa using hg)]
        simp
  refine ⟨(infos.zip cs).flatMap mk, ?_, ?_, ?_, ?_⟩
  · have : ∀ q ∈ infos.zip cs, (mk q).map (·.st) = q.1.2 := by
      intro q hq
      have := (List.forall₂_iff_zip.mp h1 |>.2 hq).length_eq
      simp only [mk, List.map_map]
      exact List.map_fst_zip (Nat.le_of_eq this)
    rw [List.map_flatMap, List.flatMap_congr this]
    have hfst : (infos.zip cs).map Prod.fst = infos := List.map_fst_zip (Nat.le_of_eq h1.length_eq)
    conv_rhs => rw [← hfst, List.flatMap_map]
  · intro x hx
    obtain ⟨p, hp, e, h3, h4, h5, h6⟩ := hL x hx
    rw [h3, h4]
    exact ⟨hterms p hp, h5, h6⟩
  · rw [List.pairwise_iff_forall_sublist]
    intro x y hxy hg S hS
    have hle := (hxy.filter fun x => decide (groupOf nums x.term = groupOf nums y.term)).countP_le
      (p := fun x => decide (Spans x.coding S))
    rw [hcount] at hle
    have h3 : spanCount (((infos.zip cs).filter fun q => decide (groupOf nums q.1.1 = groupOf nums y.term)).flatMap
        Prod.snd) S ≤ 1 := by
      have := h2 (groupOf nums y.term) S
      simp only at this
      by_cases hex : ∃ t ∈ ts, groupOf nums t = groupOf nums y.term ∧
          Contains (t.factors.filter fun f => (dictGet nums f).isNone) S
      · exact Nat.le_of_eq (this.1 hex)
      · exact (Nat.le_of_eq (this.2 hex)).trans (Nat.zero_le _)
    simp [hg, hS.1, hS.2] at hle
    omega
  · intro t ht S hS
    have h3 := (h2 (groupOf nums t) S).1 ⟨t, ht, rfl, hS⟩
    have h4 := hcount (groupOf nums t) S
    have h5 : 0 < (((infos.zip cs).flatMap mk).filter fun x => decide (groupOf nums x.term = groupOf nums t)).countP
        (fun x => decide (Spans x.coding S)) := by
      rw [h4]; exact Nat.lt_of_lt_of_eq Nat.zero_lt_one h3.symm
    obtain ⟨x, hx, hsp⟩ := List.countP_pos_iff.mp h5
    obtain ⟨hx1, hx2⟩ := List.mem_filter.mp hx
    exact ⟨x, hx1, by simpa using hx2, by simpa using hsp⟩

theorem dictGet_eq {A B : Type} [DecidableEq A] {d : List (A × B)} (hn : (d.map Prod.fst).Nodup) {a : A} {b : B}
    (h : (a, b) ∈ d) : dictGet d a = some b := by
  obtain ⟨i, hi, he⟩ := List.getElem_of_mem h
  exact dictGet_of_nodup (p := (a, b)) hn (by rw [List.getElem?_eq_getElem hi, he])

omit [Field K] in
/-- The factors and the contrast matrices of a piece. -/
theorem realizes_facts {nums : List (F × Nat)} {coder : F → Bool → Except Err (ContrastMatrix K)} {t : Term F}
    {coding : F → Option Bool} {st : SubtermInfo F K} (hnd : t.factors.Nodup) (hr : Realizes nums coder t coding st)
    (hm : Mentions nums t coding) {R C : F → ContrastMatrix K}
    (hcode : ∀ f ∈ t.factors, dictGet nums f = none → coder f false = .ok (R f) ∧ coder f true = .ok (C f)) :
    st.factors.Nodup ∧
    (∀ f, f ∈ st.factors ↔ f ∈ t.factors ∧ ((dictGet nums f).isSome ∨ coding f ≠ none)) ∧
    ∀ f, dictGet st.contrasts f = (coding f).map fun b => if b then C f else R f := by
  refine ⟨?_, ?_, ?_⟩
  · rw [hr.factors]; exact hnd.filter _
  · intro f
    rw [hr.factors, List.mem_filter]
    cases coding f <;> simp
  · have hkeys : st.contrasts.map Prod.fst =
        t.factors.filter fun f => (dictGet nums f).isNone && (coding f).isSome := by
      have := hr.contrasts
      generalize (t.factors.filter fun f => (dictGet nums f).isNone && (coding f).isSome) = l at this
      generalize st.contrasts = m at this
      induction this with
      | nil => rfl
      | cons h1 _ ih => rw [List.map_cons, ih, h1.1]
    intro f
    cases hc : coding f with
    | none =>
      refine dictGet_none ?_
      rw [hkeys, List.mem_filter]
      simp [hc]
    | some b =>
      obtain ⟨h1, h2⟩ := hm f (by simp [hc])
      have hf : f ∈ t.factors.filter fun f => (dictGet nums f).isNone && (coding f).isSome := by
        simp [List.mem_filter, h1, h2, hc]
      obtain ⟨i, hi, he⟩ := List.getElem_of_mem hf
      have hi' : i < st.contrasts.length := by rw [← hr.contrasts.length_eq]; exact hi
      have hg := hr.contrasts.get hi hi'
      simp only [List.get_eq_getElem, he] at hg
      obtain ⟨h3, full, h4, h5⟩ := hg
      rw [hc] at h4
      cases h4
      have h6 : st.contrasts[i].2 = if b then C f else R f := by
        have := hcode f h1 h2
        cases b with
        | false => rw [this.1] at h5; exact (Except.ok.inj h5).symm
        | true => rw [this.2] at h5; exact (Except.ok.inj h5).symm
      refine dictGet_eq (by rw [hkeys]; exact hnd.filter _) ?_
      simp only
      rw [← h6, ← h3]
      exact List.getElem_mem _

/-! ### Columns -/

/-- How the factor takes part in the column with the number `j`. -/
def kindOf (coding : F → Option Bool) (J : F → Nat) (f : F) : Kind :=
  match coding f with
  | none => .absent
  | some false => .reduced (J f)
  | some true => .full (J f)

/-- The numerical part of a column. -/
def monoOf (nums : List (F × Nat)) (t : Term F) (J : F → Nat) : Finset (F × Nat) := (groupOf nums t).image fun f => (f, J f)

/-- The entry of one factor in a column. -/
def valueAt (cms : List (F × ContrastMatrix K)) (cells : F → Option (Cell K)) (f : F) (j : Nat) : K :=
  match dictGet cms f with
  | some cm => entry cm.matrix (levelAt cells f) j
  | none => numberAt cells f j

theorem entryAt_value {fis : List (F × FactorInfo F D K)} {cms : List (F × ContrastMatrix K)} {fs : List F}
    (hg : SubtermGood fis cms fs) {cells : F → Option (Cell K)} {f : F} (hf : f ∈ fs) {j : Nat} {y : K}
    (h : entryAt fis cms cells f j = some y) : y = valueAt cms cells f j := by
  obtain ⟨fi, h1, hcase⟩ := hg f hf
  simp only [entryAt, h1, Option.bind_some, Option.bind_eq_some_iff] at h
  obtain ⟨c, hc, h⟩ := h
  rcases hcase with ⟨n, h2, h3⟩ | ⟨k, cm, h2, h3, _⟩
  · rw [h2] at h
    cases c with
    | code c => simp [cellEntry] at h
    | num row =>
      simp only [cellEntry] at h
      simp [valueAt, h3, numberAt, hc, h]
  · rw [h2, h3] at h
    cases c with
    | num row => simp [cellEntry] at h
    | code c =>
      simp only [cellEntry, Option.bind_some] at h
      split at h
      · cases h
      · rw [Option.bind_eq_some_iff] at h
        obtain ⟨r, h4, h5⟩ := h
        simp [valueAt, h3, levelAt, hc, entry, h4, h5]

theorem prodFrom_value {fis : List (F × FactorInfo F D K)} {cms : List (F × ContrastMatrix K)} {fs gs : List F}
    (hg : SubtermGood fis cms gs) (hfs : ∀ f ∈ fs, f ∈ gs) {cells : F → Option (Cell K)} {J : F → Nat} {x y : K}
    (h : prodFrom fis cms cells x fs (fs.map J) = some y) :
    y = x * (fs.map fun f => valueAt cms cells f (J f)).prod := by
  induction fs generalizing x with
  | nil => simp [prodFrom] at h; simp [h]
  | cons f fs ih =>
    simp only [List.map_cons, prodFrom, Option.bind_eq_some_iff] at h
    obtain ⟨z, h1, h2⟩ := h
    rw [ih (fun g hg => hfs g (List.mem_cons_of_mem _ hg)) h2,
      entryAt_value hg (hfs f (List.mem_cons_self ..)) h1, List.map_cons, List.prod_cons, mul_assoc]

/-- The entry of a column is its numerical part times the contributions of the categorical factors. -/
theorem column_value {nums : List (F × Nat)} {coder : F → Bool → Except Err (ContrastMatrix K)} {t : Term F}
    {coding : F → Option Bool} {st : SubtermInfo F K} (hnd : t.factors.Nodup) (hr : Realizes nums coder t coding st)
    (hm : Mentions nums t coding) {R C : F → ContrastMatrix K}
    (hcode : ∀ f ∈ t.factors, dictGet nums f = none → coder f false = .ok (R f) ∧ coder f true = .ok (C f))
    {A : Finset F} (hA : ∀ f ∈ t.factors, dictGet nums f = none → f ∈ A)
    {c : Coding F D K} (hv : checkSubterm c.factorInfos st = .ok ()) {cells : F → Option (Cell K)} {J : F → Nat} {y : K}
    (h : columnEntry c cells (st, st.factors.map J) = some y) :
    y = monomial cells (monoOf nums t J) * ∏ f ∈ A, (kindOf coding J f).vec (R f) (C f) (levelAt cells f) := by
  obtain ⟨hg, _, _⟩ := checkSubterm_good hv
  obtain ⟨h1, h2, h3⟩ := realizes_facts hnd hr hm hcode
  have h4 := prodFrom_value hg (fun _ hf => hf) h
  rw [one_mul] at h4
  rw [h4, ← List.prod_toFinset _ h1, ← Finset.prod_filter_mul_prod_filter_not _ fun f => (dictGet nums f).isSome]
  congr 1
  · have hset : st.factors.toFinset.filter (fun f => (dictGet nums f).isSome) = groupOf nums t := by
      ext f
      simp only [Finset.mem_filter, List.mem_toFinset, h2, groupOf, List.mem_filter]
      constructor
      · rintro ⟨⟨h5, _⟩, h6⟩; exact ⟨h5, h6⟩
      · rintro ⟨h5, h6⟩; exact ⟨⟨h5, .inl h6⟩, h6⟩
    rw [hset, monomial, monoOf, Finset.prod_image (by intro a _ b _ h; exact (Prod.mk.inj h).1)]
    refine Finset.prod_congr rfl fun f hf => ?_
    have hsome : (dictGet nums f).isSome := (List.mem_filter.mp (List.mem_toFinset.mp hf)).2
    have hno : coding f = none := by
      by_contra hne
      rw [(hm f hne).2] at hsome
      cases hsome
    simp [valueAt, h3, hno]
  · have hsub : st.factors.toFinset.filter (fun f => ¬ (dictGet nums f).isSome) ⊆ A := by
      intro f hf
      simp only [Finset.mem_filter, List.mem_toFinset, h2] at hf
      exact hA f hf.1.1 (by simpa using hf.2)
    rw [← Finset.prod_subset hsub]
    · refine Finset.prod_congr rfl fun f hf => ?_
      simp only [Finset.mem_filter, List.mem_toFinset, h2] at hf
      obtain ⟨⟨_, h5⟩, h6⟩ := hf
      have h7 := h5.resolve_left h6
      simp only [valueAt, h3, kindOf]
      cases hcf : coding f with
      | none => exact absurd hcf h7
      | some b => cases b <;> rfl
    · intro f hf hno
      have hcf : coding f = none := by
        by_contra hne
        obtain ⟨h5, h6⟩ := hm f hne
        refine hno ?_
        simp only [Finset.mem_filter, List.mem_toFinset, h2]
        exact ⟨⟨h5, .inr hne⟩, by simp [h6]⟩
      simp [kindOf, hcf, Kind.vec]

theorem map_lookup {fs : List F} (hn : fs.Nodup) {ds : List Nat} (hl : ds.length = fs.length) :
    fs.map (fun f => ds[fs.idxOf f]?.getD 0) = ds := by
  refine List.ext_getElem (by simp [hl]) ?_
  intro i h1 h2
  rw [List.getElem_map, hn.idxOf_getElem, List.getElem?_eq_getElem h2, Option.getD_some]

theorem choice_map {fs : List F} {w J : F → Nat} : Choice (fs.map w) (fs.map J) ↔ ∀ f ∈ fs, J f < w f := by
  induction fs with
  | nil => simp [Choice]
  | cons f fs ih => simp [Choice, ih]

theorem monoOf_group {nums : List (F × Nat)} {t u : Term F} {J J' : F → Nat} (h : monoOf nums t J = monoOf nums u J') :
    groupOf nums t = groupOf nums u ∧ ∀ f ∈ groupOf nums t, J f = J' f := by
  have hfst : ∀ (t : Term F) (J : F → Nat), (monoOf nums t J).image Prod.fst = groupOf nums t := by
    intro t J
    unfold monoOf
    rw [Finset.image_image]
    exact Finset.image_id
  have hg : groupOf nums t = groupOf nums u := by rw [← hfst t J, h, hfst u J']
  refine ⟨hg, fun f hf => ?_⟩
  have : (f, J f) ∈ monoOf nums u J' := by
    rw [← h]
    exact Finset.mem_image_of_mem _ hf
  obtain ⟨g, _, he⟩ := Finset.mem_image.mp this
  obtain ⟨rfl, h2⟩ := Prod.mk.inj he
  exact h2.symm

/-- What a column is made of. -/
structure ColumnOf (nums : List (F × Nat)) (coder : F → Bool → Except Err (ContrastMatrix K)) (ts : List (Term F))
    (c : Coding F D K) (x : Piece F K) : Prop where
  term : x.term ∈ ts
  realizes : Realizes nums coder x.term x.coding x.st
  mentions : Mentions nums x.term x.coding
  checked : checkSubterm c.factorInfos x.st = .ok ()

/-- The coding `c` is what `_make_subterm_infos` makes of the terms `ts`, with (some of) the factors `fis`. -/
structure MadeCoding {H : Type} [DecidableEq H] (hash : Subterm F → H) (nums : List (F × Nat))
    (coder : F → Bool → Except Err (ContrastMatrix K)) (fis : List (F × FactorInfo F D K)) (ts : List (Term F))
    (c : Coding F D K) : Prop where
  infos : makeSubtermInfos hash nums coder ts = .ok c.termCodings
  checked : ∀ p ∈ c.termCodings, ∀ st ∈ p.2, checkSubterm c.factorInfos st = .ok ()
  own : ∀ p ∈ c.factorInfos, dictGet fis p.1 = some p.2

theorem madeCoding {H : Type} [DecidableEq H] {name : F → String} {hash : Subterm F → H}
    {nums : List (F × Nat)} {coder : F → Bool → Except Err (ContrastMatrix K)} {fis : List (F × FactorInfo F D K)}
    {ts : List (Term F)} {d : DesignInfo F D K} (h : makeDesign name hash nums coder fis ts = .ok d) {c : Coding F D K}
    (hc : d.coding = some c) : MadeCoding hash nums coder fis ts c := by
  simp only [makeDesign, bind_ok] at h
  obtain ⟨infos, hi, h⟩ := h
  split at h
  swap
  · simp at h
  simp only [bind_ok] at h
  obtain ⟨own, ho, names, _, h⟩ := h
  have hgood := make_good.mp h
  obtain rfl : (⟨own, infos⟩ : Coding F D K) = c := by
    have := hgood.coding
    rw [hc] at this
    exact (Option.some.inj this).symm
  exact ⟨hi, hgood.valid.subterms, (designFactors_fold (by simp) ho).1⟩

/-- The columns of a design, with the pieces that they belong to and the columns of the factors. -/
theorem exists_columns {H : Type} [DecidableEq H] {hash : Subterm F → H}
    {nums : List (F × Nat)} {coder : F → Bool → Except Err (ContrastMatrix K)}
    {fis : List (F × FactorInfo F D K)} {ts : List (Term F)} (hnd : ∀ t ∈ ts, t.factors.Nodup)
    (hsep : Separates hash (fun f => (dictGet nums f).isSome) (ts.map (·.factors)))
    {c : Coding F D K} (h : MadeCoding hash nums coder fis ts c)
    (hnum : ∀ t ∈ ts, ∀ f ∈ t.factors, ∀ m, dictGet nums f = some m →
      ∃ fi, dictGet fis f = some fi ∧ fi.type = .numerical m)
    {n : F → Nat} {R C : F → ContrastMatrix K}
    (hcode : ∀ t ∈ ts, ∀ f ∈ t.factors, dictGet nums f = none → coder f false = .ok (R f) ∧ coder f true = .ok (C f))
    {A : Finset F} (hA : ∀ f, f ∈ A ↔ ∃ t ∈ ts, f ∈ t.factors ∧ dictGet nums f = none)
    (hw : ∀ f ∈ A, (R f).ncols = n f - 1 ∧ (C f).ncols = n f) :
    ∃ M : List (Piece F K × (F → Nat)),
      columnsOf c = M.map (fun q => (q.1.st, q.1.st.factors.map q.2)) ∧
      (∀ q ∈ M, ColumnOf nums coder ts c q.1 ∧ (∀ f, (kindOf q.1.coding q.2 f).Fits (n f)) ∧
        MonomialOf nums q.1.term (monoOf nums q.1.term q.2)) ∧
      M.Pairwise (fun p q => monoOf nums p.1.term p.2 = monoOf nums q.1.term q.2 →
        ∃ f ∈ A, (kindOf p.1.coding p.2 f).Apart (kindOf q.1.coding q.2 f)) ∧
      ∀ t ∈ ts, ∀ S, Contains (t.factors.filter fun f => (dictGet nums f).isNone) S →
        ∃ x : Piece F K, ColumnOf nums coder ts c x ∧ groupOf nums x.term = groupOf nums t ∧ Spans x.coding S ∧
          ∀ J : F → Nat, (∀ f ∈ x.st.factors, ∀ m, dictGet nums f = some m → J f < m) →
            (∀ f, (kindOf x.coding J f).Fits (n f)) → ∃ q ∈ M, q.1 = x ∧ ∀ f ∈ x.st.factors, q.2 f = J f := by
  obtain ⟨own, infos⟩ := c
  obtain ⟨hi, hchecked, hown⟩ := h
  simp only at hi hchecked hown
  obtain ⟨L, hL1, hL2, hL3, hL4⟩ := exists_pieces hnd hsep hi
  have hst : ∀ x ∈ L, checkSubterm own x.st = .ok () := by
    intro x hx
    have : x.st ∈ infos.flatMap (·.2) := by rw [← hL1]; exact List.mem_map_of_mem hx
    obtain ⟨p, hp, hs⟩ := List.mem_flatMap.mp this
    exact hchecked p hp _ hs
  have hcol : ∀ x ∈ L, ColumnOf nums coder ts (⟨own, infos⟩ : Coding F D K) x := fun x hx =>
    ⟨(hL2 x hx).1, (hL2 x hx).2.1, (hL2 x hx).2.2, hst x hx⟩
  have hfacts : ∀ x ∈ L, x.st.factors.Nodup ∧
      (∀ f, f ∈ x.st.factors ↔ f ∈ x.term.factors ∧ ((dictGet nums f).isSome ∨ x.coding f ≠ none)) ∧
      ∀ f, dictGet x.st.contrasts f = (x.coding f).map fun b => if b then C f else R f := fun x hx =>
    realizes_facts (hnd _ (hL2 x hx).1) (hL2 x hx).2.1 (hL2 x hx).2.2 (hcode _ (hL2 x hx).1)
  have hmemA : ∀ x ∈ L, ∀ f, x.coding f ≠ none → f ∈ A := by
    intro x hx f hf
    obtain ⟨h1, h2⟩ := (hL2 x hx).2.2 f hf
    exact (hA f).mpr ⟨_, (hL2 x hx).1, h1, h2⟩
  have hwcat : ∀ x ∈ L, ∀ f b, x.coding f = some b →
      widthOf own x.st.contrasts f = if b then n f else n f - 1 := by
    intro x hx f b hb
    have hf := hw f (hmemA x hx f (by simp [hb]))
    simp only [widthOf, (hfacts x hx).2.2 f, hb, Option.map_some]
    cases b
    · exact hf.1
    · exact hf.2
  have hwnum : ∀ x ∈ L, ∀ f ∈ x.st.factors, ∀ m, dictGet nums f = some m → widthOf own x.st.contrasts f = m := by
    intro x hx f hf m hm
    have hno : x.coding f = none := by
      by_contra hne
      rw [((hL2 x hx).2.2 f hne).2] at hm
      cases hm
    have hf' := ((hfacts x hx).2.1 f).mp hf
    obtain ⟨fi, h1, h2⟩ := hnum _ (hL2 x hx).1 f hf'.1 m hm
    obtain ⟨fi', h3, _⟩ := (checkSubterm_good (hst x hx)).1 f hf
    have h4 := hown _ (dictGet_mem h3)
    simp only at h4
    rw [h1] at h4
    cases h4
    simp only [widthOf, (hfacts x hx).2.2 f, hno, Option.map_none, h3]
    obtain ⟨u, g, ty, ev⟩ := fi
    simp only at h2
    subst h2
    rfl
  have hbound : ∀ x ∈ L, ∀ J : F → Nat, (∀ f ∈ x.st.factors, J f < widthOf own x.st.contrasts f) ↔
      (∀ f ∈ x.st.factors, ∀ m, dictGet nums f = some m → J f < m) ∧ ∀ f, (kindOf x.coding J f).Fits (n f) := by
    intro x hx J
    constructor
    · intro hJ
      refine ⟨fun f hf m hm => by rw [← hwnum x hx f hf m hm]; exact hJ f hf, fun f => ?_⟩
      cases hcf : x.coding f with
      | none => simp [kindOf, hcf, Kind.Fits]
      | some b =>
        have hf : f ∈ x.st.factors := ((hfacts x hx).2.1 f).mpr
          ⟨((hL2 x hx).2.2 f (by simp [hcf])).1, .inr (by simp [hcf])⟩
        have := hJ f hf
        rw [hwcat x hx f b hcf] at this
        cases b
        · simpa [kindOf, hcf, Kind.Fits] using this
        · simpa [kindOf, hcf, Kind.Fits] using this
    · rintro ⟨h1, h2⟩ f hf
      cases hm : dictGet nums f with
      | some m => rw [hwnum x hx f hf m hm]; exact h1 f hf m hm
      | none =>
        have hne := (((hfacts x hx).2.1 f).mp hf).2.resolve_left (by simp [hm])
        obtain ⟨b, hb⟩ := Option.ne_none_iff_exists'.mp hne
        rw [hwcat x hx f b hb]
        have := h2 f
        cases b <;> simpa [kindOf, hb, Kind.Fits] using this
  let J : Piece F K → Nat → F → Nat := fun x i f => (digits (widths own x.st) i)[x.st.factors.idxOf f]?.getD 0
  have hJ : ∀ x ∈ L, ∀ i, x.st.factors.map (J x i) = digits (widths own x.st) i := by
    intro x hx i
    exact map_lookup (hfacts x hx).1 (by rw [digits_length]; simp [widths])
  have hJlt : ∀ x ∈ L, ∀ i, i < x.st.numColumns → ∀ f ∈ x.st.factors, J x i f < widthOf own x.st.contrasts f := by
    intro x hx i hi
    have h1 := choice_digits (ns := widths own x.st) (i := i) (by rw [(checkSubterm_good (hst x hx)).2.1]; exact hi)
    rw [← hJ x hx i] at h1
    exact choice_map.mp h1
  refine ⟨L.flatMap fun x => (List.range x.st.numColumns).map fun i => (x, J x i), ?_, ?_, ?_, ?_⟩
  · rw [columnsOf_eq]
    simp only [columnsOfSts]
    rw [← hL1, List.flatMap_map, List.map_flatMap]
    refine List.flatMap_congr fun x hx => ?_
    rw [List.map_map]
    refine List.map_congr_left fun i _ => ?_
    simp only [Function.comp, hJ x hx i]
  · intro q hq
    obtain ⟨x, hx, hq⟩ := List.mem_flatMap.mp hq
    obtain ⟨i, hi, rfl⟩ := List.mem_map.mp hq
    have hb := (hbound x hx (J x i)).mp (hJlt x hx i (List.mem_range.mp hi))
    refine ⟨hcol x hx, hb.2, J x i, ?_, rfl⟩
    intro f hf m hm
    exact hb.1 f (((hfacts x hx).2.1 f).mpr ⟨hf, .inl (by simp [hm])⟩) m hm
  · rw [List.pairwise_flatMap]
    refine ⟨?_, ?_⟩
    · intro x hx
      rw [List.pairwise_map]
      refine List.Pairwise.imp_of_mem ?_ List.nodup_range
      intro i i' hi hi' hne hmono
      have hp := (checkSubterm_good (hst x hx)).2.1
      have hdiff : ∃ f ∈ x.st.factors, J x i f ≠ J x i' f := by
        by_contra hno
        push Not at hno
        have h1 : x.st.factors.map (J x i) = x.st.factors.map (J x i') := List.map_congr_left hno
        rw [hJ x hx, hJ x hx] at h1
        have h2 := congrArg (place (widths own x.st)) h1
        rw [place_digits (by rw [hp]; exact List.mem_range.mp hi),
          place_digits (by rw [hp]; exact List.mem_range.mp hi')] at h2
        exact hne h2
      obtain ⟨f, hf, hfne⟩ := hdiff
      have hnonum : dictGet nums f = none := by
        by_contra hsome
        refine hfne ((monoOf_group hmono).2 f ?_)
        simp only [groupOf, List.mem_toFinset, List.mem_filter]
        exact ⟨(((hfacts x hx).2.1 f).mp hf).1, Option.isSome_iff_ne_none.mpr hsome⟩
      have hne' := (((hfacts x hx).2.1 f).mp hf).2.resolve_left (by simp [hnonum])
      refine ⟨f, hmemA x hx f hne', ?_⟩
      obtain ⟨b, hb⟩ := Option.ne_none_iff_exists'.mp hne'
      cases b <;> simpa [kindOf, hb, Kind.Apart] using hfne
    · refine hL3.imp_of_mem ?_
      intro x y hx hy hdis p hp q hq hmono
      obtain ⟨i, _, rfl⟩ := List.mem_map.mp hp
      obtain ⟨j, _, rfl⟩ := List.mem_map.mp hq
      have hg := (monoOf_group hmono).1
      have hno := hdis hg (A.filter fun f => x.coding f = some false ∨ y.coding f = some false)
      by_contra hap
      push Not at hap
      refine hno ⟨⟨?_, ?_⟩, ?_, ?_⟩
      · intro f hf
        exact Finset.mem_filter.mpr ⟨hmemA x hx f (by simp [hf]), .inl hf⟩
      · intro f hf hnone
        obtain ⟨hfA, hred⟩ := Finset.mem_filter.mp hf
        rw [hnone] at hred
        have hred : y.coding f = some false := by simpa using hred
        exact hap f hfA (by simp [kindOf, hnone, hred, Kind.Apart])
      · intro f hf
        exact Finset.mem_filter.mpr ⟨hmemA y hy f (by simp [hf]), .inr hf⟩
      · intro f hf hnone
        obtain ⟨hfA, hred⟩ := Finset.mem_filter.mp hf
        rw [hnone] at hred
        have hred : x.coding f = some false := by simpa using hred
        exact hap f hfA (by simp [kindOf, hnone, hred, Kind.Apart])
  · intro t ht S hS
    obtain ⟨x, hx, h1, h2⟩ := hL4 t ht S hS
    refine ⟨x, hcol x hx, h1, h2, fun J' h3 h4 => ?_⟩
    have h5 : Choice (widths own x.st) (x.st.factors.map J') := choice_map.mpr ((hbound x hx J').mpr ⟨h3, h4⟩)
    have h6 := place_lt h5
    rw [(checkSubterm_good (hst x hx)).2.1] at h6
    refine ⟨(x, J x (place (widths own x.st) (x.st.factors.map J'))), ?_, rfl, ?_⟩
    · exact List.mem_flatMap.mpr ⟨x, hx, List.mem_map.mpr ⟨_, List.mem_range.mpr h6, rfl⟩⟩
    · have h7 := hJ x hx (place (widths own x.st) (x.st.factors.map J'))
      rw [digits_place h5] at h7
      intro f hf
      exact (List.map_inj_left.mp h7) f hf

end Patsy.Rank
