import Verif.Lemmas.RankDesign
import Verif.Lemmas.BuildTop

/-!
# C03: the columns are linearly independent and span the space of the model
-/

set_option linter.unusedSectionVars false

namespace Patsy.Props

open Patsy.Build Patsy.Contrast Patsy.Spec Patsy.Desc Patsy.Redundancy Patsy.Rank

variable {F D K : Type} [DecidableEq F] [Field K]

/-- The codings of the categorical factors are bases: the reduced one together with the constant, and the full one alone;
`n f` is the number of levels. -/
def CodedByBases (nums : List (F × Nat)) (coder : F → Bool → Except Err (ContrastMatrix K)) (ts : List (Term F))
    (n : F → Nat) : Prop :=
  ∀ t ∈ ts, ∀ f ∈ t.factors, dictGet nums f = none →
    (∃ cm A B, coder f false = .ok cm ∧ IsReduced cm (n f) A B) ∧ ∃ cm B, coder f true = .ok cm ∧ IsFull cm (n f) B

/-- `nums` has the numbers of columns of the numerical factors. -/
def NumsFit (nums : List (F × Nat)) (fis : List (F × FactorInfo F D K)) (ts : List (Term F)) : Prop :=
  ∀ t ∈ ts, ∀ f ∈ t.factors, ∀ m, dictGet nums f = some m → ∃ fi, dictGet fis f = some fi ∧ fi.type = .numerical m

theorem isMatrix_entry {c : Coding F D K} {rows : List (F → Option (Cell K))} {cols : List (List K)}
    (hm : IsMatrix c rows cols) {j : Nat} (hj : j < cols.length) {col : SubtermInfo F K × List Nat}
    (hcol : (columnsOf c)[j]? = some col) {i : Nat} (hi : i < rows.length) :
    columnEntry c rows[i] col = some (cols[j][i]?.getD 0) := by
  have hj' : j < (columnsOf c).length := by rw [List.Forall₂.length_eq hm]; exact hj
  rw [List.getElem?_eq_getElem hj'] at hcol
  cases hcol
  have h1 := List.Forall₂.get hm hj' hj
  simp only [List.get_eq_getElem] at h1
  rw [mapM_some] at h1
  have h2 : i < cols[j].length := by rw [← h1.length_eq]; exact hi
  have h3 := h1.get hi h2
  simp only [List.get_eq_getElem] at h3
  rw [List.getElem?_eq_getElem h2, Option.getD_some]
  exact h3

theorem codedByBases_choose {nums : List (F × Nat)} {coder : F → Bool → Except Err (ContrastMatrix K)} {ts : List (Term F)}
    {n : F → Nat} (hcode : CodedByBases nums coder ts n) :
    ∃ R C : F → ContrastMatrix K, ∀ t ∈ ts, ∀ f ∈ t.factors, dictGet nums f = none →
      (coder f false = .ok (R f) ∧ coder f true = .ok (C f)) ∧ (∃ A B, IsReduced (R f) (n f) A B) ∧
        ∃ B, IsFull (C f) (n f) B := by
  classical
  have : ∀ f, ∃ r c, (∃ t ∈ ts, f ∈ t.factors ∧ dictGet nums f = none) →
      (coder f false = .ok r ∧ coder f true = .ok c) ∧ (∃ A B, IsReduced r (n f) A B) ∧ ∃ B, IsFull c (n f) B := by
    intro f
    by_cases h : ∃ t ∈ ts, f ∈ t.factors ∧ dictGet nums f = none
    · obtain ⟨t, ht, hf, hn⟩ := h
      obtain ⟨⟨r, A, B, h1, h2⟩, c, B', h3, h4⟩ := hcode t ht f hf hn
      exact ⟨r, c, fun _ => ⟨⟨h1, h3⟩, ⟨A, B, h2⟩, B', h4⟩⟩
    · exact ⟨⟨[], 0, []⟩, ⟨[], 0, []⟩, fun h' => absurd h' h⟩
  choose R C h using this
  exact ⟨R, C, fun t ht f hf hn => h f ⟨t, ht, hf, hn⟩⟩

theorem exists_catFactors (nums : List (F × Nat)) (ts : List (Term F)) :
    ∃ A : Finset F, ∀ f, f ∈ A ↔ ∃ t ∈ ts, f ∈ t.factors ∧ dictGet nums f = none := by
  refine ⟨((ts.flatMap (·.factors)).filter fun f => (dictGet nums f).isNone).toFinset, fun f => ?_⟩
  simp only [List.mem_toFinset, List.mem_filter, List.mem_flatMap, Option.isNone_iff_eq_none]
  constructor
  · rintro ⟨⟨t, ht, hf⟩, h⟩; exact ⟨t, ht, hf, h⟩
  · rintro ⟨t, ht, hf, h⟩; exact ⟨⟨t, ht, hf⟩, h⟩

/-- The columns of a coding are independent. -/
theorem coding_independent {H : Type} [DecidableEq H] {hash : Subterm F → H}
    {nums : List (F × Nat)} {coder : F → Bool → Except Err (ContrastMatrix K)}
    {fis : List (F × FactorInfo F D K)} {ts : List (Term F)} (hnd : ∀ t ∈ ts, t.factors.Nodup)
    (hsep : Separates hash (fun f => (dictGet nums f).isSome) (ts.map (·.factors)))
    (hnum : NumsFit nums fis ts) {n : F → Nat} (hcode : CodedByBases nums coder ts n)
    {c : Coding F D K} (h : MadeCoding hash nums coder fis ts c)
    {rows : List (F → Option (Cell K))} {cols : List (List K)} (hm : IsMatrix c rows cols) (hrich : Rich nums ts n rows) :
    LinearIndependent K (columnVectors rows.length cols) := by
  classical
  obtain ⟨R, C, hRC⟩ := codedByBases_choose hcode
  obtain ⟨A, hA⟩ := exists_catFactors nums ts
  have hbase : Bases A n R C := by
    intro f hf
    obtain ⟨t, ht, hf, hn⟩ := (hA f).mp hf
    exact (hRC t ht f hf hn).2
  obtain ⟨M, hM1, hM2, hM3, _⟩ := exists_columns hnd hsep h hnum (fun t ht f hf hn => (hRC t ht f hf hn).1) hA
    (n := n) (by
      intro f hf
      obtain ⟨⟨_, _, h1⟩, _, h2⟩ := hbase f hf
      exact ⟨h1.ncols, h2.ncols⟩)
  have hlen : M.length = cols.length := by
    rw [← List.Forall₂.length_eq hm, hM1, List.length_map]
  have hval : ∀ (j : Nat) (hj : j < cols.length) (i : Nat) (hi : i < rows.length),
      (cols[j])[i]?.getD 0 = monomial rows[i] (monoOf nums (M[j]'(by omega)).1.term (M[j]'(by omega)).2) *
        ∏ f ∈ A, (kindOf (M[j]'(by omega)).1.coding (M[j]'(by omega)).2 f).vec (R f) (C f) (levelAt rows[i] f) := by
    intro j hj i hi
    have hj' : j < M.length := by omega
    have h1 := isMatrix_entry hm hj (col := (M[j].1.st, M[j].1.st.factors.map M[j].2)) (by rw [hM1]; simp [hj']) hi
    obtain ⟨h2, _⟩ := hM2 M[j] (List.getElem_mem _)
    exact column_value (hnd _ h2.term) h2.realizes h2.mentions
      (fun f hf hn => (hRC _ h2.term f hf hn).1) (fun f hf hn => (hA f).mpr ⟨_, h2.term, hf, hn⟩) h2.checked h1
  rw [Fintype.linearIndependent_iff]
  intro a ha j
  -- the column numbers with a given numerical part
  let mono : Fin cols.length → Finset (F × Nat) := fun j => monoOf nums (M[j]'(by omega)).1.term (M[j]'(by omega)).2
  let kind : Fin cols.length → F → Kind := fun j => kindOf (M[j]'(by omega)).1.coding (M[j]'(by omega)).2
  have hpart : ∀ g : F → Nat, (∀ f ∈ A, g f < n f) →
      ∑ i ∈ Finset.univ.filter (fun i => mono i = mono j), a i * ∏ f ∈ A, (kind i f).vec (R f) (C f) (g f) = 0 := by
    intro g hg
    have hli := hrich g fun t ht f hf hn => hg f ((hA f).mpr ⟨t, ht, hf, hn⟩)
    rw [linearIndepOn_iff_linearIndepOn_finset] at hli
    have hsub : ((Finset.univ.image mono : Finset (Finset (F × Nat))) : Set (Finset (F × Nat))) ⊆
        {k | ∃ t ∈ ts, MonomialOf nums t k} := by
      intro k hk
      simp only [Finset.coe_image, Set.mem_image] at hk
      obtain ⟨i, _, rfl⟩ := hk
      obtain ⟨h2, _, h3⟩ := hM2 (M[i]'(by omega)) (List.getElem_mem _)
      exact ⟨_, h2.term, h3⟩
    have hli := linearIndepOn_finset_iff.mp (hli _ hsub)
    refine hli (fun k => ∑ i ∈ Finset.univ.filter (fun i => mono i = k),
      a i * ∏ f ∈ A, (kind i f).vec (R f) (C f) (g f)) ?_ (mono j) (Finset.mem_image_of_mem _ (Finset.mem_univ _))
    funext i
    have hrow := congrFun ha i.1
    simp only [Finset.sum_apply, Pi.smul_apply, smul_eq_mul, Pi.zero_apply] at hrow ⊢
    rw [← hrow]
    have hlev : ∀ f ∈ A, levelAt rows[i.1] f = g f := by
      intro f hf
      obtain ⟨t, ht, hf, hn⟩ := (hA f).mp hf
      exact i.2 t ht f hf hn
    have hterm : ∀ j' : Fin cols.length, a j' * columnVectors rows.length cols j' i.1 =
        a j' * (∏ f ∈ A, (kind j' f).vec (R f) (C f) (g f)) * monomial rows[i.1] (mono j') := by
      intro j'
      have h1 := hval j' j'.2 i.1 i.1.2
      have h2 : columnVectors rows.length cols j' i.1 = monomial rows[i.1] (mono j') *
          ∏ f ∈ A, (kind j' f).vec (R f) (C f) (levelAt rows[i.1] f) := h1
      rw [h2, Finset.prod_congr rfl fun f hf => by rw [hlev f hf]]
      ring
    simp only [hterm, Finset.sum_mul]
    rw [← Finset.sum_fiberwise_of_maps_to (s := Finset.univ) (t := Finset.univ.image mono) (g := mono)
      fun i _ => Finset.mem_image_of_mem _ (Finset.mem_univ _)]
    refine Finset.sum_congr rfl fun k _ => Finset.sum_congr rfl fun j' hj' => ?_
    rw [(Finset.mem_filter.mp hj').2]
  refine products_independent hbase (Finset.univ.filter fun i => mono i = mono j) kind ?_ ?_ hpart j (by simp)
  · intro i _ f _
    exact (hM2 (M[i]'(by omega)) (List.getElem_mem _)).2.1 f
  · intro i hi i' hi' hne
    have hmono : mono i = mono i' := by
      rw [(Finset.mem_filter.mp hi).2, (Finset.mem_filter.mp hi').2]
    rcases Nat.lt_or_gt_of_ne (fun h => hne (Fin.ext h)) with hlt | hlt
    · exact List.pairwise_iff_getElem.mp hM3 i i' (by omega) (by omega) hlt hmono
    · obtain ⟨f, hf, hap⟩ := List.pairwise_iff_getElem.mp hM3 i' i (by omega) (by omega) hlt hmono.symm
      exact ⟨f, hf, hap.symm⟩

/-- **C03**, independence.  If the codings of the categorical factors are bases and the data are rich enough, the columns
of the design are linearly independent. -/
theorem columns_independent {H : Type} [DecidableEq H] {name : F → String} {hash : Subterm F → H}
    {nums : List (F × Nat)} {coder : F → Bool → Except Err (ContrastMatrix K)}
    {fis : List (F × FactorInfo F D K)} {ts : List (Term F)} (hnd : ∀ t ∈ ts, t.factors.Nodup)
    (hsep : Separates hash (fun f => (dictGet nums f).isSome) (ts.map (·.factors)))
    (hnum : NumsFit nums fis ts) {n : F → Nat} (hcode : CodedByBases nums coder ts n)
    {d : DesignInfo F D K} (h : makeDesign name hash nums coder fis ts = .ok d) {c : Coding F D K} (hc : d.coding = some c)
    {rows : List (F → Option (Cell K))} {cols : List (List K)} (hm : IsMatrix c rows cols) (hrich : Rich nums ts n rows) :
    LinearIndependent K (columnVectors rows.length cols) :=
  coding_independent hnd hsep hnum hcode (madeCoding h hc) hm hrich

/-- The span of the columns of a coding. -/
theorem coding_span {H : Type} [DecidableEq H] {hash : Subterm F → H}
    {nums : List (F × Nat)} {coder : F → Bool → Except Err (ContrastMatrix K)}
    {fis : List (F × FactorInfo F D K)} {ts : List (Term F)} (hnd : ∀ t ∈ ts, t.factors.Nodup)
    (hsep : Separates hash (fun f => (dictGet nums f).isSome) (ts.map (·.factors)))
    (hnum : NumsFit nums fis ts) {n : F → Nat} (hcode : CodedByBases nums coder ts n)
    {c : Coding F D K} (h : MadeCoding hash nums coder fis ts c)
    {rows : List (F → Option (Cell K))} {cols : List (List K)} (hm : IsMatrix c rows cols)
    (hlev : ∀ cells ∈ rows, Combination nums ts n (levelAt cells)) :
    Submodule.span K (Set.range (columnVectors rows.length cols)) =
      Submodule.span K (⋃ t ∈ ts, termFunctions nums rows t) := by
  classical
  obtain ⟨R, C, hRC⟩ := codedByBases_choose hcode
  obtain ⟨A, hA⟩ := exists_catFactors nums ts
  have hbase : Bases A n R C := by
    intro f hf
    obtain ⟨t, ht, hf, hn⟩ := (hA f).mp hf
    exact (hRC t ht f hf hn).2
  obtain ⟨M, hM1, hM2, _, hM4⟩ := exists_columns hnd hsep h hnum (fun t ht f hf hn => (hRC t ht f hf hn).1) hA
    (n := n) (by
      intro f hf
      obtain ⟨⟨_, _, h1⟩, _, h2⟩ := hbase f hf
      exact ⟨h1.ncols, h2.ncols⟩)
  have hlen : M.length = cols.length := by
    rw [← List.Forall₂.length_eq hm, hM1, List.length_map]
  have hval : ∀ (j : Nat) (hj : j < cols.length) (i : Nat) (hi : i < rows.length),
      (cols[j])[i]?.getD 0 = monomial rows[i] (monoOf nums (M[j]'(by omega)).1.term (M[j]'(by omega)).2) *
        ∏ f ∈ A, (kindOf (M[j]'(by omega)).1.coding (M[j]'(by omega)).2 f).vec (R f) (C f) (levelAt rows[i] f) := by
    intro j hj i hi
    have hj' : j < M.length := by omega
    have h1 := isMatrix_entry hm hj (col := (M[j].1.st, M[j].1.st.factors.map M[j].2)) (by rw [hM1]; simp [hj']) hi
    obtain ⟨h2, _⟩ := hM2 M[j] (List.getElem_mem _)
    exact column_value (hnd _ h2.term) h2.realizes h2.mentions
      (fun f hf hn => (hRC _ h2.term f hf hn).1) (fun f hf hn => (hA f).mpr ⟨_, h2.term, hf, hn⟩) h2.checked h1
  refine le_antisymm (Submodule.span_le.mpr ?_) (Submodule.span_le.mpr ?_)
  · -- every column belongs to a term
    rintro _ ⟨j, rfl⟩
    refine Submodule.subset_span ?_
    obtain ⟨h2, _, h3⟩ := hM2 (M[j]'(by omega)) (List.getElem_mem _)
    refine Set.mem_iUnion₂.mpr ⟨_, h2.term, _, fun i =>
      ∏ f ∈ A, (kindOf (M[j]'(by omega)).1.coding (M[j]'(by omega)).2 f).vec (R f) (C f) (levelAt rows[i] f), h3, ?_,
      fun i => hval j j.2 i i.2⟩
    intro i i' hsame
    refine Finset.prod_congr rfl fun f _ => ?_
    by_cases hf : (M[j]'(by omega)).1.coding f = none
    · simp only [kindOf, hf, Kind.vec]
    · obtain ⟨h4, h5⟩ := h2.mentions f hf
      rw [hsame f (List.mem_filter.mpr ⟨h4, by simp [h5]⟩)]
  · -- every function of a term is a combination of columns
    intro v hv
    obtain ⟨t, ht, k, φ, ⟨jn, hjn, rfl⟩, hφ, hv⟩ := Set.mem_iUnion₂.mp hv
    have hcat : ∀ f, f ∈ (t.factors.filter fun f => (dictGet nums f).isNone).toFinset ↔
        f ∈ t.factors ∧ dictGet nums f = none := by
      intro f
      simp [List.mem_filter]
    have hlevA : ∀ (i : Fin rows.length), ∀ f ∈ A, levelAt rows[i] f < n f := by
      intro i f hf
      obtain ⟨t, ht, hf, hn⟩ := (hA f).mp hf
      exact hlev _ (List.getElem_mem _) t ht f hf hn
    -- the contributions without full coding
    let V : F → Set (Fin rows.length → K) := fun f =>
      {u | ∃ κ : Kind, (κ = .absent ∨ ∃ j, j < n f - 1 ∧ κ = .reduced j) ∧ u = fun i => κ.vec (R f) (C f) (levelAt rows[i] f)}
    have hspan : φ ∈ Submodule.span K {w | ∃ u : F → Fin rows.length → K,
        (∀ f ∈ (t.factors.filter fun f => (dictGet nums f).isNone).toFinset, u f ∈ V f) ∧
        w = ∏ f ∈ (t.factors.filter fun f => (dictGet nums f).isNone).toFinset, u f} := by
      refine function_mem_span (lev := fun i f => levelAt rows[i] f) ?_ ?_
      · intro i i' hs
        exact hφ i i' fun f hf => hs f (List.mem_toFinset.mpr hf)
      · intro f hf x
        have hfA : f ∈ A := (hA f).mpr ⟨t, ht, ((hcat f).mp hf).1, ((hcat f).mp hf).2⟩
        obtain ⟨⟨a, b, hr⟩, _⟩ := hbase f hfA
        have hmean := (hr.meaning (fun y => if y = x then 1 else 0) _ _).mpr ⟨rfl, fun _ _ => rfl⟩
        have heq : (fun i : Fin rows.length => if levelAt rows[i] f = x then (1 : K) else 0) =
            a (fun y => if y = x then 1 else 0) • (fun i : Fin rows.length => Kind.absent.vec (R f) (C f) (levelAt rows[i] f)) +
            ∑ j ∈ Finset.range (n f - 1), b (fun y => if y = x then 1 else 0) j •
              (fun i : Fin rows.length => (Kind.reduced j).vec (R f) (C f) (levelAt rows[i] f)) := by
          funext i
          rw [hmean _ (hlevA i f hfA)]
          simp only [Pi.add_apply, Pi.smul_apply, Finset.sum_apply, smul_eq_mul, Kind.vec, mul_one]
          congr 1
          exact Finset.sum_congr rfl fun j _ => mul_comm _ _
        rw [heq]
        refine Submodule.add_mem _ (Submodule.smul_mem _ _ (Submodule.subset_span ⟨.absent, .inl rfl, rfl⟩))
          (Submodule.sum_mem _ fun j hj => Submodule.smul_mem _ _ (Submodule.subset_span ⟨.reduced j, .inr ⟨j, ?_, rfl⟩, rfl⟩))
        exact Finset.mem_range.mp hj
    -- multiplication with the numerical part
    let m : Fin rows.length → K := fun i => monomial rows[i]
      ((t.factors.filter fun f => (dictGet nums f).isSome).toFinset.image fun f => (f, jn f))
    have hvm : v = LinearMap.mulLeft K m φ := by
      funext i
      rw [hv i]
      rfl
    rw [hvm]
    suffices hsub : Submodule.span K {w | ∃ u : F → Fin rows.length → K,
        (∀ f ∈ (t.factors.filter fun f => (dictGet nums f).isNone).toFinset, u f ∈ V f) ∧
        w = ∏ f ∈ (t.factors.filter fun f => (dictGet nums f).isNone).toFinset, u f} ≤
        (Submodule.span K (Set.range (columnVectors rows.length cols))).comap (LinearMap.mulLeft K m) from hsub hspan
    refine Submodule.span_le.mpr ?_
    rintro _ ⟨u, hu, rfl⟩
    choose! κ hκ using hu
    simp only [SetLike.mem_coe, Submodule.mem_comap, LinearMap.mulLeft_apply]
    -- the effect
    let S := (t.factors.filter fun f => (dictGet nums f).isNone).toFinset.filter fun f => κ f ≠ .absent
    obtain ⟨x, hx1, hx2, hx3, hx4⟩ := hM4 t ht S (by
      intro f hf
      exact List.mem_toFinset.mp (Finset.mem_filter.mp hf).1)
    obtain ⟨hnodup, hmem, hcontr⟩ := realizes_facts (hnd _ hx1.term) hx1.realizes hx1.mentions
      (fun f hf hn => (hRC _ hx1.term f hf hn).1)
    let P := A.filter fun f => x.coding f ≠ none
    let κ' : F → Kind := fun f => if f ∈ S then κ f else .absent
    have hprod : ∏ f ∈ (t.factors.filter fun f => (dictGet nums f).isNone).toFinset, u f =
        ∏ f ∈ P, fun i => (κ' f).vec (R f) (C f) (levelAt rows[i] f) := by
      have hone : ∀ f, f ∉ S → (fun i : Fin rows.length => (κ' f).vec (R f) (C f) (levelAt rows[i] f)) = 1 := by
        intro f hf
        funext i
        simp [κ', hf, Kind.vec]
      have hSP : S ⊆ P := by
        intro f hf
        have h1 := (hcat f).mp (Finset.mem_filter.mp hf).1
        exact Finset.mem_filter.mpr ⟨(hA f).mpr ⟨t, ht, h1.1, h1.2⟩, hx3.2 f hf⟩
      rw [← Finset.prod_subset hSP fun f _ hf => hone f hf]
      rw [← Finset.prod_subset (s₁ := S) (Finset.filter_subset _ _)]
      · refine Finset.prod_congr rfl fun f hf => ?_
        rw [(hκ f (Finset.mem_filter.mp hf).1).2]
        simp [κ', hf]
      · intro f hf hno
        have hab : κ f = .absent := by
          by_contra hne
          exact hno (Finset.mem_filter.mpr ⟨hf, hne⟩)
        rw [(hκ f hf).2, hab]
        rfl
    -- the contributions of the piece
    let W : F → Set (Fin rows.length → K) := fun f =>
      {u | ∃ j, (kindOf x.coding (fun _ => j) f).Fits (n f) ∧
        u = fun i => (kindOf x.coding (fun _ => j) f).vec (R f) (C f) (levelAt rows[i] f)}
    have hin : ∏ f ∈ P, (fun i : Fin rows.length => (κ' f).vec (R f) (C f) (levelAt rows[i] f)) ∈
        Submodule.span K {w | ∃ u : F → Fin rows.length → K, (∀ f ∈ P, u f ∈ W f) ∧ w = ∏ f ∈ P, u f} := by
      refine prod_mem_span fun f hf => ?_
      obtain ⟨hfA, hne⟩ := Finset.mem_filter.mp hf
      obtain ⟨b, hb⟩ := Option.ne_none_iff_exists'.mp hne
      cases b with
      | false =>
        have hfS : f ∈ S := hx3.1 f hb
        obtain ⟨hft, hna⟩ := Finset.mem_filter.mp hfS
        obtain ⟨j, hj, hkj⟩ := (hκ f hft).1.resolve_left hna
        refine Submodule.subset_span ⟨j, ?_, ?_⟩
        · simpa [kindOf, hb, Kind.Fits] using hj
        · funext i
          simp [κ', hfS, hkj, kindOf, hb]
      | true =>
        obtain ⟨_, b', hfull⟩ := hbase f hfA
        have hmean := (hfull.meaning (fun y => (κ' f).vec (R f) (C f) y) _).mpr fun _ _ => rfl
        have heq : (fun i : Fin rows.length => (κ' f).vec (R f) (C f) (levelAt rows[i] f)) =
            ∑ j ∈ Finset.range (n f), b' (fun y => (κ' f).vec (R f) (C f) y) j •
              (fun i : Fin rows.length => (kindOf x.coding (fun _ => j) f).vec (R f) (C f) (levelAt rows[i] f)) := by
          funext i
          rw [hmean _ (hlevA i f hfA)]
          simp only [Pi.smul_apply, Finset.sum_apply, smul_eq_mul, kindOf, hb, Kind.vec]
          exact Finset.sum_congr rfl fun j _ => mul_comm _ _
        rw [heq]
        refine Submodule.sum_mem _ fun j hj => Submodule.smul_mem _ _ (Submodule.subset_span ⟨j, ?_, rfl⟩)
        simpa [kindOf, hb, Kind.Fits] using hj
    rw [hprod]
    suffices hsub : Submodule.span K {w | ∃ u : F → Fin rows.length → K, (∀ f ∈ P, u f ∈ W f) ∧ w = ∏ f ∈ P, u f} ≤
        (Submodule.span K (Set.range (columnVectors rows.length cols))).comap (LinearMap.mulLeft K m) from hsub hin
    refine Submodule.span_le.mpr ?_
    rintro _ ⟨u', hu', rfl⟩
    choose! j hj using hu'
    simp only [SetLike.mem_coe, Submodule.mem_comap, LinearMap.mulLeft_apply]
    -- the column
    let J : F → Nat := fun f => if (dictGet nums f).isSome then jn f else j f
    have hPmem : ∀ f, x.coding f ≠ none → f ∈ P ∧ dictGet nums f = none := by
      intro f hf
      obtain ⟨h1, h2⟩ := hx1.mentions f hf
      exact ⟨Finset.mem_filter.mpr ⟨(hA f).mpr ⟨_, hx1.term, h1, h2⟩, hf⟩, h2⟩
    have hkind : ∀ f, kindOf x.coding J f = if x.coding f = none then .absent else kindOf x.coding (fun _ => j f) f := by
      intro f
      by_cases hf : x.coding f = none
      · simp [kindOf, hf]
      · simp [kindOf, hf, J, (hPmem f hf).2]
    obtain ⟨q, hq, hqx, hqJ⟩ := hx4 J (by
        intro f hf mm hmm
        have hfg : f ∈ groupOf nums x.term := by
          simp only [groupOf, List.mem_toFinset, List.mem_filter]
          exact ⟨((hmem f).mp hf).1, by simp [hmm]⟩
        rw [hx2] at hfg
        simp only [groupOf, List.mem_toFinset, List.mem_filter] at hfg
        simp only [J, hmm, Option.isSome_some, if_true]
        exact hjn f hfg.1 mm hmm) (by
        intro f
        rw [hkind]
        by_cases hf : x.coding f = none
        · simp [hf, Kind.Fits]
        · rw [if_neg hf]
          exact (hj f (hPmem f hf).1).1)
    obtain ⟨l, hl, hlq⟩ := List.getElem_of_mem hq
    refine Submodule.subset_span ⟨⟨l, by omega⟩, ?_⟩
    funext i
    have hv := hval l (by omega) i i.2
    simp only [hlq, hqx] at hv
    show (cols[l])[i]?.getD 0 = _
    refine hv.trans ?_
    rw [Pi.mul_apply, Finset.prod_apply]
    have hmono : monoOf nums x.term q.2 =
        (t.factors.filter fun f => (dictGet nums f).isSome).toFinset.image fun f => (f, jn f) := by
      unfold monoOf
      rw [hx2]
      refine Finset.image_congr ?_
      intro f hf
      have hf : f ∈ groupOf nums t := hf
      rw [← hx2] at hf
      simp only [groupOf, List.mem_toFinset, List.mem_filter] at hf
      have hfst : f ∈ x.st.factors := (hmem f).mpr ⟨hf.1, .inl hf.2⟩
      simp only
      rw [hqJ f hfst]
      simp [J, hf.2]
    rw [hmono]
    congr 1
    rw [← Finset.prod_subset (s₁ := P) (Finset.filter_subset _ _)]
    · refine Finset.prod_congr rfl fun f hf => ?_
      obtain ⟨hfA, hne⟩ := Finset.mem_filter.mp hf
      have hfst : f ∈ x.st.factors := (hmem f).mpr ⟨(hx1.mentions f hne).1, .inr hne⟩
      have hkq : kindOf x.coding q.2 f = kindOf x.coding (fun _ => j f) f := by
        have : kindOf x.coding q.2 f = kindOf x.coding J f := by simp [kindOf, hqJ f hfst]
        rw [this, hkind, if_neg hne]
      rw [hkq, (hj f hf).2]
      rfl
    · intro f hfA hno
      have hnone : x.coding f = none := by
        by_contra hne
        exact hno (Finset.mem_filter.mpr ⟨hfA, hne⟩)
      simp [kindOf, hnone, Kind.vec]

/-- **C03**, span.  If the codings of the categorical factors are bases, then the linear combinations of the columns of the
design are the sums of functions that the terms describe. -/
theorem columns_span {H : Type} [DecidableEq H] {name : F → String} {hash : Subterm F → H}
    {nums : List (F × Nat)} {coder : F → Bool → Except Err (ContrastMatrix K)}
    {fis : List (F × FactorInfo F D K)} {ts : List (Term F)} (hnd : ∀ t ∈ ts, t.factors.Nodup)
    (hsep : Separates hash (fun f => (dictGet nums f).isSome) (ts.map (·.factors)))
    (hnum : NumsFit nums fis ts) {n : F → Nat} (hcode : CodedByBases nums coder ts n)
    {d : DesignInfo F D K} (h : makeDesign name hash nums coder fis ts = .ok d) {c : Coding F D K} (hc : d.coding = some c)
    {rows : List (F → Option (Cell K))} {cols : List (List K)} (hm : IsMatrix c rows cols)
    (hlev : ∀ cells ∈ rows, Combination nums ts n (levelAt cells)) :
    Submodule.span K (Set.range (columnVectors rows.length cols)) =
      Submodule.span K (⋃ t ∈ ts, termFunctions nums rows t) :=
  coding_span hnd hsep hnum hcode (madeCoding h hc) hm hlev

/-- The data contain every combination of levels. -/
def FullyCrossed (ts : List (Term F)) (n : F → Nat) (rows : List (F → Option (Cell K))) : Prop :=
  ∀ g : F → Nat, (∀ t ∈ ts, ∀ f ∈ t.factors, g f < n f) →
    ∃ cells ∈ rows, ∀ t ∈ ts, ∀ f ∈ t.factors, levelAt cells f = g f

/-- **C03**.  The columns for a list of purely categorical terms, on data that contain every combination of levels: they
are linearly independent, and they span the sum of the spaces of the terms, where the space of a term consists of all
functions of the levels of its factors. -/
theorem categorical_basis {H : Type} [DecidableEq H] {name : F → String} {hash : Subterm F → H}
    {nums : List (F × Nat)} {coder : F → Bool → Except Err (ContrastMatrix K)}
    {fis : List (F × FactorInfo F D K)} {ts : List (Term F)} (hnd : ∀ t ∈ ts, t.factors.Nodup)
    (hsep : Separates hash (fun f => (dictGet nums f).isSome) (ts.map (·.factors)))
    (hcat : ∀ t ∈ ts, ∀ f ∈ t.factors, dictGet nums f = none) {n : F → Nat} (hcode : CodedByBases nums coder ts n)
    {d : DesignInfo F D K} (h : makeDesign name hash nums coder fis ts = .ok d) {c : Coding F D K} (hc : d.coding = some c)
    {rows : List (F → Option (Cell K))} {cols : List (List K)} (hm : IsMatrix c rows cols)
    (hlev : ∀ cells ∈ rows, ∀ t ∈ ts, ∀ f ∈ t.factors, levelAt cells f < n f) (hall : FullyCrossed ts n rows) :
    LinearIndependent K (columnVectors rows.length cols) ∧
    Submodule.span K (Set.range (columnVectors rows.length cols)) =
      Submodule.span K (⋃ t ∈ ts, {φ | DependsOnly rows t.factors φ}) := by
  have hnum : NumsFit nums fis ts := by
    intro t ht f hf m hm
    rw [hcat t ht f hf] at hm
    cases hm
  have hnone : ∀ t ∈ ts, (t.factors.filter fun f => (dictGet nums f).isSome) = [] ∧
      (t.factors.filter fun f => (dictGet nums f).isNone) = t.factors := by
    intro t ht
    constructor
    · rw [List.filter_eq_nil_iff]
      intro f hf
      simp [hcat t ht f hf]
    · rw [List.filter_eq_self]
      intro f hf
      simp [hcat t ht f hf]
  have hmono : ∀ t ∈ ts, ∀ k, MonomialOf nums t k ↔ k = ∅ := by
    intro t ht k
    constructor
    · rintro ⟨j, _, rfl⟩
      rw [(hnone t ht).1]
      rfl
    · rintro rfl
      refine ⟨fun _ => 0, ?_, by rw [(hnone t ht).1]; rfl⟩
      intro f hf m hm
      rw [hcat t ht f hf] at hm
      cases hm
  constructor
  · refine columns_independent hnd hsep hnum hcode h hc hm ?_
    intro g hg
    obtain ⟨cells, hcells, hlevels⟩ := hall g fun t ht f hf => hg t ht f hf (hcat t ht f hf)
    obtain ⟨i, hi, rfl⟩ := List.getElem_of_mem hcells
    have hsub : {k | ∃ t ∈ ts, MonomialOf nums t k} ⊆ {(∅ : Finset (F × Nat))} := by
      rintro k ⟨t, ht, hk⟩
      exact (hmono t ht k).mp hk
    refine LinearIndepOn.mono ?_ hsub
    refine LinearIndepOn.singleton ?_
    intro h0
    have := congrFun h0 ⟨⟨i, hi⟩, fun t ht f hf _ => hlevels t ht f hf⟩
    simp [monomial] at this
  · rw [columns_span hnd hsep hnum hcode h hc hm fun cells hcells t ht f hf _ => hlev cells hcells t ht f hf]
    congr 1
    refine Set.iUnion₂_congr fun t ht => ?_
    ext v
    simp only [termFunctions, Set.mem_setOf_eq, (hnone t ht).2]
    constructor
    · rintro ⟨k, φ, hk, hφ, hv⟩
      obtain rfl := (hmono t ht k).mp hk
      have : v = φ := by
        funext i
        rw [hv i]
        simp [monomial]
      rw [this]
      exact hφ
    · intro hv
      exact ⟨∅, v, (hmono t ht ∅).mpr rfl, hv, fun i => by simp [monomial]⟩

end Patsy.Props
