import Verif.Spec.Recode
import Verif.Props.Fit

/-! # C72: only what the variables span matters -/

set_option linter.unusedSectionVars false

namespace Patsy.Props

open Patsy.Build Patsy.Desc Patsy.Cat Patsy.Spec Patsy.Contrast Patsy.Redundancy

variable {F D K H : Type} [DecidableEq F] [Field K] [DecidableEq H]

/-- The numerical factors of a term. -/
def numSet (nums : List (F × Nat)) (t : Term F) : Finset F := (t.factors.filter fun f => (dictGet nums f).isSome).toFinset

theorem mem_numSet {nums : List (F × Nat)} {t : Term F} {f : F} :
    f ∈ numSet nums t ↔ f ∈ t.factors ∧ (dictGet nums f).isSome = true := by
  simp [numSet]

/-- The functions that terms describe, for rows that are given by number. -/
def termSpace {n : Nat} (nums : List (F × Nat)) (ts : List (Term F)) (row : Fin n → F → Option (Cell K)) :
    Submodule K (Fin n → K) :=
  Submodule.span K {v | ∃ t ∈ ts, ∃ (j : F → Nat) (φ : Fin n → K),
    (∀ f ∈ t.factors, ∀ m, dictGet nums f = some m → j f < m) ∧
    (∀ i i', (∀ f ∈ t.factors, dictGet nums f = none → levelAt (row i) f = levelAt (row i') f) → φ i = φ i') ∧
    ∀ i, v i = (∏ f ∈ numSet nums t, numberAt (row i) f (j f)) * φ i}

theorem termSpace_eq (nums : List (F × Nat)) (ts : List (Term F)) (rows : List (F → Option (Cell K))) :
    Submodule.span K (⋃ t ∈ ts, termFunctions nums rows t) = termSpace nums ts fun i : Fin rows.length => rows[i] := by
  rw [termSpace]
  congr 1
  ext v
  have hmon : ∀ (c : F → Option (Cell K)) (t : Term F) (j : F → Nat),
      monomial c ((t.factors.filter fun f => (dictGet nums f).isSome).toFinset.image fun f => (f, j f)) =
        ∏ f ∈ numSet nums t, numberAt c f (j f) := by
    intro c t j
    rw [monomial, Finset.prod_image]
    · rfl
    · intro a _ b _ h
      exact (Prod.mk.inj h).1
  simp only [Set.mem_iUnion, Set.mem_ofPred_eq, termFunctions, MonomialOf, DependsOnly, exists_prop]
  constructor
  · rintro ⟨t, ht, k, φ, ⟨j, hj, rfl⟩, hφ, hv⟩
    refine ⟨t, ht, j, φ, hj, ?_, ?_⟩
    · intro i i' hi
      refine hφ i i' fun f hf => ?_
      rw [List.mem_filter] at hf
      exact hi f hf.1 (by simpa using hf.2)
    · intro i
      rw [hv i]
      exact congrArg (· * φ i) (hmon _ t j)
  · rintro ⟨t, ht, j, φ, hj, hφ, hv⟩
    refine ⟨t, ht, _, φ, ⟨j, hj, rfl⟩, ?_, ?_⟩
    · intro i i' hi
      refine hφ i i' fun f hf hn => hi f ?_
      rw [List.mem_filter]
      exact ⟨hf, by simp [hn]⟩
    · intro i
      rw [hv i]
      exact congrArg (· * φ i) (hmon _ t j).symm

/-- Replacing the numerical factors one by one. -/
theorem mixed_mem {n : Nat} {nums : List (F × Nat)} {ts : List (Term F)} {row row' : Fin n → F → Option (Cell K)}
    (τ : F → F) (j1 : F → Nat) (N1 : Finset F) :
    ∀ (N2 : Finset F) (j2 : F → Nat) (φ : Fin n → K) (u : Term F), u ∈ ts →
    (∀ f ∈ N1, ∀ g ∈ N1, τ f = τ g → f = g) → (∀ f ∈ N1, τ f ∉ N2) →
    (∀ f, f ∈ numSet nums u ↔ (∃ g ∈ N1, τ g = f) ∨ f ∈ N2) →
    (∀ i i', (∀ f ∈ u.factors, dictGet nums f = none → levelAt (row i) f = levelAt (row i') f) → φ i = φ i') →
    (∀ f ∈ N2, ∀ m, dictGet nums f = some m → j2 f < m) →
    (∀ f ∈ N1, ∀ m, dictGet nums (τ f) = some m → ∃ (q : K) (a : Nat → K), (q ≠ 0 → Droppable nums ts (τ f)) ∧
      ∀ i, numberAt (row' i) f (j1 f) = q + ∑ l ∈ Finset.range m, a l * numberAt (row i) (τ f) l) →
    (fun i => (∏ f ∈ N1, numberAt (row' i) f (j1 f)) * (∏ f ∈ N2, numberAt (row i) f (j2 f)) * φ i) ∈
      termSpace nums ts row := by
  induction N1 using Finset.induction_on with
  | empty =>
    intro N2 j2 φ u hu _ _ hset hφ hj _
    refine Submodule.subset_span ⟨u, hu, j2, φ, ?_, hφ, ?_⟩
    · intro f hf m hm
      refine hj f ?_ m hm
      have := (hset f).mp (mem_numSet.mpr ⟨hf, by simp [hm]⟩)
      simpa using this
    · intro i
      have : numSet nums u = N2 := by
        ext f
        rw [hset f]
        simp
      rw [this]
      simp
  | insert g N1 hg ih =>
    intro N2 j2 φ u hu hinj hdis hset hφ hj hcol
    have hgu : τ g ∈ numSet nums u := (hset _).mpr (.inl ⟨g, Finset.mem_insert_self _ _, rfl⟩)
    obtain ⟨hgu1, hgu2⟩ := mem_numSet.mp hgu
    obtain ⟨m, hm⟩ := Option.isSome_iff_exists.mp hgu2
    obtain ⟨q, a, hq, hc⟩ := hcol g (Finset.mem_insert_self _ _) m hm
    have hinj' : ∀ f ∈ N1, ∀ h ∈ N1, τ f = τ h → f = h := fun f hf h hh =>
      hinj f (Finset.mem_insert_of_mem hf) h (Finset.mem_insert_of_mem hh)
    have hne : ∀ f ∈ N1, τ f ≠ τ g := by
      intro f hf he
      have := hinj f (Finset.mem_insert_of_mem hf) g (Finset.mem_insert_self _ _) he
      subst this
      exact hg hf
    have hg2 : τ g ∉ N2 := hdis g (Finset.mem_insert_self _ _)
    have hcol' : ∀ f ∈ N1, ∀ m, dictGet nums (τ f) = some m → ∃ (q : K) (a : Nat → K),
        (q ≠ 0 → Droppable nums ts (τ f)) ∧
        ∀ i, numberAt (row' i) f (j1 f) = q + ∑ l ∈ Finset.range m, a l * numberAt (row i) (τ f) l :=
      fun f hf => hcol f (Finset.mem_insert_of_mem hf)
    -- one column of the old factor
    have hcolumn : ∀ l < m, (fun i => (∏ f ∈ N1, numberAt (row' i) f (j1 f)) *
        ((numberAt (row i) (τ g) l) * ∏ f ∈ N2, numberAt (row i) f (j2 f)) * φ i) ∈ termSpace nums ts row := by
      intro l hl
      have := ih (insert (τ g) N2) (Function.update j2 (τ g) l) φ u hu hinj' ?_ ?_ hφ ?_ hcol'
      · convert this using 2 with i
        rw [Finset.prod_insert hg2, Function.update_self]
        congr 3
        refine Finset.prod_congr rfl fun f hf => ?_
        rw [Function.update_of_ne]
        rintro rfl
        exact hg2 hf
      · intro f hf hmem
        rcases Finset.mem_insert.mp hmem with h | h
        · exact hne f hf h
        · exact hdis f (Finset.mem_insert_of_mem hf) h
      · intro f
        rw [hset f]
        constructor
        · rintro (⟨h, hh, rfl⟩ | h)
          · rcases Finset.mem_insert.mp hh with rfl | hh
            · exact .inr (Finset.mem_insert_self _ _)
            · exact .inl ⟨h, hh, rfl⟩
          · exact .inr (Finset.mem_insert_of_mem h)
        · rintro (⟨h, hh, rfl⟩ | h)
          · exact .inl ⟨h, Finset.mem_insert_of_mem hh, rfl⟩
          · rcases Finset.mem_insert.mp h with rfl | h
            · exact .inl ⟨g, Finset.mem_insert_self _ _, rfl⟩
            · exact .inr h
      · intro f hf k hk
        by_cases he : f = τ g
        · subst he
          rw [hm] at hk
          cases hk
          rwa [Function.update_self]
        · rw [Function.update_of_ne he]
          exact hj f ((Finset.mem_insert.mp hf).resolve_left he) k hk
    -- the constant
    have hconst : q ≠ 0 → (fun i => (∏ f ∈ N1, numberAt (row' i) f (j1 f)) *
        (∏ f ∈ N2, numberAt (row i) f (j2 f)) * φ i) ∈ termSpace nums ts row := by
      intro hq0
      obtain ⟨u', hu', hm1, hm2⟩ := hq hq0 u hu hgu1
      refine ih N2 j2 φ u' hu' hinj' (fun f hf => hdis f (Finset.mem_insert_of_mem hf)) ?_ ?_ hj hcol'
      · intro f
        constructor
        · intro hf
          obtain ⟨h1, h2⟩ := mem_numSet.mp hf
          have h3 := hm2 f h1 (Option.isSome_iff_ne_none.mp h2)
          simp only [List.mem_filter, decide_eq_true_eq] at h3
          rcases (hset f).mp (mem_numSet.mpr ⟨h3.1, h2⟩) with ⟨h, hh, rfl⟩ | h
          · rcases Finset.mem_insert.mp hh with rfl | hh
            · exact absurd rfl h3.2
            · exact .inl ⟨h, hh, rfl⟩
          · exact .inr h
        · intro hf
          have hfu : f ∈ numSet nums u := by
            rw [hset f]
            rcases hf with ⟨h, hh, rfl⟩ | hf
            · exact .inl ⟨h, Finset.mem_insert_of_mem hh, rfl⟩
            · exact .inr hf
          have hfg : f ≠ τ g := by
            rcases hf with ⟨h, hh, rfl⟩ | hf
            · exact hne h hh
            · rintro rfl
              exact hg2 hf
          obtain ⟨h1, h2⟩ := mem_numSet.mp hfu
          exact mem_numSet.mpr ⟨hm1 f (by simp [h1, hfg]), h2⟩
      · intro i i' hi
        refine hφ i i' fun f hf hn => hi f (hm1 f ?_) hn
        have : f ≠ τ g := by
          rintro rfl
          rw [hm] at hn
          cases hn
        simp [hf, this]
    have hsum : (fun i => (∏ f ∈ insert g N1, numberAt (row' i) f (j1 f)) *
        (∏ f ∈ N2, numberAt (row i) f (j2 f)) * φ i) =
        q • (fun i => (∏ f ∈ N1, numberAt (row' i) f (j1 f)) * (∏ f ∈ N2, numberAt (row i) f (j2 f)) * φ i) +
        ∑ l ∈ Finset.range m, a l • fun i => (∏ f ∈ N1, numberAt (row' i) f (j1 f)) *
          ((numberAt (row i) (τ g) l) * ∏ f ∈ N2, numberAt (row i) f (j2 f)) * φ i := by
      funext i
      simp only [Finset.prod_insert hg, hc i, Pi.add_apply, Pi.smul_apply, Finset.sum_apply, smul_eq_mul]
      rw [add_mul, add_mul, add_mul, Finset.sum_mul, Finset.sum_mul, Finset.sum_mul]
      congr 1
      · ring
      · refine Finset.sum_congr rfl fun l _ => ?_
        ring
    rw [hsum]
    refine Submodule.add_mem _ ?_ (Submodule.sum_mem _ fun l hl => Submodule.smul_mem _ _ (hcolumn l (Finset.mem_range.mp hl)))
    by_cases hq0 : q = 0
    · rw [hq0, zero_smul]
      exact Submodule.zero_mem _
    · exact Submodule.smul_mem _ _ (hconst hq0)

/-- What terms describe in variables that can be computed from others, the corresponding terms describe in those. -/
theorem expressed_le {n : Nat} {nums nums' : List (F × Nat)} {ts ts' : List (Term F)}
    {row row' : Fin n → F → Option (Cell K)} {τ : F → F} (h : Expressed nums ts row nums' ts' row' τ) :
    termSpace nums' ts' row' ≤ termSpace nums ts row := by
  refine Submodule.span_le.mpr ?_
  rintro v ⟨t', ht', j, φ, hj, hφ, hv⟩
  obtain ⟨t, ht, hset⟩ := h.terms t' ht'
  have key := mixed_mem (nums := nums) (ts := ts) (row := row) (row' := row') τ j (numSet nums' t') ∅ (fun _ => 0) φ t ht
    (fun f hf g hg => h.distinct t' ht' f (mem_numSet.mp hf).1 g (mem_numSet.mp hg).1) (by simp) ?_ ?_ (by simp) ?_
  · have : v = fun i => (∏ f ∈ numSet nums' t', numberAt (row' i) f (j f)) *
        (∏ f ∈ (∅ : Finset F), numberAt (row i) f 0) * φ i := by
      funext i
      rw [hv i]
      simp
    rw [this]
    exact key
  · intro f
    rw [mem_numSet, hset f]
    constructor
    · rintro ⟨⟨f', hf', rfl⟩, hs⟩
      exact .inl ⟨f', mem_numSet.mpr ⟨hf', by rw [h.kinds t' ht' f' hf']; exact hs⟩, rfl⟩
    · rintro (⟨g, hg, rfl⟩ | hf)
      · obtain ⟨h1, h2⟩ := mem_numSet.mp hg
        exact ⟨⟨g, h1, rfl⟩, by rw [← h.kinds t' ht' g h1]; exact h2⟩
      · simp at hf
  · intro i i' hi
    refine hφ i i' fun f hf hn => h.levels t' ht' f hf hn i i' (hi _ ((hset _).mpr ⟨f, hf, rfl⟩) ?_)
    have := h.kinds t' ht' f hf
    rw [hn] at this
    simpa using this.symm
  · intro f hf m hm
    obtain ⟨h1, h2⟩ := mem_numSet.mp hf
    obtain ⟨m', hm'⟩ := Option.isSome_iff_exists.mp h2
    exact h.columns t' ht' f h1 m m' hm hm' (j f) (hj f h1 m' hm')

theorem space_of_rows {n : Nat} {nums : List (F × Nat)} {ts : List (Term F)} {rows : List (F → Option (Cell K))}
    {row : Fin n → F → Option (Cell K)} (hr : rows = List.ofFn row) {k : Nat} (hk : k = rows.length) {cols : List (List K)}
    (h : Submodule.span K (Set.range (columnVectors rows.length cols)) =
      Submodule.span K (⋃ t ∈ ts, termFunctions nums rows t)) :
    k = n ∧ Submodule.span K (Set.range (columnVectors n cols)) = termSpace nums ts row := by
  have hn : rows.length = n := by rw [hr, List.length_ofFn]
  refine ⟨hk.trans hn, ?_⟩
  subst hn
  rw [h, termSpace_eq]
  congr 1
  funext i
  have : rows[i.val]? = some (row i) := (congrArg (fun l => l[i.val]?) hr).trans (by simp)
  simpa using this

/-- What `Learned` and `RowCount` say about a model on a data set, together. -/
def Fits (P : Setting F D K H) (dataIndex : Option (List Label)) (data : D) (m : ModelDesc F)
    (eval : F → D → Except Err (Seen K)) (types : Types F K) (n : Nat) : Prop :=
  Learned P data m eval types ∧ RowCount P.na types (fun f => eval f data) (allFactors [m.lhs, m.rhs]) dataIndex n

/-- **C72**.  If the variables of the second model can be computed from those of the first, row by row, factor by factor,
then the columns of the second matrix are linear combinations of those of the first. -/
theorem computed_column_space {P P' : Setting F D K H} (hw : World P) (hw' : World P') (hcodes : CodesFit P)
    (hcodes' : CodesFit P') {isnan isnan' : K → Bool} {dataIndex dataIndex' : Option (List Label)} {data data' : D}
    {rt rt' : ReturnType} {f f' : FormulaLike F D K} (hf : Sound data f) (hf' : Sound data' f') {m m' : ModelDesc F}
    (hm : modelOf f = some m) (hm' : modelOf f' = some m') {t t' : Table F D K × Table F D K}
    (h : highLevelDesign P isnan dataIndex data rt f = .ok t)
    (h' : highLevelDesign P' isnan' dataIndex' data' rt' f' = .ok t')
    (hgood : ∀ eval types n eval' types' n', Fits P dataIndex data m eval types n →
      Fits P' dataIndex' data' m' eval' types' n' → WellCoded P types m.rhs ∧ WellCoded P' types' m'.rhs ∧
      Computed types.1 m.rhs (modelRows P isnan data m eval types n)
        types'.1 m'.rhs (modelRows P' isnan' data' m' eval' types' n')) :
    t.2.mat.nrows = t'.2.mat.nrows ∧
      Submodule.span K (Set.range (columnVectors t.2.mat.nrows t'.2.mat.cols)) ≤
        Submodule.span K (Set.range (columnVectors t.2.mat.nrows t.2.mat.cols)) := by
  obtain ⟨eval, types, n, hl, hn, hall⟩ := model_on_data hw hcodes hf hm h
  obtain ⟨eval', types', n', hl', hn', hall'⟩ := model_on_data hw' hcodes' hf' hm' h'
  obtain ⟨hc, hc', k, row, row', τ, hr, hr', hex⟩ := hgood _ _ _ _ _ _ ⟨hl, hn⟩ ⟨hl', hn'⟩
  obtain ⟨h1, h2⟩ := hall m.rhs t.2.mat (.inr rfl)
  obtain ⟨h1', h2'⟩ := hall' m'.rhs t'.2.mat (.inr rfl)
  obtain ⟨e1, e2⟩ := space_of_rows hr h1 (h2 hc).1
  obtain ⟨e1', e2'⟩ := space_of_rows hr' h1' (h2' hc').1
  refine ⟨e1.trans e1'.symm, ?_⟩
  rw [e1, e2, e2']
  exact expressed_le hex

/-- **C72**.  If each of two models can be computed from the other, then their matrices have the same number of rows and
the same column space.  The data, the formulas, and the functions in them may all be different. -/
theorem recoded_column_space {P P' : Setting F D K H} (hw : World P) (hw' : World P') (hcodes : CodesFit P)
    (hcodes' : CodesFit P') {isnan isnan' : K → Bool} {dataIndex dataIndex' : Option (List Label)} {data data' : D}
    {rt rt' : ReturnType} {f f' : FormulaLike F D K} (hf : Sound data f) (hf' : Sound data' f') {m m' : ModelDesc F}
    (hm : modelOf f = some m) (hm' : modelOf f' = some m') {t t' : Table F D K × Table F D K}
    (h : highLevelDesign P isnan dataIndex data rt f = .ok t)
    (h' : highLevelDesign P' isnan' dataIndex' data' rt' f' = .ok t')
    (hgood : ∀ eval types n eval' types' n', Fits P dataIndex data m eval types n →
      Fits P' dataIndex' data' m' eval' types' n' → WellCoded P types m.rhs ∧ WellCoded P' types' m'.rhs ∧
      Recoded types.1 m.rhs (modelRows P isnan data m eval types n)
        types'.1 m'.rhs (modelRows P' isnan' data' m' eval' types' n')) :
    t.2.mat.nrows = t'.2.mat.nrows ∧
      Submodule.span K (Set.range (columnVectors t.2.mat.nrows t.2.mat.cols)) =
        Submodule.span K (Set.range (columnVectors t.2.mat.nrows t'.2.mat.cols)) := by
  obtain ⟨e, h1⟩ := computed_column_space hw hw' hcodes hcodes' hf hf' hm hm' h h'
    fun eval types n eval' types' n' hx hx' => by
      obtain ⟨a, b, k, row, row', σ, τ, hr, hr', hex, _⟩ := hgood eval types n eval' types' n' hx hx'
      exact ⟨a, b, k, row, row', τ, hr, hr', hex⟩
  obtain ⟨_, h2⟩ := computed_column_space hw' hw hcodes' hcodes hf' hf hm' hm h' h
    fun eval' types' n' eval types n hx' hx => by
      obtain ⟨a, b, k, row, row', σ, τ, hr, hr', _, hex⟩ := hgood eval types n eval' types' n' hx hx'
      exact ⟨b, a, k, row', row, σ, hr', hr, hex⟩
  rw [← e] at h2
  exact ⟨e, le_antisymm h2 h1⟩

/-- **C72**.  Other units, another origin, another basis of the same curves, other names of the levels: the fitted values
of linear regression stay the same, for every outcome. -/
theorem recoded_same_fit {K : Type} [Field K] [LinearOrder K] [IsStrictOrderedRing K] {P P' : Setting F D K H}
    (hw : World P) (hw' : World P') (hcodes : CodesFit P) (hcodes' : CodesFit P') {isnan isnan' : K → Bool}
    {dataIndex dataIndex' : Option (List Label)} {data data' : D} {rt rt' : ReturnType} {f f' : FormulaLike F D K}
    (hf : Sound data f) (hf' : Sound data' f') {m m' : ModelDesc F} (hm : modelOf f = some m) (hm' : modelOf f' = some m')
    {t t' : Table F D K × Table F D K} (h : highLevelDesign P isnan dataIndex data rt f = .ok t)
    (h' : highLevelDesign P' isnan' dataIndex' data' rt' f' = .ok t')
    (hgood : ∀ eval types n eval' types' n', Fits P dataIndex data m eval types n →
      Fits P' dataIndex' data' m' eval' types' n' → WellCoded P types m.rhs ∧ WellCoded P' types' m'.rhs ∧
      Recoded types.1 m.rhs (modelRows P isnan data m eval types n)
        types'.1 m'.rhs (modelRows P' isnan' data' m' eval' types' n')) :
    t.2.mat.nrows = t'.2.mat.nrows ∧ ∀ y v v' : Fin t.2.mat.nrows → K,
      Fitted t.2.mat.nrows t.2.mat.cols y v → Fitted t.2.mat.nrows t'.2.mat.cols y v' → v = v' := by
  obtain ⟨h1, h2⟩ := recoded_column_space hw hw' hcodes hcodes' hf hf' hm hm' h h' hgood
  refine ⟨h1, fun y v v' hv hv' => fitted_unique hv ?_⟩
  rw [fitted_iff] at hv' ⊢
  rwa [h2]

/-- **C72**.  A model whose variables can be computed from those of another one does not fit better. -/
theorem computed_fit_le {K : Type} [Field K] [LinearOrder K] [IsStrictOrderedRing K] {P P' : Setting F D K H}
    (hw : World P) (hw' : World P') (hcodes : CodesFit P) (hcodes' : CodesFit P') {isnan isnan' : K → Bool}
    {dataIndex dataIndex' : Option (List Label)} {data data' : D} {rt rt' : ReturnType} {f f' : FormulaLike F D K}
    (hf : Sound data f) (hf' : Sound data' f') {m m' : ModelDesc F} (hm : modelOf f = some m) (hm' : modelOf f' = some m')
    {t t' : Table F D K × Table F D K} (h : highLevelDesign P isnan dataIndex data rt f = .ok t)
    (h' : highLevelDesign P' isnan' dataIndex' data' rt' f' = .ok t')
    (hgood : ∀ eval types n eval' types' n', Fits P dataIndex data m eval types n →
      Fits P' dataIndex' data' m' eval' types' n' → WellCoded P types m.rhs ∧ WellCoded P' types' m'.rhs ∧
      Computed types.1 m.rhs (modelRows P isnan data m eval types n)
        types'.1 m'.rhs (modelRows P' isnan' data' m' eval' types' n')) :
    t.2.mat.nrows = t'.2.mat.nrows ∧ ∀ y v v' : Fin t.2.mat.nrows → K,
      Fitted t.2.mat.nrows t.2.mat.cols y v → Fitted t.2.mat.nrows t'.2.mat.cols y v' →
      ∑ i, (y i - v i) ^ 2 ≤ ∑ i, (y i - v' i) ^ 2 := by
  obtain ⟨h1, h2⟩ := computed_column_space hw hw' hcodes hcodes' hf hf' hm hm' h h' hgood
  refine ⟨h1, fun y v v' hv hv' => ?_⟩
  rw [fitted_iff] at hv hv'
  exact hv.2 v' (h2 hv'.1)

/-! ### Examples -/

namespace RecodeSample

open BuilderSample HighSample

/-- As `look'`, and `center(x)` for the data `rows`, where the mean is 3. -/
def lookC (f : String) (d : Data) : Except Err (Seen ℚ) :=
  if f = "center(x)" then .ok (number (d.map fun r => r.2.1 - 3)) else look' f d

def settingC : Setting String Data ℚ (Redundancy.Subterm String) := { setting with memorize := fun _ => .ok lookC }

theorem worldC : World settingC := by
  refine ⟨visits, ?_⟩
  intro fs eval h f d s hs l hl
  cases h
  have : s.index = none := by
    simp only [lookC, look', look, number] at hs
    repeat' split at hs
    all_goals first | (cases hs; rfl) | cases hs
  rw [this] at hl
  cases hl

theorem codesFitC : CodesFit settingC := by
  intro fs eval h f d s cats codes hs hv
  cases h
  simp only [lookC, look', look, number] at hs
  repeat' split at hs
  all_goals first | (cases hs; cases hv) | cases hs

def rows : Data := [(1, 1, "u"), (2, 2, "u"), (4, 4, "v"), (1, 3, "v"), (9, 1, "w"), (3, 7, "w")]

/-- The same rows, with other names of the levels: their order is another one. -/
def renamed : Data := [(1, 1, "z"), (2, 2, "z"), (4, 4, "v"), (1, 3, "v"), (9, 1, "b"), (3, 7, "b")]

/-- `1 + a + a:center(x)`. -/
def centred : ModelDesc String := ⟨[], [⟨[]⟩, ⟨["a"]⟩, ⟨["a", "center(x)"]⟩]⟩

def types : Types String ℚ := ([("x", 1)], [("a", [.str "u", .str "v", .str "w"], none)])

def typesC : Types String ℚ := ([("center(x)", 1)], [("a", [.str "b", .str "v", .str "z"], none)])

theorem learned : Learned setting' rows FitSample.one look' types := ⟨rfl, rfl⟩

theorem learnedC : Learned settingC renamed centred lookC typesC := ⟨rfl, rfl⟩

def result : Except Err (Table String Data ℚ × Table String Data ℚ) :=
  highLevelDesign setting' FitSample.isnan none rows .matrix (.desc FitSample.one)

def resultC : Except Err (Table String Data ℚ × Table String Data ℚ) :=
  highLevelDesign settingC FitSample.isnan none renamed .matrix (.desc centred)

theorem result_ok : isOk result = true := by decide +kernel
theorem resultC_ok : isOk resultC = true := by decide +kernel

/-- `x` alone, and `center(x)` alone. -/
def alone (f : String) : Except Err (Table String Data ℚ × Table String Data ℚ) :=
  highLevelDesign settingC FitSample.isnan none rows .matrix (.desc ⟨[], [⟨[f]⟩]⟩)

theorem alone_ok : isOk (alone "x") = true ∧ isOk (alone "center(x)") = true := by decide +kernel

theorem good {levels : List PyVal} (h : levels ≠ []) {P : Setting String Data ℚ (Redundancy.Subterm String)}
    (hd : P.default = setting.default) (hh : P.hash = setting.hash) {types : Types String ℚ}
    (hx : "a" ∉ types.1.map Prod.fst) (ht : types.2 = [("a", levels, none)]) (ts : List (Term String)) :
    WellCoded P types ts := by
  refine ⟨?_, ?_⟩
  · intro t _ f _ levels' contrast hty
    by_cases ha : "a" = f
    · subst ha
      have h2 : dictGet types.2 "a" = some (levels, none) := by rw [ht]; rfl
      simp only [typeOf, dictGet_none hx, h2, Option.map_some, Option.some.injEq, FactorType.categorical.injEq] at hty
      obtain ⟨rfl, rfl⟩ := hty
      rw [hd]
      exact (builtin_good (default := .none) h
        (.treatment (readable := BuilderSample.readable) (reference := none) (r := 0) rfl (List.length_pos_iff.mpr h))).2.2.1
    · simp only [typeOf] at hty
      cases hd : dictGet types.1 f with
      | some n => simp [hd] at hty
      | none =>
        have h2 : dictGet types.2 f = none := by rw [ht]; simp [dictGet, ha]
        simp [hd, h2] at hty
  · rw [hh]
    exact fun _ _ _ _ h => minusPiece_injective h

theorem rowCount : RowCount setting'.na types (fun f => look' f rows)
    (allFactors [FitSample.one.lhs, FitSample.one.rhs]) none 6 := by
  refine ⟨?_, fun h => absurd h (by decide)⟩
  intro f hf r
  have : allFactors [FitSample.one.lhs, FitSample.one.rhs] = ["a", "x"] := by decide
  rw [this] at hf
  simp only [List.mem_cons, List.not_mem_nil, or_false] at hf
  rcases hf with rfl | rfl
  · have : factorCell setting'.na types (fun f => look' f rows) r "a" = [0, 0, 1, 1, 2, 2][r]?.map .code := rfl
    rw [this]
    simp
  · have : factorCell setting'.na types (fun f => look' f rows) r "x" = [[1], [2], [4], [3], [1], [7]][r]?.map .num := rfl
    rw [this]
    simp

theorem rowCountC : RowCount settingC.na typesC (fun f => lookC f renamed)
    (allFactors [centred.lhs, centred.rhs]) none 6 := by
  refine ⟨?_, fun h => absurd h (by decide)⟩
  intro f hf r
  have : allFactors [centred.lhs, centred.rhs] = ["a", "center(x)"] := by decide
  rw [this] at hf
  simp only [List.mem_cons, List.not_mem_nil, or_false] at hf
  rcases hf with rfl | rfl
  · have : factorCell settingC.na typesC (fun f => lookC f renamed) r "a" = [2, 2, 1, 1, 0, 0][r]?.map .code := rfl
    rw [this]
    simp
  · have : factorCell settingC.na typesC (fun f => lookC f renamed) r "center(x)" =
      [[1 - 3], [2 - 3], [4 - 3], [3 - 3], [1 - 3], [7 - 3]][r]?.map .num := rfl
    rw [this]
    simp

def row (i : Fin 6) : String → Option (Cell ℚ) := factorCell setting'.na types (fun f => look' f rows) i

def rowC (i : Fin 6) : String → Option (Cell ℚ) := factorCell settingC.na typesC (fun f => lookC f renamed) i

theorem kept : modelRows setting' FitSample.isnan rows FitSample.one look' types 6 = List.ofFn row := rfl

theorem keptC : modelRows settingC FitSample.isnan renamed centred lookC typesC 6 = List.ofFn rowC := by
  have : ((List.range 6).filter fun r => (allFactors [centred.lhs, centred.rhs]).all fun f =>
      (factorCell settingC.na typesC (fun f => lookC f renamed) r f).all fun c =>
        !cellMissing settingC.na FitSample.isnan c) = [0, 1, 2, 3, 4, 5] := by decide +kernel
  unfold modelRows keptCells
  rw [this]
  rfl

def old (f : String) : String := if f = "center(x)" then "x" else f

def new (f : String) : String := if f = "x" then "center(x)" else f

theorem expressed_of {n : Nat} {row rowC : Fin n → String → Option (Cell ℚ)}
    (hl : ∀ i i', levelAt (row i) "a" = levelAt (row i') "a" → levelAt (rowC i) "a" = levelAt (rowC i') "a")
    (hc : ∀ i, numberAt (rowC i) "center(x)" 0 = numberAt (row i) "x" 0 - 3) :
    Expressed types.1 FitSample.one.rhs row typesC.1 centred.rhs rowC old where
  terms := by
    intro t' ht'
    simp only [centred, List.mem_cons, List.not_mem_nil, or_false] at ht'
    rcases ht' with rfl | rfl | rfl
    · exact ⟨⟨[]⟩, by decide, by simp⟩
    · exact ⟨⟨["a"]⟩, by decide, by simp [old, eq_comm]⟩
    · exact ⟨⟨["a", "x"]⟩, by decide, by simp [old, eq_comm]⟩
  distinct := by decide
  kinds := by decide
  levels := by
    intro t' ht' f hf hn
    have hfa : f = "a" := by
      revert f
      revert t'
      unfold centred typesC
      decide
    subst hfa
    exact hl
  columns := by
    intro t' ht' f hf m m' hm hm' j hj
    have hfx : f = "center(x)" ∧ m = 1 ∧ m' = 1 := by
      simp only [typesC, dictGet, List.find?_cons, List.find?_nil] at hm'
      by_cases h : "center(x)" = f
      · subst h
        simp at hm'
        simp [old, types, dictGet] at hm
        exact ⟨rfl, hm.symm, hm'.symm⟩
      · simp [h] at hm'
    obtain ⟨rfl, rfl, rfl⟩ := hfx
    obtain rfl : j = 0 := by omega
    refine ⟨-3, fun _ => 1, fun _ => ?_, fun i => by rw [hc i]; simp [old]; ring⟩
    unfold Droppable Marginal
    decide

theorem expressedC_of {n : Nat} {row rowC : Fin n → String → Option (Cell ℚ)}
    (hl : ∀ i i', levelAt (rowC i) "a" = levelAt (rowC i') "a" → levelAt (row i) "a" = levelAt (row i') "a")
    (hc : ∀ i, numberAt (rowC i) "center(x)" 0 = numberAt (row i) "x" 0 - 3) :
    Expressed typesC.1 centred.rhs rowC types.1 FitSample.one.rhs row new where
  terms := by
    intro t' ht'
    simp only [FitSample.one, List.mem_cons, List.not_mem_nil, or_false] at ht'
    rcases ht' with rfl | rfl | rfl
    · exact ⟨⟨[]⟩, by decide, by simp⟩
    · exact ⟨⟨["a"]⟩, by decide, by simp [new, eq_comm]⟩
    · exact ⟨⟨["a", "center(x)"]⟩, by decide, by simp [new, eq_comm]⟩
  distinct := by decide
  kinds := by decide
  levels := by
    intro t' ht' f hf hn
    have hfa : f = "a" := by
      revert f
      revert t'
      unfold FitSample.one types
      decide
    subst hfa
    exact hl
  columns := by
    intro t' ht' f hf m m' hm hm' j hj
    have hfx : f = "x" ∧ m = 1 ∧ m' = 1 := by
      simp only [types, dictGet, List.find?_cons, List.find?_nil] at hm'
      by_cases h : "x" = f
      · subst h
        simp at hm'
        simp [new, typesC, dictGet] at hm
        exact ⟨rfl, hm.symm, hm'.symm⟩
      · simp [h] at hm'
    obtain ⟨rfl, rfl, rfl⟩ := hfx
    obtain rfl : j = 0 := by omega
    refine ⟨3, fun _ => 1, fun _ => ?_, fun i => by simp [new, hc i]⟩
    unfold Droppable Marginal
    decide

theorem expressed : Expressed types.1 FitSample.one.rhs row typesC.1 centred.rhs rowC old :=
  expressed_of (by decide +kernel) (by decide +kernel)

theorem expressedC : Expressed typesC.1 centred.rhs rowC types.1 FitSample.one.rhs row new :=
  expressedC_of (by decide +kernel) (by decide +kernel)

theorem recoded : ∀ eval ty n eval' ty' n', Fits setting' none rows FitSample.one eval ty n →
    Fits settingC none renamed centred eval' ty' n' → WellCoded setting' ty FitSample.one.rhs ∧
    WellCoded settingC ty' centred.rhs ∧
    Recoded ty.1 FitSample.one.rhs (modelRows setting' FitSample.isnan rows FitSample.one eval ty n)
      ty'.1 centred.rhs (modelRows settingC FitSample.isnan renamed centred eval' ty' n') := by
  rintro eval ty n eval' ty' n' ⟨⟨h1, h2⟩, h3⟩ ⟨⟨h1', h2'⟩, h3'⟩
  cases h1
  cases h1'
  obtain rfl : ty = types := Except.ok.inj (h2.symm.trans learned.2)
  obtain rfl : ty' = typesC := Except.ok.inj (h2'.symm.trans learnedC.2)
  obtain rfl := rowCount_unique (fun _ => Iff.rfl) (fun _ => rfl) rowCount h3
  obtain rfl := rowCount_unique (fun _ => Iff.rfl) (fun _ => rfl) rowCountC h3'
  exact ⟨good (by simp) rfl rfl (by decide) rfl _, good (by simp) rfl rfl (by decide) rfl _,
    6, row, rowC, new, old, kept, keptC, expressed, expressedC⟩

end RecodeSample

open RecodeSample HighSample in
/-- Example for `recoded_same_fit`: `1 + a + a:x`, and `1 + a + a:center(x)` on data with other names of the levels.  The
matrices differ, the fitted values do not. -/
example : ∃ t t', RecodeSample.result = .ok t ∧ resultC = .ok t' ∧
    t.2.mat.cols = [[1, 1, 1, 1, 1, 1], [0, 0, 1, 1, 0, 0], [0, 0, 0, 0, 1, 1], [1, 2, 0, 0, 0, 0], [0, 0, 4, 3, 0, 0],
      [0, 0, 0, 0, 1, 7]] ∧
    t'.2.mat.cols = [[1, 1, 1, 1, 1, 1], [0, 0, 1, 1, 0, 0], [1, 1, 0, 0, 0, 0], [0, 0, 0, 0, -2, 4], [0, 0, 1, 0, 0, 0],
      [-2, -1, 0, 0, 0, 0]] ∧
    ∀ y v v' : Fin t.2.mat.nrows → ℚ,
      Fitted t.2.mat.nrows t.2.mat.cols y v → Fitted t.2.mat.nrows t'.2.mat.cols y v' → v = v' := by
  refine ⟨_, _, getOk_eq result_ok, getOk_eq resultC_ok, by decide +kernel, by decide +kernel, ?_⟩
  have hs : ∀ (d : BuilderSample.Data) (m : ModelDesc String), (∀ t ∈ m.lhs ++ m.rhs, t.factors.Nodup) →
      Sound d (.desc m : FormulaLike String BuilderSample.Data ℚ) := by
    rintro d m h m' ⟨⟩
    exact h
  exact (recoded_same_fit world worldC FitSample.codesFit codesFitC (hs _ _ (by decide)) (hs _ _ (by decide)) rfl rfl
    (getOk_eq result_ok) (getOk_eq resultC_ok) recoded).2

open RecodeSample in
/-- **C72**.  The condition on constants is needed: without an intercept, `center(x)` is another model than `x`. -/
theorem centring_without_intercept : ∃ t t', alone "x" = .ok t ∧ alone "center(x)" = .ok t' ∧
    t.2.mat.nrows = 6 ∧ t'.2.mat.nrows = 6 ∧
    ¬ Submodule.span ℚ (Set.range (columnVectors 6 t'.2.mat.cols)) ≤
      Submodule.span ℚ (Set.range (columnVectors 6 t.2.mat.cols)) := by
  refine ⟨_, _, getOk_eq alone_ok.1, getOk_eq alone_ok.2, by decide +kernel, by decide +kernel, ?_⟩
  have h1 : (getOk (alone "x") alone_ok.1).2.mat.cols = [[1, 2, 4, 3, 1, 7]] := by decide +kernel
  have h2 : (getOk (alone "center(x)") alone_ok.2).2.mat.cols = [[-2, -1, 1, 0, -2, 4]] := by decide +kernel
  rw [h1, h2]
  intro h
  have hm := h (Submodule.subset_span ⟨0, rfl⟩)
  obtain ⟨b, hb⟩ := mem_columnSpace.mp hm
  have e1 : (-2 : ℚ) = b 0 * 1 := by simpa [columnVectors] using congrFun hb 0
  have e2 : (0 : ℚ) = b 0 * 3 := by simpa [columnVectors] using congrFun hb 3
  linarith

end Patsy.Props
