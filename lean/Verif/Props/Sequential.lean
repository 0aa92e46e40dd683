import Verif.Lemmas.Extend
import Verif.Lemmas.Fit
import Verif.Lemmas.OwnTerms
import Verif.Props.ModelSpace
import Mathlib.LinearAlgebra.Dimension.Constructions

/-!
# Property C78: the columns of a term are what it adds to the terms on its left
-/

set_option linter.unusedSectionVars false

namespace Patsy.Props

open Patsy.Build Patsy.Spec Patsy.Desc Patsy.Redundancy Patsy.Rank

variable {F D K : Type} [DecidableEq F] [Field K] {H : Type} [DecidableEq H] {hash : Subterm F → H}
  {nums : List (F × Nat)} {n : F → Nat} {coder : F → Bool → Except Err (ContrastMatrix K)}
  {fis : List (F × FactorInfo F D K)} {ts : List (Term F)} {d : DesignInfo F D K}
  {rows : List (F → Option (Cell K))} {cols : List (List K)}

/-- In the order of the design, a term has at least as many factors as the terms of its group on its left. -/
theorem sorted_degrees {infos : List (Term F × List (SubtermInfo F K))}
    (h : makeSubtermInfos hash nums coder ts = .ok infos) :
    (infos.map Prod.fst).Pairwise fun s t => bucketOf nums s = bucketOf nums t → s.factors.length ≤ t.factors.length := by
  obtain ⟨_, _, _, _, h4⟩ := makeSubtermInfos_spec h
  obtain ⟨_, o2, o3⟩ := order_spec nums ts
  rw [h4]
  generalize moveEmptyFirst (buckets nums ts).1 (buckets nums ts).2 = order at o2 o3
  have hmem : ∀ b ∈ order, ∀ t ∈ sortByDegree ((dictGet (buckets nums ts).2 b).getD []), bucketOf nums t = b := by
    intro b hb t ht
    unfold sortByDegree at ht
    rw [(List.perm_insertionSort _ _).mem_iff, o3 b hb, List.mem_filter, decide_eq_true_eq] at ht
    exact ht.2
  clear h4 o3
  induction order with
  | nil => exact .nil
  | cons b order ih =>
    rw [List.pairwise_cons] at o2
    rw [List.flatMap_cons, List.pairwise_append]
    refine ⟨?_, ih o2.2 fun b hb => hmem b (List.mem_cons_of_mem _ hb), ?_⟩
    · refine List.Pairwise.imp ?_ (show (sortByDegree ((dictGet (buckets nums ts).2 b).getD [])).Pairwise
        (fun s t => s.factors.length ≤ t.factors.length) from ?_)
      · intro s t h _; exact h
      · unfold sortByDegree
        have : Std.Total (fun s t : Term F => s.factors.length ≤ t.factors.length) := ⟨fun s t => Nat.le_total _ _⟩
        have : IsTrans (Term F) (fun s t : Term F => s.factors.length ≤ t.factors.length) := ⟨fun s t u => Nat.le_trans⟩
        exact List.pairwise_insertionSort _ _
    · intro s hs t ht e
      obtain ⟨b', hb', ht⟩ := List.mem_flatMap.mp ht
      rw [hmem b (by simp) s hs, hmem b' (List.mem_cons_of_mem _ hb') t ht] at e
      subst e
      exact absurd (o2.1 b hb') (Nat.lt_irrefl _)

/-- The first terms of a design get the codings that they would get alone. -/
theorem makeSubtermInfos_take (hnd : ∀ t ∈ ts, t.factors.Nodup) {infos : List (Term F × List (SubtermInfo F K))}
    (h : makeSubtermInfos hash nums coder ts = .ok infos) (k : Nat) :
    makeSubtermInfos hash nums coder ((infos.take k).map Prod.fst) = .ok (infos.take k) := by
  have hperm := Patsy.Names.inOrder_perm (term_order hnd h)
  have hs := sorted_degrees h
  obtain ⟨_, _, _, hpw, _⟩ := makeSubtermInfos_spec h
  have h1 := makeSubtermInfos_again h
  have hsplit : infos.map Prod.fst = (infos.take k).map Prod.fst ++ (infos.drop k).map Prod.fst := by
    rw [← List.map_append, List.take_append_drop]
  rw [hsplit] at h1 hs
  have h2 := makeSubtermInfos_append (by
      intro t ht
      rw [← hsplit] at ht
      exact hnd t (hperm.mem_iff.mp ht)) (by
      intro u hu t ht hg
      exact (List.pairwise_append.mp hs).2.2 t ht u hu (sameGroup_iff.mp hg)) h1
  rw [h2]
  congr 1
  have hpw' := hpw
  rw [← List.take_append_drop k infos, List.pairwise_append] at hpw'
  have hf : ∀ f : Term F × List (SubtermInfo F K) → Bool, infos.filter f = (infos.take k).filter f ++ (infos.drop k).filter f := by
    intro f
    rw [← List.filter_append, List.take_append_drop]
  rw [hf, List.filter_eq_self.mpr, List.filter_eq_nil_iff.mpr, List.append_nil]
  · intro p hp hany
    rw [List.any_eq_true] at hany
    obtain ⟨s, hs, e⟩ := hany
    obtain ⟨q, hq, rfl⟩ := List.mem_map.mp hs
    have := hpw'.2.2 q hq p hp
    rw [Bool.eq_false_iff] at this
    apply this
    rw [Term.eqv_iff] at e ⊢
    exact fun f => (e f).symm
  · intro p hp
    rw [List.any_eq_true]
    exact ⟨p.1, List.mem_map_of_mem hp, by rw [Term.eqv_iff]; simp⟩

theorem columnsOf_take (c : Coding F D K) (k : Nat) :
    columnsOf (⟨c.factorInfos, c.termCodings.take k⟩ : Coding F D K) = (columnsOf c).take (before c k) := by
  rw [columnsOf_blocks, columnsOf_blocks]
  conv_rhs => rw [← List.take_append_drop k c.termCodings]
  rw [List.flatMap_append, List.take_left']
  rw [List.length_flatMap]
  unfold before
  congr 1
  apply List.map_congr_left
  intro p _
  rw [termBlock_length]
  rfl

/-- The first terms of a design, with their columns. -/
theorem prefix_parts (h : MadeMatrix hash nums n coder fis ts d rows cols) {c : Coding F D K} (hc : d.coding = some c)
    (k : Nat) :
    (∀ t ∈ (c.termCodings.take k).map Prod.fst, t ∈ ts) ∧
    MadeCoding hash nums coder fis ((c.termCodings.take k).map Prod.fst) (⟨c.factorInfos, c.termCodings.take k⟩ : Coding F D K) ∧
    IsMatrix (⟨c.factorInfos, c.termCodings.take k⟩ : Coding F D K) rows (cols.take (before c k)) := by
  obtain ⟨name, hmade⟩ := h.made
  obtain ⟨c', hc', hm⟩ := h.matrix
  obtain rfl : c = c' := Option.some.inj (hc.symm.trans hc')
  have hcod := madeCoding hmade hc
  refine ⟨?_, ⟨makeSubtermInfos_take h.nodup hcod.infos k, fun p hp => hcod.checked p (List.mem_of_mem_take hp), hcod.own⟩, ?_⟩
  · intro t ht
    obtain ⟨p, hp, rfl⟩ := List.mem_map.mp ht
    exact (Patsy.Names.inOrder_perm (term_order h.nodup hcod.infos)).mem_iff.mp
      (List.mem_map_of_mem (List.mem_of_mem_take hp))
  · unfold IsMatrix
    rw [columnsOf_take]
    exact List.forall₂_take _ hm

/-- **C78**, the terms up to a place.  The columns of the first `k` terms of a design span exactly the functions that these
terms describe. -/
theorem leading_columns_span (h : MadeMatrix hash nums n coder fis ts d rows cols) {c : Coding F D K} (hc : d.coding = some c)
    (k : Nat) :
    Submodule.span K (Set.range (columnVectors rows.length (cols.take (before c k)))) =
      Submodule.span K (⋃ t ∈ (c.termCodings.take k).map Prod.fst, termFunctions nums rows t) := by
  obtain ⟨hsub, hcod, hmat⟩ := prefix_parts h hc k
  refine coding_span (fun t ht => h.nodup t (hsub t ht)) ?_ (fun t ht => h.fit t (hsub t ht))
    (fun t ht => h.coded t (hsub t ht)) hcod hmat (fun cells hcells t ht => h.levels cells hcells t (hsub t ht))
  intro S T hS hT e
  refine h.separates S T ?_ ?_ e
  · obtain ⟨t, ht, h1⟩ := hS
    obtain ⟨u, hu, rfl⟩ := List.mem_map.mp ht
    exact ⟨_, List.mem_map_of_mem (hsub u hu), h1⟩
  · obtain ⟨t, ht, h1⟩ := hT
    obtain ⟨u, hu, rfl⟩ := List.mem_map.mp ht
    exact ⟨_, List.mem_map_of_mem (hsub u hu), h1⟩

/-- **C78**.  The columns of a term represent the additional flexibility that the model gains by adding the term on top of
the terms to its left: with the columns of the term, what the columns to its left span grows by exactly the functions that
the term describes. -/
theorem additional_flexibility (h : MadeMatrix hash nums n coder fis ts d rows cols) {c : Coding F D K}
    (hc : d.coding = some c) {k : Nat} {p : Term F × List (SubtermInfo F K)} (hp : c.termCodings[k]? = some p) :
    Submodule.span K (Set.range (columnVectors rows.length (cols.take (before c k + width p)))) =
      Submodule.span K (Set.range (columnVectors rows.length (cols.take (before c k)))) ⊔
        Submodule.span K (termFunctions nums rows p.1) := by
  have hk : c.termCodings.take (k + 1) = c.termCodings.take k ++ [p] := by
    rw [List.take_add_one, hp]; rfl
  have hb : before c (k + 1) = before c k + width p := by
    unfold before
    rw [hk, List.map_append, List.sum_append]
    simp
  rw [← hb, leading_columns_span h hc, leading_columns_span h hc, ← Submodule.span_union, hk]
  congr 1
  ext v
  simp only [List.map_append, List.mem_append, Set.mem_iUnion, Set.mem_union, List.map_cons, List.map_nil, List.mem_singleton]
  constructor
  · rintro ⟨t, ht | rfl, hv⟩
    · exact .inl ⟨t, ht, hv⟩
    · exact .inr hv
  · rintro (⟨t, ht, hv⟩ | hv)
    · exact ⟨t, .inl ht, hv⟩
    · exact ⟨_, .inr rfl, hv⟩

/-- **C78**, number of columns.  On data that are rich enough, a term has exactly as many columns as the dimension of the
model grows by when the term is added to the terms to its left. -/
theorem gained_dimension (h : MadeMatrix hash nums n coder fis ts d rows cols) (hrich : Rich nums ts n rows)
    {c : Coding F D K} (hc : d.coding = some c) {k : Nat} {p : Term F × List (SubtermInfo F K)}
    (hp : c.termCodings[k]? = some p) :
    Module.finrank K (Submodule.span K (⋃ t ∈ (c.termCodings.take (k + 1)).map Prod.fst, termFunctions nums rows t)) =
      Module.finrank K (Submodule.span K (⋃ t ∈ (c.termCodings.take k).map Prod.fst, termFunctions nums rows t)) + width p := by
  obtain ⟨name, hmade⟩ := h.made
  obtain ⟨c', hc', hm⟩ := h.matrix
  obtain rfl : c = c' := Option.some.inj (hc.symm.trans hc')
  have hind := columns_independent h.nodup h.separates h.fit h.coded hmade hc hm hrich
  have hk : c.termCodings.take (k + 1) = c.termCodings.take k ++ [p] := by
    rw [List.take_add_one, hp]; rfl
  have hb : before c (k + 1) = before c k + width p := by
    unfold before
    rw [hk, List.map_append, List.sum_append]
    simp
  have hle : before c (k + 1) ≤ cols.length := by
    have h1 := List.Forall₂.length_eq hm
    have h2 := columnsOf_take c (k + 1)
    rw [← h1]
    have h3 : before c (k + 1) = (columnsOf (⟨c.factorInfos, c.termCodings.take (k + 1)⟩ : Coding F D K)).length := by
      rw [columnsOf_blocks, List.length_flatMap]
      unfold before
      congr 1
      apply List.map_congr_left
      intro q _
      rw [termBlock_length]
      rfl
    rw [h2, List.length_take] at h3
    omega
  have hrank : ∀ m, m ≤ cols.length →
      Module.finrank K (Submodule.span K (Set.range (columnVectors rows.length (cols.take m)))) = m := by
    intro m hm
    have hl : (cols.take m).length = m := by rw [List.length_take]; omega
    have : LinearIndependent K (columnVectors rows.length (cols.take m)) := by
      have h1 := hind.comp (fun i : Fin (cols.take m).length => (⟨i, by omega⟩ : Fin cols.length))
        (by intro i j e; exact Fin.ext (by simpa using e))
      have : columnVectors rows.length cols ∘ (fun i : Fin (cols.take m).length => (⟨i, by omega⟩ : Fin cols.length)) =
          columnVectors rows.length (cols.take m) := by
        funext i r
        simp [columnVectors]
      rwa [this] at h1
    rw [finrank_span_eq_card this, Fintype.card_fin, hl]
  rw [← leading_columns_span h hc, ← leading_columns_span h hc, hrank _ hle, hrank _ (by omega), hb]

/-- **C78**, for the matrices that `build_design_matrices` returns for designs that were made together (with the usual
codings of the categorical factors). -/
theorem built_flexibility {P : Setting F D K H} (hw : World P) (hcodes : CodesFit P) {chunks : List D}
    {tls : List (List (Term F))} (hnd : ∀ tl ∈ tls, ∀ t ∈ tl, t.factors.Nodup) {dis : List (DesignInfo F D K)}
    (hb : designMatrixBuilders P chunks tls = .ok dis) {isnan : K → Bool} {na : NAAction} {frame : Bool}
    {dataIndex : Option (List Build.Label)} {data : D} {b : Built K} (hne : tls ≠ [])
    (hbuild : buildDesignMatrices isnan na frame dataIndex dis data = .ok b) :
    ∃ eval types m, P.memorize (P.visit (allFactors tls)) = .ok eval ∧
      examineTypes P.na P.order P.visit (fun f d => do pure (← eval f d).value) chunks
        (P.visit (allFactors tls)) = .ok types ∧
      RowCount na types (fun f => eval f data) (allFactors tls) dataIndex m ∧
      List.Forall₂ (fun p mat => GoodCodings P.default types p.1 →
        Separates P.hash (fun f => (dictGet types.1 f).isSome) (p.1.map (·.factors)) →
        ∃ c, p.2.coding = some c ∧ ∀ (k : Nat) q, c.termCodings[k]? = some q →
          let rows := keptCells na isnan types (fun f => eval f data) (allFactors tls) m
          Submodule.span K (Set.range (columnVectors rows.length (mat.cols.take (before c k + width q)))) =
            Submodule.span K (Set.range (columnVectors rows.length (mat.cols.take (before c k)))) ⊔
              Submodule.span K (termFunctions types.1 rows q.1)) (tls.zip dis) b.mats := by
  obtain ⟨eval, types, infos, he, ht, hall⟩ := designs_made hw hcodes hnd hb
  have hlen : tls.length = dis.length := by
    obtain ⟨_, _, _, _, _, _, hd⟩ := builders_ok hw.visits hb
    exact hd.length_eq
  have e1 : (tls.zip dis).map Prod.snd = dis := List.map_snd_zip (by omega)
  have e2 : (tls.zip dis).map Prod.fst = tls := List.map_fst_zip (by omega)
  obtain ⟨m, h1, h2⟩ := hall isnan na frame dataIndex data (tls.zip dis) (by
      intro h
      rw [h] at e2
      exact hne e2.symm) (fun p hp => hp) b (by rw [e1]; exact hbuild)
  rw [e2] at h1 h2
  refine ⟨eval, types, m, he, ht, h1, h2.imp ?_⟩
  rintro p mat ⟨_, h3⟩ hg hs
  have hm := h3 hg hs
  obtain ⟨c, hc, _⟩ := hm.matrix
  exact ⟨c, hc, fun k q hq => additional_flexibility hm hc hq⟩

/-! ### Examples -/

namespace RankSample

theorem mixed_made {c : Coding String Unit ℚ} (hc : (getOk mixedDesign mixedDesign_ok).coding = some c) :
    MadeMatrix (fun s => s) [("x", 1)] count RankSample.coder RankSample.infos mixed (getOk mixedDesign mixedDesign_ok)
      mixedRows mixedColumns :=
  ⟨⟨_, getOk_eq mixedDesign_ok⟩, by decide, fun _ _ _ _ h => minusPiece_injective h, numsFit,
    coded [("x", 1)] mixed (by decide), ⟨c, hc, columns_isMatrix hc (by decide +kernel)⟩, by unfold Combination; decide⟩

end RankSample

open RankSample in
/-- Example: in `1 + a + x`, the two columns of `1` and `a` span the functions of the level of `a`; the column of `x` adds
one dimension and makes them all that `1`, `a` and `x` describe. -/
example : ∃ c p, (getOk mixedDesign mixedDesign_ok).coding = some c ∧ c.termCodings[2]? = some p ∧ p.1 = ⟨["x"]⟩ ∧
    before c 2 = 2 ∧ width p = 1 ∧
    Submodule.span ℚ (Set.range (columnVectors mixedRows.length mixedColumns)) =
      Submodule.span ℚ (Set.range (columnVectors mixedRows.length (mixedColumns.take 2))) ⊔
        Submodule.span ℚ (termFunctions [("x", 1)] mixedRows ⟨["x"]⟩) ∧
    Module.finrank ℚ (Submodule.span ℚ (⋃ t ∈ (c.termCodings.take 3).map Prod.fst, termFunctions [("x", 1)] mixedRows t)) =
      Module.finrank ℚ (Submodule.span ℚ (⋃ t ∈ (c.termCodings.take 2).map Prod.fst, termFunctions [("x", 1)] mixedRows t)) + 1 := by
  have h : ((getOk mixedDesign mixedDesign_ok).coding.bind fun c => c.termCodings[2]?.bind fun p =>
      if p.1.factors = ["x"] ∧ before c 2 = 2 ∧ width p = 1 then some () else none) = some () := by decide +kernel
  rw [Option.bind_eq_some_iff] at h
  obtain ⟨c, hc, h⟩ := h
  rw [Option.bind_eq_some_iff] at h
  obtain ⟨p, hp, h⟩ := h
  split at h
  · rename_i hpb
    obtain ⟨h1, h2, h3⟩ := hpb
    have hp1 : p.1 = ⟨["x"]⟩ := by
      obtain ⟨⟨fs⟩, sts⟩ := p
      simp only at h1
      rw [h1]
    have a1 := additional_flexibility (mixed_made hc) hc hp
    have a2 := gained_dimension (mixed_made hc) rich hc hp
    rw [hp1, h2, h3] at a1
    rw [h3] at a2
    exact ⟨c, p, hc, hp, hp1, h2, h3, a1, a2⟩
  · cases h

end Patsy.Props
