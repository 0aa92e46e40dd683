import Verif.Props.CellMeans
import Verif.Spec.Crossed

/-!
# Property C83: the coefficients of `y ~ a * b` with two categorical factors
-/

set_option linter.unusedSectionVars false

namespace Patsy.Props

open Patsy.Build Patsy.Desc Patsy.Cat Patsy.Spec Patsy.Contrast Patsy.Redundancy Patsy.Rank

variable {F D K H : Type} [DecidableEq F] [Field K] [LinearOrder K] [IsStrictOrderedRing K] [DecidableEq H]

theorem subsets_two (a b : F) : (subsetsSorted [a, b]).map mkSubterm = [∅, {⟨false, a⟩}, {⟨false, b⟩}, {⟨false, a⟩, ⟨false, b⟩}] := by
  simp [subsetsSorted, subsetsSortedN, sortStrip, mkSubterm, enumFrom, tupleLe, List.mergeSort, List.merge, List.MergeSort.Internal.splitInTwo]

theorem pick_second {hash : Subterm F → H} {isNum : F → Bool} {a b : F} (hb : isNum b = false)
    (h1 : hash {⟨false, b⟩} ≠ hash ∅) (h2 : hash {⟨false, b⟩} ≠ hash {⟨false, a⟩}) :
    pickContrasts hash isNum [b] [hash ∅, hash {⟨false, a⟩}] =
      .ok ([{⟨false, b⟩}], [hash ∅, hash {⟨false, a⟩}, hash {⟨false, b⟩}]) := by
  have h : [b].filter (fun f => !isNum f) = [b] := by simp [hb]
  simp only [pickContrasts, h, subsets_one]
  simp [h1, h2, simplify_one]

theorem pick_crossed {hash : Subterm F → H} {isNum : F → Bool} {a b : F} (ha : isNum a = false) (hb : isNum b = false)
    (h1 : hash {⟨false, a⟩, ⟨false, b⟩} ≠ hash ∅) (h2 : hash {⟨false, a⟩, ⟨false, b⟩} ≠ hash {⟨false, a⟩})
    (h3 : hash {⟨false, a⟩, ⟨false, b⟩} ≠ hash {⟨false, b⟩}) :
    ∃ used, pickContrasts hash isNum [a, b] [hash ∅, hash {⟨false, a⟩}, hash {⟨false, b⟩}] =
      .ok ([{⟨false, a⟩, ⟨false, b⟩}], used) := by
  have h : [a, b].filter (fun f => !isNum f) = [a, b] := by simp [ha, hb]
  simp only [pickContrasts, h, subsets_two]
  simp [h1, h2, h3, simplify_one]

theorem infos_crossed {hash : Subterm F → H} {nums : List (F × Nat)} {coder : F → Bool → Except Err (ContrastMatrix K)}
    {a b : F} (hab : a ≠ b) (ha : dictGet nums a = none) (hb : dictGet nums b = none)
    (hsep : ∀ S T : Finset F, S ⊆ {a, b} → T ⊆ {a, b} → hash (minusPiece S) = hash (minusPiece T) → S = T)
    {ca cb : ContrastMatrix K} (hca : coder a false = .ok ca) (hcb : coder b false = .ok cb) :
    makeSubtermInfos hash nums coder [⟨[]⟩, ⟨[a]⟩, ⟨[b]⟩, ⟨[a, b]⟩] =
      .ok [(⟨[]⟩, [⟨[], [], 1⟩]), (⟨[a]⟩, [⟨[a], [(a, ca)], ca.ncols⟩]), (⟨[b]⟩, [⟨[b], [(b, cb)], cb.ncols⟩]),
        (⟨[a, b]⟩, [⟨[a, b], [(a, ca), (b, cb)], ca.ncols * cb.ncols⟩])] := by
  have e0 : minusPiece (∅ : Finset F) = ∅ := by simp [minusPiece]
  have ea : minusPiece ({a} : Finset F) = {⟨false, a⟩} := by simp [minusPiece]
  have eb : minusPiece ({b} : Finset F) = {⟨false, b⟩} := by simp [minusPiece]
  have eab : minusPiece ({a, b} : Finset F) = {⟨false, a⟩, ⟨false, b⟩} := by simp [minusPiece]
  have sub0 : (∅ : Finset F) ⊆ {a, b} := by simp
  have suba : ({a} : Finset F) ⊆ {a, b} := by simp
  have subb : ({b} : Finset F) ⊆ {a, b} := by simp
  have suba0 : hash {⟨false, a⟩} ≠ hash ∅ := fun h => by simpa using hsep {a} ∅ suba sub0 (by rw [ea, e0, h])
  have subb0 : hash {⟨false, b⟩} ≠ hash ∅ := fun h => by simpa using hsep {b} ∅ subb sub0 (by rw [eb, e0, h])
  have subba : hash {⟨false, b⟩} ≠ hash {⟨false, a⟩} := fun h => hab (by simpa [eq_comm] using hsep {b} {a} subb suba (by rw [eb, ea, h]))
  have subab0 : hash {⟨false, a⟩, ⟨false, b⟩} ≠ hash ∅ := fun h => by
    have := hsep {a, b} ∅ (Finset.Subset.refl _) sub0 (by rw [eab, e0, h])
    simp at this
  have subaba : hash {⟨false, a⟩, ⟨false, b⟩} ≠ hash {⟨false, a⟩} := fun h => by
    have := hsep {a, b} {a} (Finset.Subset.refl _) suba (by rw [eab, ea, h])
    have hb : b ∈ ({a} : Finset F) := this ▸ (by simp)
    exact hab (by simpa [eq_comm] using hb)
  have subabb : hash {⟨false, a⟩, ⟨false, b⟩} ≠ hash {⟨false, b⟩} := fun h => by
    have := hsep {a, b} {b} (Finset.Subset.refl _) subb (by rw [eab, eb, h])
    have hb : a ∈ ({b} : Finset F) := this ▸ (by simp)
    exact hab (by simpa using hb)
  have hn : isNumeric nums a = false := by simp [isNumeric, ha]
  have hn' : isNumeric nums b = false := by simp [isNumeric, hb]
  have hbk : buckets nums [⟨[]⟩, ⟨[a]⟩, ⟨[b]⟩, ⟨[a, b]⟩] = ([∅], [(∅, [⟨[]⟩, ⟨[a]⟩, ⟨[b]⟩, ⟨[a, b]⟩])]) := by
    simp [buckets, bucketStep, bucketOf, hn, hn', dictGet, dictSet]
  have ho : moveEmptyFirst [(∅ : Finset F)] [(∅, [⟨[]⟩, ⟨[a]⟩, ⟨[b]⟩, ⟨[a, b]⟩])] = [∅] := by simp [moveEmptyFirst, dictGet]
  have hg : (dictGet [((∅ : Finset F), [(⟨[]⟩ : Term F), ⟨[a]⟩, ⟨[b]⟩, ⟨[a, b]⟩])] ∅).getD [] = [⟨[]⟩, ⟨[a]⟩, ⟨[b]⟩, ⟨[a, b]⟩] := by
    simp [dictGet]
  have hs : sortByDegree [(⟨[]⟩ : Term F), ⟨[a]⟩, ⟨[b]⟩, ⟨[a, b]⟩] = [⟨[]⟩, ⟨[a]⟩, ⟨[b]⟩, ⟨[a, b]⟩] := by simp [sortByDegree]
  have h1 : makeSubterm nums coder ⟨[]⟩ ∅ = .ok ⟨[], [], 1⟩ := by
    simp [makeSubterm, subtermLoop, SubtermInfo.make, bind, Except.bind]
  have h2 : makeSubterm nums coder ⟨[a]⟩ {⟨false, a⟩} = .ok ⟨[a], [(a, ca)], ca.ncols⟩ := by
    simp [makeSubterm, subtermLoop, SubtermInfo.make, bind, Except.bind, ha, codingLookup, hca]
  have h3 : makeSubterm nums coder ⟨[b]⟩ {⟨false, b⟩} = .ok ⟨[b], [(b, cb)], cb.ncols⟩ := by
    simp [makeSubterm, subtermLoop, SubtermInfo.make, bind, Except.bind, hb, codingLookup, hcb]
  have h4 : makeSubterm nums coder ⟨[a, b]⟩ {⟨false, a⟩, ⟨false, b⟩} =
      .ok ⟨[a, b], [(a, ca), (b, cb)], ca.ncols * cb.ncols⟩ := by
    simp [makeSubterm, subtermLoop, SubtermInfo.make, bind, Except.bind, ha, hb, codingLookup, hca, hcb]
  obtain ⟨used, h5⟩ := pick_crossed (hash := hash) hn hn' subab0 subaba subabb
  have hc : codeBucket hash nums coder [⟨[]⟩, ⟨[a]⟩, ⟨[b]⟩, ⟨[a, b]⟩] [] =
      .ok [(⟨[]⟩, [⟨[], [], 1⟩]), (⟨[a]⟩, [⟨[a], [(a, ca)], ca.ncols⟩]), (⟨[b]⟩, [⟨[b], [(b, cb)], cb.ncols⟩]),
        (⟨[a, b]⟩, [⟨[a, b], [(a, ca), (b, cb)], ca.ncols * cb.ncols⟩])] := by
    simp [codeBucket, pick_intercept, pick_reduced hn suba0, pick_second hn' subb0 subba, h5, h1, h2, h3, h4, bind, Except.bind,
      pure, Except.pure]
  simp only [makeSubtermInfos, hbk, ho, hg, hs, hc, List.mapM_cons, List.mapM_nil, List.flatMap_cons, List.flatMap_nil]
  simp [bind, Except.bind, pure, Except.pure, dictOf, dictSet, sameTerms, Term.eqv, hab, Ne.symm hab]

theorem sum_range_pairs (f : Nat → K) (p q : Nat) :
    ∑ i ∈ Finset.range (p * q), f i = ∑ k ∈ Finset.range q, ∑ j ∈ Finset.range p, f (j + p * k) := by
  induction q with
  | zero => simp
  | succ q ih =>
    rw [Nat.mul_succ, Finset.sum_range_add, ih, Finset.sum_range_succ]
    congr 1
    exact Finset.sum_congr rfl fun j _ => by rw [add_comm]

/-- A column of the interaction. -/
theorem crossed_column {fis : List (F × FactorInfo F D K)} {ts : List (Term F × List (SubtermInfo F K))} {a b : F} (hab : a ≠ b)
    {ca cb : ContrastMatrix K} (hc : checkSubterm fis ⟨[a, b], [(a, ca), (b, cb)], ca.ncols * cb.ncols⟩ = .ok ())
    {cells : F → Option (Cell K)} {j k : Nat} {y : K}
    (h : columnEntry ⟨fis, ts⟩ cells (⟨[a, b], [(a, ca), (b, cb)], ca.ncols * cb.ncols⟩, [j, k]) = some y) :
    y = entry ca.matrix (levelAt cells a) j * entry cb.matrix (levelAt cells b) k := by
  have hg := (checkSubterm_good hc).1
  have := prodFrom_value (fs := [a, b]) (J := fun f => if f = a then j else k) hg (by simp) (by
    simpa [hab, Ne.symm hab, columnEntry] using h)
  simpa [valueAt, dictGet, hab, Ne.symm hab] using this

/-- The matrix for an intercept, two categorical factors and their interaction: the constant, the columns of the two contrast
matrices and their products, the first factor varying fastest. -/
theorem matrix_crossed {hash : Subterm F → H} {nums : List (F × Nat)} {n : F → Nat}
    {coder : F → Bool → Except Err (ContrastMatrix K)} {fis : List (F × FactorInfo F D K)} {a b : F} {d : DesignInfo F D K}
    {rows : List (F → Option (Cell K))} {cols : List (List K)}
    (h : MadeMatrix hash nums n coder fis [⟨[]⟩, ⟨[a]⟩, ⟨[b]⟩, ⟨[a, b]⟩] d rows cols) (hab : a ≠ b) (ha : dictGet nums a = none)
    (hb : dictGet nums b = none) {ca cb : ContrastMatrix K} (hca : coder a false = .ok ca) (hcb : coder b false = .ok cb) :
    cols.length = 1 + ca.ncols + cb.ncols + ca.ncols * cb.ncols ∧ ∀ (c : Nat → K) i, weighted rows.length cols c i =
      c 0 + ∑ j ∈ Finset.range ca.ncols, entry ca.matrix (levelAt rows[i] a) j * c (1 + j) +
        ∑ k ∈ Finset.range cb.ncols, entry cb.matrix (levelAt rows[i] b) k * c (1 + ca.ncols + k) +
        ∑ k ∈ Finset.range cb.ncols, ∑ j ∈ Finset.range ca.ncols, entry ca.matrix (levelAt rows[i] a) j *
          entry cb.matrix (levelAt rows[i] b) k * c (1 + ca.ncols + cb.ncols + (j + ca.ncols * k)) := by
  obtain ⟨name, h1⟩ := h.made
  obtain ⟨c, h2, h3⟩ := h.matrix
  have hm := madeCoding h1 h2
  have hi := hm.infos
  have hsep : ∀ S T : Finset F, S ⊆ {a, b} → T ⊆ {a, b} → hash (minusPiece S) = hash (minusPiece T) → S = T := by
    intro S T hS hT
    refine h.separates S T ⟨[a, b], by simp, ?_⟩ ⟨[a, b], by simp, ?_⟩
    · intro f hf
      have := hS hf
      simp [catPart, ha, hb] at this ⊢
      exact this
    · intro f hf
      have := hT hf
      simp [catPart, ha, hb] at this ⊢
      exact this
  rw [infos_crossed hab ha hb hsep hca hcb] at hi
  obtain ⟨fis', infos⟩ := c
  cases hi
  have checka := hm.checked (⟨[a]⟩, [⟨[a], [(a, ca)], ca.ncols⟩]) (by simp) ⟨[a], [(a, ca)], ca.ncols⟩ (by simp)
  have checkb := hm.checked (⟨[b]⟩, [⟨[b], [(b, cb)], cb.ncols⟩]) (by simp) ⟨[b], [(b, cb)], cb.ncols⟩ (by simp)
  have checkab := hm.checked (⟨[a, b]⟩, [⟨[a, b], [(a, ca), (b, cb)], ca.ncols * cb.ncols⟩]) (by simp)
    ⟨[a, b], [(a, ca), (b, cb)], ca.ncols * cb.ncols⟩ (by simp)
  have hcols : columnsOf (⟨fis', [(⟨[]⟩, [⟨[], [], 1⟩]), (⟨[a]⟩, [⟨[a], [(a, ca)], ca.ncols⟩]), (⟨[b]⟩, [⟨[b], [(b, cb)], cb.ncols⟩]),
        (⟨[a, b]⟩, [⟨[a, b], [(a, ca), (b, cb)], ca.ncols * cb.ncols⟩])]⟩ : Coding F D K) =
      (((⟨[], [], 1⟩, []) :: (List.range ca.ncols).map fun j => (⟨[a], [(a, ca)], ca.ncols⟩, [j])) ++
        (List.range cb.ncols).map fun k => (⟨[b], [(b, cb)], cb.ncols⟩, [k])) ++
        (List.range (ca.ncols * cb.ncols)).map fun i =>
          (⟨[a, b], [(a, ca), (b, cb)], ca.ncols * cb.ncols⟩, [i % ca.ncols, i / ca.ncols]) := by
    simp only [columnsOf, List.flatMap_cons, List.flatMap_nil, List.append_nil, widths, List.map_nil, List.map_cons, digits,
      List.range_one, List.cons_append, List.nil_append, widthOf, dictGet, List.append_assoc, List.find?_cons, decide_true,
      Option.map_some, hab, decide_false]
    congr 2
    · refine List.map_congr_left fun j hj => ?_
      simp [Nat.mod_eq_of_lt (List.mem_range.mp hj)]
    congr 1
    · refine List.map_congr_left fun j hj => ?_
      simp [Nat.mod_eq_of_lt (List.mem_range.mp hj)]
    · refine List.map_congr_left fun j hj => ?_
      have : j / ca.ncols < cb.ncols := Nat.div_lt_of_lt_mul (List.mem_range.mp hj)
      simp [Nat.mod_eq_of_lt this]
  have hlen : cols.length = 1 + ca.ncols + cb.ncols + ca.ncols * cb.ncols := by
    have := h3.length_eq
    rw [hcols] at this
    simp at this
    omega
  refine ⟨hlen, fun c i => ?_⟩
  set ea := fun j => entry ca.matrix (levelAt rows[i] a) j with hea
  set eb := fun k => entry cb.matrix (levelAt rows[i] b) k with heb
  have v0 : ∀ hj, (cols[0]'hj)[i.1]?.getD 0 = 1 := by
    intro hj
    have := isMatrix_entry h3 (j := 0) hj (by rw [hcols]; rfl) i.2
    simpa [columnEntry, prodFrom] using this.symm
  have va : ∀ j, j < ca.ncols → ∀ hj, (cols[1 + j]'hj)[i.1]?.getD 0 = ea j := by
    intro j h hj
    have := isMatrix_entry h3 (j := 1 + j) hj (by
      rw [hcols, List.append_assoc, List.getElem?_append_left (by simp; omega), add_comm, List.getElem?_cons_succ, List.getElem?_map,
        List.getElem?_range h]; rfl) i.2
    simpa [hea] using factor_column checka this
  have vb : ∀ k, k < cb.ncols → ∀ hj, (cols[1 + ca.ncols + k]'hj)[i.1]?.getD 0 = eb k := by
    intro k h hj
    have := isMatrix_entry h3 (j := 1 + ca.ncols + k) hj (by
      rw [hcols, List.append_assoc, List.getElem?_append_right (by simp; omega), List.getElem?_append_left (by simp; omega),
        List.getElem?_map, List.getElem?_range (by simp; omega)]
      simp
      rfl) i.2
    have e : 1 + ca.ncols + k - (ca.ncols + 1) = k := by omega
    simpa [heb, e] using factor_column checkb this
  have vab : ∀ j k, j < ca.ncols → k < cb.ncols → ∀ hj, (cols[1 + ca.ncols + cb.ncols + (j + ca.ncols * k)]'hj)[i.1]?.getD 0 = ea j * eb k := by
    intro j k h h' hj
    have hlt : j + ca.ncols * k < ca.ncols * cb.ncols := by
      calc j + ca.ncols * k < ca.ncols + ca.ncols * k := by omega
        _ = ca.ncols * (k + 1) := by ring
        _ ≤ _ := Nat.mul_le_mul_left _ h'
    have := isMatrix_entry h3 (j := 1 + ca.ncols + cb.ncols + (j + ca.ncols * k)) hj (by
      rw [hcols, List.getElem?_append_right (by simp; omega),
        List.getElem?_map, List.getElem?_range (by simp; omega)]
      have e : 1 + ca.ncols + cb.ncols + (j + ca.ncols * k) - (ca.ncols + 1 + cb.ncols) = j + ca.ncols * k := by omega
      simp only [List.length_append, List.length_cons, List.length_map, List.length_range, e, Option.map_some, Nat.add_mul_mod_self_left,
        Nat.mod_eq_of_lt h, Nat.add_mul_div_left _ _ (by omega : 0 < ca.ncols), Nat.div_eq_of_lt h, Nat.zero_add]
      rfl) i.2
    simpa [hea, heb] using crossed_column hab checkab this
  have : weighted rows.length cols c i = ∑ j : Fin cols.length, (fun j => c j * ((cols[j]?.getD [])[i.1]?.getD 0)) j.1 := by
    unfold weighted columnVectors
    refine Finset.sum_congr rfl fun j _ => ?_
    simp
  rw [this, Fin.sum_univ_eq_sum_range (fun j => c j * ((cols[j]?.getD [])[i.1]?.getD 0)), hlen, Finset.sum_range_add, Finset.sum_range_add,
    Finset.sum_range_add, Finset.sum_range_one, sum_range_pairs]
  congr 1
  · congr 1
    · congr 1
      · have h0 : 0 < cols.length := by omega
        rw [List.getElem?_eq_getElem h0]
        simp [v0 h0]
      · refine Finset.sum_congr rfl fun j hj => ?_
        have hj := Finset.mem_range.mp hj
        have h0 : 1 + j < cols.length := by omega
        rw [List.getElem?_eq_getElem h0, Option.getD_some, va j hj h0, mul_comm]
    · refine Finset.sum_congr rfl fun j hj => ?_
      have hj := Finset.mem_range.mp hj
      have h0 : 1 + ca.ncols + j < cols.length := by omega
      rw [List.getElem?_eq_getElem h0, Option.getD_some, vb j hj h0, mul_comm]
  · refine Finset.sum_congr rfl fun k hk => Finset.sum_congr rfl fun j hj => ?_
    have hj := Finset.mem_range.mp hj
    have hk := Finset.mem_range.mp hk
    have hlt : j + ca.ncols * k < ca.ncols * cb.ncols := by
      calc j + ca.ncols * k < ca.ncols + ca.ncols * k := by omega
        _ = ca.ncols * (k + 1) := by ring
        _ ≤ _ := Nat.mul_le_mul_left _ hk
    have h0 : 1 + ca.ncols + cb.ncols + (j + ca.ncols * k) < cols.length := by omega
    rw [List.getElem?_eq_getElem h0, Option.getD_some, vab j k hj hk h0, mul_comm]

theorem cellMean_group2 {rows : List (F → Option (Cell K))} {a b : F} {y : Fin rows.length → K} (i : Fin rows.length) :
    cellMean rows [a, b] y i = groupMean2 rows a b y (levelAt rows[i] a) (levelAt rows[i] b) := by
  have : cellRows rows [a, b] i = group2 rows a b (levelAt rows[i] a) (levelAt rows[i] b) := by
    ext j
    simp only [cellRows, group2, Finset.mem_filter, Finset.mem_univ, true_and, List.mem_cons, List.not_mem_nil, or_false]
    constructor
    · intro h
      exact ⟨(h a (.inl rfl)).symm, (h b (.inr rfl)).symm⟩
    · rintro ⟨h1, h2⟩ f (rfl | rfl)
      · exact h1.symm
      · exact h2.symm
  rw [cellMean, groupMean2, this]

/-- Least squares with an intercept, two categorical factors and their interaction. -/
theorem solves_crossed {hash : Subterm F → H} {nums : List (F × Nat)} {n : F → Nat}
    {coder : F → Bool → Except Err (ContrastMatrix K)} {fis : List (F × FactorInfo F D K)} {a b : F} {d : DesignInfo F D K}
    {rows : List (F → Option (Cell K))} {cols : List (List K)}
    (h : MadeMatrix hash nums n coder fis [⟨[]⟩, ⟨[a]⟩, ⟨[b]⟩, ⟨[a, b]⟩] d rows cols) (hab : a ≠ b) (ha : dictGet nums a = none)
    (hb : dictGet nums b = none) {ca cb : ContrastMatrix K} (hca : coder a false = .ok ca) (hcb : coder b false = .ok cb)
    {A A' : (Nat → K) → K} {B B' : (Nat → K) → Nat → K} (hra : IsReduced ca (n a) A B) (hrb : IsReduced cb (n b) A' B')
    (hocc : ∀ l < n a, ∀ k < n b, (group2 rows a b l k).Nonempty) {y : Fin rows.length → K} {c : Nat → K} :
    Solves rows.length cols y c ↔
      c 0 = A' (fun k => A fun l => groupMean2 rows a b y l k) ∧
      (∀ j < n a - 1, c (1 + j) = A' fun k => B (fun l => groupMean2 rows a b y l k) j) ∧
      (∀ m < n b - 1, c (1 + (n a - 1) + m) = B' (fun k => A fun l => groupMean2 rows a b y l k) m) ∧
      ∀ j < n a - 1, ∀ m < n b - 1, c (1 + (n a - 1) + (n b - 1) + (j + (n a - 1) * m)) =
        B' (fun k => B (fun l => groupMean2 rows a b y l k) j) m := by
  rw [Solves, fitted_means h.span (u := ⟨[a, b]⟩) (by simp) (by simp) (by simp [ha, hb])]
  have hw := (matrix_crossed h hab ha hb hca hcb).2 c
  rw [hra.ncols, hrb.ncols] at hw
  set μ := groupMean2 rows a b y with hμ
  have step : (∀ i, weighted rows.length cols c i = cellMean rows [a, b] y i) ↔ ∀ k < n b, ∀ l < n a, μ l k =
      (c 0 + ∑ m ∈ Finset.range (n b - 1), entry cb.matrix k m * c (1 + (n a - 1) + m)) +
        ∑ j ∈ Finset.range (n a - 1), entry ca.matrix l j * (c (1 + j) +
          ∑ m ∈ Finset.range (n b - 1), entry cb.matrix k m * c (1 + (n a - 1) + (n b - 1) + (j + (n a - 1) * m))) := by
    have form : ∀ i, weighted rows.length cols c i =
        (c 0 + ∑ m ∈ Finset.range (n b - 1), entry cb.matrix (levelAt rows[i] b) m * c (1 + (n a - 1) + m)) +
        ∑ j ∈ Finset.range (n a - 1), entry ca.matrix (levelAt rows[i] a) j * (c (1 + j) +
          ∑ m ∈ Finset.range (n b - 1), entry cb.matrix (levelAt rows[i] b) m * c (1 + (n a - 1) + (n b - 1) + (j + (n a - 1) * m))) := by
      intro i
      rw [hw i, Finset.sum_comm]
      simp only [mul_add, Finset.sum_add_distrib, Finset.mul_sum, mul_assoc]
      ring
    constructor
    · intro hv k hk l hl
      obtain ⟨i, hi⟩ := hocc l hl k hk
      obtain ⟨hi1, hi2⟩ : levelAt rows[i] a = l ∧ levelAt rows[i] b = k := by simpa [group2] using hi
      have := form i
      rw [hv i, cellMean_group2, hi1, hi2] at this
      exact this
    · intro hv i
      have la := h.levels rows[i] (List.getElem_mem _) ⟨[a]⟩ (by simp) a (by simp) ha
      have lb := h.levels rows[i] (List.getElem_mem _) ⟨[b]⟩ (by simp) b (by simp) hb
      rw [form, cellMean_group2, ← hv _ lb _ la]
  rw [step]
  have inner : ∀ k, (∀ l < n a, μ l k =
      (c 0 + ∑ m ∈ Finset.range (n b - 1), entry cb.matrix k m * c (1 + (n a - 1) + m)) +
        ∑ j ∈ Finset.range (n a - 1), entry ca.matrix l j * (c (1 + j) +
          ∑ m ∈ Finset.range (n b - 1), entry cb.matrix k m * c (1 + (n a - 1) + (n b - 1) + (j + (n a - 1) * m)))) ↔ _ :=
    fun k => hra.meaning (fun l => μ l k) _ fun j => c (1 + j) +
      ∑ m ∈ Finset.range (n b - 1), entry cb.matrix k m * c (1 + (n a - 1) + (n b - 1) + (j + (n a - 1) * m))
  simp only [inner]
  have outer := hrb.meaning (fun k => A fun l => μ l k) (c 0) fun m => c (1 + (n a - 1) + m)
  have outer' := fun j => hrb.meaning (fun k => B (fun l => μ l k) j) (c (1 + j)) fun m =>
    c (1 + (n a - 1) + (n b - 1) + (j + (n a - 1) * m))
  constructor
  · intro hh
    obtain ⟨h0, h1⟩ := outer.mp fun k hk => (hh k hk).1.symm
    refine ⟨h0, fun j hj => ((outer' j).mp fun k hk => ((hh k hk).2 j hj).symm).1, h1,
      fun j hj => ((outer' j).mp fun k hk => ((hh k hk).2 j hj).symm).2⟩
  · rintro ⟨h0, h1, h2, h3⟩ k hk
    exact ⟨(outer.mpr ⟨h0, h2⟩ k hk).symm, fun j hj => ((outer' j).mpr ⟨h1 j hj, h3 j hj⟩ k hk).symm⟩

section

variable {P : Setting F D K H} (hw : World P) (hcodes : CodesFit P) {isnan : K → Bool} {dataIndex : Option (List Label)}
  {data : D} {rt : ReturnType} {f : FormulaLike F D K} (hf : Sound data f) {m : ModelDesc F} (hm : modelOf f = some m)
  {t : Table F D K × Table F D K} (h : highLevelDesign P isnan dataIndex data rt f = .ok t)

include hw hcodes hf hm h

/-- **C83**, `a * b` with two categorical factors.  If every combination of levels occurs, then the coefficients of least
squares are what the contrast of `b` says about what the contrast of `a` says about the cell means.  The products are ordered
with the first factor varying fastest. -/
theorem crossed_coefficients {a b : F} (hrhs : m.rhs = [⟨[]⟩, ⟨[a]⟩, ⟨[b]⟩, ⟨[a, b]⟩]) (hab : a ≠ b) :
    ∃ eval types n, Learned P data m eval types ∧
    RowCount P.na types (fun f => eval f data) (allFactors [m.lhs, m.rhs]) dataIndex n ∧
    t.2.mat.nrows = (modelRows P isnan data m eval types n).length ∧ (WellCoded P types m.rhs →
      ∀ levels contrast levels' contrast', typeOf types a = some (.categorical levels contrast) →
      typeOf types b = some (.categorical levels' contrast') →
      (∀ l < levels.length, ∀ k < levels'.length, (group2 (modelRows P isnan data m eval types n) a b l k).Nonempty) →
      ∀ ca A B cb A' B', codeContrastMatrix false levels (contrast.getD .none) P.default = .ok ca → IsReduced ca levels.length A B →
      codeContrastMatrix false levels' (contrast'.getD .none) P.default = .ok cb → IsReduced cb levels'.length A' B' →
        t.2.mat.cols.length = 1 + (levels.length - 1) + (levels'.length - 1) + (levels.length - 1) * (levels'.length - 1) ∧
        ∀ y c, Solves (modelRows P isnan data m eval types n).length t.2.mat.cols y c ↔
          c 0 = A' (fun k => A fun l => groupMean2 (modelRows P isnan data m eval types n) a b y l k) ∧
          (∀ i < levels.length - 1, c (1 + i) =
            A' fun k => B (fun l => groupMean2 (modelRows P isnan data m eval types n) a b y l k) i) ∧
          (∀ j < levels'.length - 1, c (1 + (levels.length - 1) + j) =
            B' (fun k => A fun l => groupMean2 (modelRows P isnan data m eval types n) a b y l k) j) ∧
          ∀ i < levels.length - 1, ∀ j < levels'.length - 1,
            c (1 + (levels.length - 1) + (levels'.length - 1) + (i + (levels.length - 1) * j)) =
              B' (fun k => B (fun l => groupMean2 (modelRows P isnan data m eval types n) a b y l k) i) j) := by
  obtain ⟨eval, types, infos, n, he, ht, hn, _, h2, hmade⟩ := formula_made hw hcodes hf hm (sound_nodup hf hm) h
  refine ⟨eval, types, n, ⟨he, ht⟩, hn, h2, ?_⟩
  intro hwell levels contrast levels' contrast' hty hty' hocc ca A B cb A' B' hca hra hcb hrb
  have hmm := hmade m.rhs t.2.info t.2.mat (by simp) hwell.1 hwell.2
  have key : ∀ ts, m.rhs = ts → MadeMatrix P.hash types.1 (levelCount types) (coderOf P.default types.2) infos ts t.2.info
      (modelRows P isnan data m eval types n) t.2.mat.cols := by
    rintro _ rfl
    exact hmm
  replace hmm := key _ hrhs
  obtain ⟨hd, hl, hco⟩ := coderOf_type (default := P.default) hty
  obtain ⟨hd', hl', hco'⟩ := coderOf_type (default := P.default) hty'
  rw [← hl, ← hl'] at hocc
  rw [← hl] at hra
  rw [← hl'] at hrb
  rw [← hco] at hca
  rw [← hco'] at hcb
  rw [← hl, ← hl']
  refine ⟨(matrix_crossed hmm hab hd hd' hca hcb).1.trans (by rw [hra.ncols, hrb.ncols]),
    fun y c => solves_crossed hmm hab hd hd' hca hcb hra hrb hocc⟩

/-- **C83**, `a * b` with the default contrasts: the intercept is the mean of the first cell, the main effects are differences
from it within the first level of the other factor, and the interaction is a difference of differences. -/
theorem crossed_treatment {readable : PyVal → String}
    (hdef : P.default = .coding (dummyCode readable) (treatment readable none)) {a b : F}
    (hrhs : m.rhs = [⟨[]⟩, ⟨[a]⟩, ⟨[b]⟩, ⟨[a, b]⟩]) (hab : a ≠ b) :
    ∃ eval types n, Learned P data m eval types ∧
    RowCount P.na types (fun f => eval f data) (allFactors [m.lhs, m.rhs]) dataIndex n ∧
    t.2.mat.nrows = (modelRows P isnan data m eval types n).length ∧ (WellCoded P types m.rhs →
      ∀ levels levels', typeOf types a = some (.categorical levels none) → levels ≠ [] →
      typeOf types b = some (.categorical levels' none) → levels' ≠ [] →
      (∀ l < levels.length, ∀ k < levels'.length, (group2 (modelRows P isnan data m eval types n) a b l k).Nonempty) →
        t.2.mat.cols.length = levels.length * levels'.length ∧
        ∀ y c μ, μ = groupMean2 (modelRows P isnan data m eval types n) a b y →
        (Solves (modelRows P isnan data m eval types n).length t.2.mat.cols y c ↔
          c 0 = μ 0 0 ∧
          (∀ i < levels.length - 1, c (1 + i) = μ (i + 1) 0 - μ 0 0) ∧
          (∀ j < levels'.length - 1, c (1 + (levels.length - 1) + j) = μ 0 (j + 1) - μ 0 0) ∧
          ∀ i < levels.length - 1, ∀ j < levels'.length - 1,
            c (1 + (levels.length - 1) + (levels'.length - 1) + (i + (levels.length - 1) * j)) =
              (μ (i + 1) (j + 1) - μ 0 (j + 1)) - (μ (i + 1) 0 - μ 0 0))) := by
  obtain ⟨eval, types, n, hl, hn, h1, h2⟩ := crossed_coefficients hw hcodes hf hm h hrhs hab
  refine ⟨eval, types, n, hl, hn, h1, fun hwell levels levels' hty hne hty' hne' hocc => ?_⟩
  have hpos : 0 < levels.length := List.length_pos_iff.mpr hne
  have hpos' : 0 < levels'.length := List.length_pos_iff.mpr hne'
  obtain ⟨ca, hca, _, hra⟩ := treatment_meaning (K := K) readable (reference := none) (levels := levels) (r := 0) rfl hpos
  obtain ⟨cb, hcb, _, hrb⟩ := treatment_meaning (K := K) readable (reference := none) (levels := levels') (r := 0) rfl hpos'
  have hca' : codeContrastMatrix false levels ((none : Option (Contrast.Spec K)).getD .none) P.default = .ok ca := by
    rw [hdef]; exact hca
  have hcb' : codeContrastMatrix false levels' ((none : Option (Contrast.Spec K)).getD .none) P.default = .ok cb := by
    rw [hdef]; exact hcb
  obtain ⟨h3, h4⟩ := h2 hwell levels none levels' none hty hty' hocc ca _ _ cb _ _ hca' hra hcb' hrb
  refine ⟨?_, ?_⟩
  · obtain ⟨p, hp⟩ : ∃ p, levels.length = p + 1 := ⟨levels.length - 1, by omega⟩
    obtain ⟨q, hq⟩ : ∃ q, levels'.length = q + 1 := ⟨levels'.length - 1, by omega⟩
    rw [h3, hp, hq]
    simp
    ring
  · rintro y c _ rfl
    simpa [skip] using h4 y c

end

namespace CrossedSample

open BuilderSample HighSample FitSample

/-- As `look'`, and a factor `b` with the levels `p` and `q`. -/
def lookB (f : String) (d : Data) : Except Err (Seen ℚ) :=
  if f = "b" then .ok ⟨.raw (.array .other 1 1 (d.map fun r => .str (if r.2.1 = 1 then "p" else "q"))), [], none⟩
  else look' f d

def settingB : Setting String Data ℚ (Redundancy.Subterm String) := { setting with memorize := fun _ => .ok lookB }

theorem worldB : World settingB := by
  refine ⟨visits, ?_⟩
  intro fs eval h f d s hs l hl
  cases h
  have : s.index = none := by
    simp only [lookB, look', look, BuilderSample.number] at hs
    repeat' split at hs
    all_goals first | (cases hs; rfl) | cases hs
  rw [this] at hl
  cases hl

theorem codesFitB : CodesFit settingB := by
  intro fs eval h f d s cats codes hs hv
  cases h
  simp only [lookB, look', look, BuilderSample.number] at hs
  repeat' split at hs
  all_goals first | (cases hs; cases hv) | cases hs

def table : Data := [(1, 1, "u"), (3, 1, "u"), (4, 2, "u"), (5, 1, "v"), (1, 2, "v"), (9, 1, "w"), (3, 2, "w")]

/-- `y ~ 1 + a + b + a:b`, that is `y ~ a * b`. -/
def crossed : ModelDesc String := ⟨[⟨["y"]⟩], [⟨[]⟩, ⟨["a"]⟩, ⟨["b"]⟩, ⟨["a", "b"]⟩]⟩

/-- The types that are learned; the dictionaries are in the order in which the factors have been seen. -/
def crossedTypes : Types String ℚ :=
  ([("y", 1)], [("a", [.str "u", .str "v", .str "w"], none), ("b", [.str "p", .str "q"], none)])

def crossedResult : Except Err (Table String Data ℚ × Table String Data ℚ) :=
  highLevelDesign settingB isnan none table .matrix (.desc crossed)

theorem learned_crossed : Learned settingB table crossed lookB crossedTypes := ⟨rfl, rfl⟩

theorem crossed_ok : isOk crossedResult = true := by decide +kernel

theorem rowCount_crossed :
    RowCount settingB.na crossedTypes (fun f => lookB f table) (allFactors [crossed.lhs, crossed.rhs]) none 7 := by
  refine ⟨?_, fun h => absurd h (by decide)⟩
  intro f hf r
  have : f = "y" ∨ f = "a" ∨ f = "b" := by revert f; decide
  rcases this with rfl | rfl | rfl
  · have : factorCell settingB.na crossedTypes (fun f => lookB f table) r "y" =
      [[1], [3], [4], [5], [1], [9], [3]][r]?.map .num := rfl
    rw [this]
    simp
  · have : factorCell settingB.na crossedTypes (fun f => lookB f table) r "a" = [0, 0, 0, 1, 1, 2, 2][r]?.map .code := rfl
    rw [this]
    simp
  · have : factorCell settingB.na crossedTypes (fun f => lookB f table) r "b" = [0, 0, 1, 0, 1, 0, 1][r]?.map .code := rfl
    rw [this]
    simp

theorem wellCoded_crossed : WellCoded settingB crossedTypes crossed.rhs := by
  refine ⟨?_, fun _ _ _ _ h => minusPiece_injective h⟩
  intro t ht f hf levels contrast hty
  have : f = "a" ∨ f = "b" := (by decide : ∀ t ∈ crossed.rhs, ∀ f ∈ t.factors, f = "a" ∨ f = "b") t ht f hf
  rcases this with rfl | rfl
  · cases hty
    exact (builtin_good (default := .none) (levels := [.str "u", .str "v", .str "w"]) (by simp)
      (.treatment (readable := BuilderSample.readable) (reference := none) (r := 0) rfl (by decide))).2.2.1
  · cases hty
    exact (builtin_good (default := .none) (levels := [.str "p", .str "q"]) (by simp)
      (.treatment (readable := BuilderSample.readable) (reference := none) (r := 0) rfl (by decide))).2.2.1

theorem occur_crossed : ∀ l < 3, ∀ k < 2,
    (group2 (modelRows settingB isnan table crossed lookB crossedTypes 7) "a" "b" l k).Nonempty := by
  have key : ∀ l k (i : Fin 7), levelAt ((modelRows settingB isnan table crossed lookB crossedTypes 7)[i]'i.2) "a" = l →
      levelAt ((modelRows settingB isnan table crossed lookB crossedTypes 7)[i]'i.2) "b" = k →
      (group2 (modelRows settingB isnan table crossed lookB crossedTypes 7) "a" "b" l k).Nonempty :=
    fun l k i h1 h2 => ⟨i, Finset.mem_filter.mpr ⟨Finset.mem_univ _, h1, h2⟩⟩
  intro l hl k hk
  interval_cases l <;> interval_cases k
  · exact key 0 0 0 rfl rfl
  · exact key 0 1 2 rfl rfl
  · exact key 1 0 3 rfl rfl
  · exact key 1 1 4 rfl rfl
  · exact key 2 0 5 rfl rfl
  · exact key 2 1 6 rfl rfl

def outcomes : Fin 7 → ℚ := ![1, 3, 4, 5, 1, 9, 3]

/-- The cell means are 2, 5, 9 for `p` and 4, 1, 3 for `q`. -/
def crossedCoefficients : Nat → ℚ
  | 0 => 2
  | 1 => 3
  | 2 => 7
  | 3 => 2
  | 4 => -6
  | _ => -8

end CrossedSample

open CrossedSample FitSample HighSample BuilderSample in
/-- Example for `crossed_coefficients` and `crossed_treatment`: `y ~ a * b` with three and two levels. -/
example : ∃ t, crossedResult = .ok t ∧ t.1.mat.cols = [[1, 3, 4, 5, 1, 9, 3]] ∧
    Solves 7 t.2.mat.cols CrossedSample.outcomes crossedCoefficients := by
  refine ⟨_, getOk_eq crossed_ok, by decide +kernel, ?_⟩
  obtain ⟨eval, ty, n, hl, hn, _, h2⟩ := crossed_treatment worldB codesFitB (f := .desc crossed) (fun m hm => by cases hm; decide) rfl
    (getOk_eq crossed_ok) (readable := BuilderSample.readable) rfl (a := "a") (b := "b") rfl (by decide)
  obtain ⟨h3, h4⟩ := hl
  cases h3
  obtain rfl : ty = crossedTypes := Except.ok.inj (h4.symm.trans learned_crossed.2)
  obtain rfl := rowCount_unique (fun _ => Iff.rfl) (fun _ => rfl) rowCount_crossed hn
  obtain ⟨_, h5⟩ := h2 wellCoded_crossed [.str "u", .str "v", .str "w"] [.str "p", .str "q"] rfl (by simp) rfl (by simp) occur_crossed
  refine (h5 CrossedSample.outcomes crossedCoefficients _ rfl).mpr ⟨by decide +kernel, ?_, ?_, ?_⟩
  · intro i hi
    have : i = 0 ∨ i = 1 := by simp at hi; omega
    rcases this with rfl | rfl <;> decide +kernel
  · intro j hj
    obtain rfl : j = 0 := by simp at hj; omega
    decide +kernel
  · intro i hi j hj
    obtain rfl : j = 0 := by simp at hj; omega
    have : i = 0 ∨ i = 1 := by simp at hi; omega
    rcases this with rfl | rfl <;> decide +kernel

end Patsy.Props
