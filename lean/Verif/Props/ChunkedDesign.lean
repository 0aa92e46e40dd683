import Verif.Lemmas.ChunkedBuild
import Verif.Props.Reorder

/-!
# C66: designs built from chunks are those of the whole data
-/

set_option linter.unusedSectionVars false

namespace Patsy.Props

open Patsy.Spec Patsy.Build Patsy.Desc Patsy.Cat

variable {F D K H : Type} [DecidableEq F] [DecidableEq H] [Mul K] [One K]

/-- Designs and matrices for chunks and for the whole data. -/
theorem joined_designs {P P' : Setting F D K H} (hw : World P) {parts : List (Part D K)} (hparts : parts ≠ []) {whole : D}
    {tls : List (List (Term F))} (hnd : ∀ tl ∈ tls, ∀ t ∈ tl, t.factors.Nodup) (htls : tls ≠ [])
    (hS : Chunked P P' (parts.map (·.data)) whole (P.visit (allFactors tls))) {dis : List (DesignInfo F D K)}
    (h : designMatrixBuilders P (parts.map (·.data)) tls = .ok dis) {isnan : K → Bool} {na : NAAction} {frame : Bool}
    {dataIndex : Option (List Build.Label)} (hdi : JoinedLabels (parts.map (·.index)) dataIndex)
    (hb : ∀ p ∈ parts, buildDesignMatrices isnan na frame p.index dis p.data = .ok p.built) :
    designMatrixBuilders P' [whole] tls = .ok dis ∧
    ∃ b eval, buildDesignMatrices isnan na frame dataIndex dis whole = .ok b ∧
      P'.memorize (P.visit (allFactors tls)) = .ok eval ∧
      (∀ (j : Nat) m, b.mats[j]? = some m → ∃ ms : List (Mat K), parts.map (fun p => p.built.mats[j]?) = ms.map some ∧ Stacked ms m) ∧
      (frame = false → b.index = none) ∧
      (frame = true → Indexed dataIndex (allFactors tls) (fun f => eval f whole) →
        ∃ ls : List (List Build.Label), parts.map (·.built.index) = ls.map some ∧ b.index = some ls.flatten) := by
  obtain ⟨cs, hcs, hid, hfits, hlen⟩ := builders_sound hw hnd h
  have hdis : dis ≠ [] := by
    rintro rfl
    have h1 := hcs.length_eq
    have h2 := hlen.length_eq
    simp only [List.length_nil] at h1
    exact htls (List.length_eq_zero_iff.mp (by omega))
  obtain ⟨eval, types, he, ht, hfrom, hto⟩ := made_factors hw.visits h hcs
  have hmem : ∀ {g}, g ∈ allFactors tls → g ∈ P.visit (allFactors tls) := fun h => (hw.visits _).mem_iff.mpr h
  have hchunks : parts.map (·.data) ≠ [] := by simpa using hparts
  have hseen : ∀ g ∈ allFactors tls, ∃ ss, (parts.map (·.data)).mapM (eval g) = .ok ss := by
    intro g hg
    obtain ⟨fi, hfi, uid, hgi⟩ := hto g hg
    obtain ⟨ss, hss⟩ := forall₂_of_exists (l := parts.map (·.data)) (R := fun d s => eval g d = .ok s) (by
      intro d hd
      obtain ⟨p, hp, rfl⟩ := List.mem_map.mp hd
      have := hb p hp
      rw [build_keeps_complete_rows hdis hcs hid (hfits na.types p.data)] at this
      obtain ⟨V, n, idx, hev, _⟩ := this
      obtain ⟨i, hi, _⟩ := hev.value fi hfi
      obtain ⟨s, hs, _⟩ := factorInfo_seen hgi hi
      exact ⟨s, hs⟩)
    exact ⟨ss, Build.mapM_ok.mpr hss⟩
  refine ⟨builders_joined hw.visits hchunks hS (fun eval' he' f hf => ?_) h, ?_⟩
  · obtain rfl : eval = eval' := Except.ok.inj (he.symm.trans he')
    exact hseen f hf
  obtain ⟨eval', he', hee⟩ := hS.memorize eval he
  obtain ⟨b, h1, h2, h3, h4⟩ := build_joined (whole := whole) hdis hcs hid (hfits na.types) hparts hdi (fun fi hfi vis hvis => by
    obtain ⟨g, hg, uid, hgi⟩ := hfrom fi hfi
    refine factorEval_joined hgi hchunks (fun ss hss => ?_) hvis
    obtain ⟨w, hw1, hw2, _⟩ := hS.values eval he g (hmem hg) ss hss
    exact ⟨w, hw1, hw2⟩) hb
  refine ⟨b, eval', h1, he', h2, h3, fun hf hix => h4 hf ?_⟩
  refine hix.imp_right ?_
  rintro ⟨g, hg, s, hs, hsi⟩
  simp only [hee g (hmem hg)] at hs
  obtain ⟨fi, hfi, uid, hgi⟩ := hto g hg
  rw [build_keeps_complete_rows hdis hcs hid (hfits na.types whole)] at h1
  obtain ⟨V, n, idx, hev, _⟩ := h1
  obtain ⟨i, hi, _⟩ := hev.value fi hfi
  obtain ⟨s', hs', rfl⟩ := factorInfo_seen hgi hi
  obtain rfl : s = s' := Except.ok.inj (hs.symm.trans hs')
  obtain ⟨l, hl⟩ := Option.ne_none_iff_exists'.mp hsi
  exact ⟨fi, hfi, _, l, hl ▸ hi⟩

theorem sound_terms_nodup {whole : D} {f : FormulaLike F D K} (hf : Sound whole f) {m : ModelDesc F} (hm : modelOf f = some m) :
    ∀ tl ∈ [m.lhs, m.rhs], ∀ t ∈ tl, t.factors.Nodup := by
  have : ∀ t ∈ m.lhs ++ m.rhs, t.factors.Nodup := by
    cases f <;> first | exact hf m hm | simp [modelOf] at hm
  intro tl htl t ht
  simp only [List.mem_cons, List.not_mem_nil, or_false] at htl
  rcases htl with rfl | rfl
  · exact this t (by simp [ht])
  · exact this t (by simp [ht])

/-- The matrices for the whole data, before the test for a left-hand side. -/
theorem joined_pair {P P' : Setting F D K H} (hw : World P) {parts : List (Part D K)} (hparts : parts ≠ []) {whole : D}
    {f : FormulaLike F D K} (hf : Sound whole f) {m : ModelDesc F} (hm : modelOf f = some m)
    (hS : Chunked P P' (parts.map (·.data)) whole (P.visit (allFactors [m.lhs, m.rhs]))) {l r : DesignInfo F D K}
    (h : designMatrixBuilders P (parts.map (·.data)) [m.lhs, m.rhs] = .ok [l, r]) {isnan : K → Bool} {rt : ReturnType}
    (hrt : rt ≠ .other) {dataIndex : Option (List Build.Label)} (hdi : JoinedLabels (parts.map (·.index)) dataIndex)
    (hb : ∀ p ∈ parts, buildDesignMatrices isnan P.na (rt = .dataframe) p.index [l, r] p.data = .ok p.built) :
    ∃ t eval, highLevelDesign P' isnan dataIndex whole rt f = .ok t ∧ t.1.info = l ∧ t.2.info = r ∧
      t.1.ncols = l.columnNames.length ∧ P'.memorize (P.visit (allFactors [m.lhs, m.rhs])) = .ok eval ∧
      StackedTable (rt = .dataframe) (Indexed dataIndex (allFactors [m.lhs, m.rhs]) fun f => eval f whole) parts 0 t.1 ∧
      StackedTable (rt = .dataframe) (Indexed dataIndex (allFactors [m.lhs, m.rhs]) fun f => eval f whole) parts 1 t.2 := by
  obtain ⟨h1, b, eval, h2, h3, h4, h5, h6⟩ := joined_designs hw hparts (sound_terms_nodup hf hm) (by simp) hS h hdi hb
  obtain ⟨cs, hcs, hid, hfits, _⟩ := builders_sound hw (sound_terms_nodup hf hm) h
  have h2' := h2
  rw [build_keeps_complete_rows (by simp) hcs hid (hfits _ _)] at h2'
  obtain ⟨V, n, idx, _, _, hmats, _⟩ := h2'
  obtain ⟨cl, cr, rfl, d1, d2⟩ := forall₂_two hcs
  obtain ⟨x, y, hxy, ⟨_, a1⟩, ⟨_, a2⟩⟩ := forall₂_two hmats
  refine ⟨(⟨l, x, b.index⟩, ⟨r, y, b.index⟩), eval, ?_, rfl, rfl, isMatrix_width d1 a1, h3, ⟨?_, ?_, ?_⟩, ?_, ?_, ?_⟩
  · simp only [highLevelDesign, if_neg hrt, tryIncrBuilders_model P' [whole] hm, descBuilders, h1, ok_bind, hS.same.2.2.2.2.2]
    simp only [pure, Except.pure, ok_bind, h2]
    rw [asTables_ok]
    exact ⟨rfl, hxy, rfl, rfl⟩
  · exact h4 0 x (by rw [hxy]; rfl)
  · exact h5
  · exact h6
  · exact h4 1 y (by rw [hxy]; rfl)
  · exact h5
  · exact h6

/-- **C66**.  Let a formula be fitted to data that come in chunks (`incr_dbuilders`), and let the matrices be built chunk by
chunk with `build_design_matrices`.  If the factors work row by row and remember the same from the chunks as from the whole
data (`Chunked`), then `dmatrices` on the whole data succeeds, yields the very same designs, and its matrices are the
matrices of the chunks, one above the other; labels of rows are kept. -/
theorem chunks_together {P P' : Setting F D K H} (hw : World P) {parts : List (Part D K)} (hparts : parts ≠ []) {whole : D}
    {f : FormulaLike F D K} (hf : Sound whole f) {m : ModelDesc F} (hm : modelOf f = some m)
    (hS : Chunked P P' (parts.map (·.data)) whole (P.visit (allFactors [m.lhs, m.rhs]))) {l r : DesignInfo F D K}
    (h : incrDbuilders P (parts.map (·.data)) f = .ok (l, r)) {isnan : K → Bool} {rt : ReturnType} (hrt : rt ≠ .other)
    {dataIndex : Option (List Build.Label)} (hdi : JoinedLabels (parts.map (·.index)) dataIndex)
    (hb : ∀ p ∈ parts, buildDesignMatrices isnan P.na (rt = .dataframe) p.index [l, r] p.data = .ok p.built) :
    ∃ t eval, dmatrices P' isnan dataIndex whole rt f = .ok t ∧ t.1.info = l ∧ t.2.info = r ∧
      P'.memorize (P.visit (allFactors [m.lhs, m.rhs])) = .ok eval ∧
      StackedTable (rt = .dataframe) (Indexed dataIndex (allFactors [m.lhs, m.rhs]) fun f => eval f whole) parts 0 t.1 ∧
      StackedTable (rt = .dataframe) (Indexed dataIndex (allFactors [m.lhs, m.rhs]) fun f => eval f whole) parts 1 t.2 := by
  simp only [incrDbuilders, tryIncrBuilders_model P _ hm, descBuilders, bind_ok] at h
  obtain ⟨o, ⟨dis, hdis, ho⟩, h⟩ := h
  rw [pure_ok] at ho
  subst ho
  split at h
  · rename_i l' r' heq
    simp only [Option.some.injEq] at heq
    subst heq
    split at h
    · cases h
    · rename_i hcols
      cases h
      obtain ⟨t, eval, h1, h2, h3, h4, h5⟩ := joined_pair hw hparts hf hm hS hdis hrt hdi hb
      refine ⟨t, eval, ?_, h2, h3, h5⟩
      simp only [dmatrices, h1, ok_bind, h4, if_neg hcols]
  · cases h

/-- The converse of `build_beside_empty`. -/
theorem build_with_empty {isnan : K → Bool} {na : NAAction} {frame : Bool} {dataIndex : Option (List Label)} {data : D}
    {l r : DesignInfo F D K} {cl cr : Coding F D K} (hp : BuilderPair data l r cl cr) (he : EmptyCoding cl) {b : Built K}
    (h : buildDesignMatrices isnan na frame dataIndex [r] data = .ok b) :
    ∃ x y, b.mats = [y] ∧ buildDesignMatrices isnan na frame dataIndex [l, r] data = .ok ⟨[x, y], b.index⟩ := by
  have hfac : Spec.factorsOf [cl, cr] = Spec.factorsOf [cr] := by
    simp [Spec.factorsOf, he.2]
  obtain ⟨h1, h2, h3, h4⟩ := hp
  have h3' := h3
  have h4' := h4
  rw [hfac] at h3' h4'
  rw [build_keeps_complete_rows (by simp) (.cons h2 .nil) h3' (h4' _)] at h
  obtain ⟨V, n, idx, a1, a2, a3, a4⟩ := h
  obtain ⟨y, hy, ha⟩ := forall₂_one a3
  refine ⟨⟨(Spec.completeRows na isnan (Spec.factorsOf [cr]) V n).length, []⟩, y, hy, ?_⟩
  rw [build_keeps_complete_rows (by simp) (.cons h1 (.cons h2 .nil)) h3 (h4 _)]
  rw [hfac]
  refine ⟨V, n, idx, a1, a2, .cons ⟨rfl, ?_⟩ (.cons ha .nil), a4⟩
  have : columnsOf cl = [] := by simp [columnsOf, he.1]
  rw [IsMatrix, this]
  exact .nil

/-- **C66** for formulas without left-hand side: `incr_dbuilder` and `dmatrix`. -/
theorem chunks_together_one {P P' : Setting F D K H} (hw : World P) {parts : List (Part D K)} (hparts : parts ≠ []) {whole : D}
    {f : FormulaLike F D K} (hf : Sound whole f) {m : ModelDesc F} (hm : modelOf f = some m) (hlhs : m.lhs = [])
    (hS : Chunked P P' (parts.map (·.data)) whole (P.visit (allFactors [m.lhs, m.rhs]))) {r : DesignInfo F D K}
    (h : incrDbuilder P (parts.map (·.data)) f = .ok r) {isnan : K → Bool} {rt : ReturnType} (hrt : rt ≠ .other)
    {dataIndex : Option (List Build.Label)} (hdi : JoinedLabels (parts.map (·.index)) dataIndex)
    (hb : ∀ p ∈ parts, buildDesignMatrices isnan P.na (rt = .dataframe) p.index [r] p.data = .ok p.built) :
    ∃ t eval, dmatrix P' isnan dataIndex whole rt f = .ok t ∧ t.info = r ∧
      P'.memorize (P.visit (allFactors [m.lhs, m.rhs])) = .ok eval ∧
      StackedTable (rt = .dataframe) (Indexed dataIndex (allFactors [m.lhs, m.rhs]) fun f => eval f whole) parts 0 t := by
  simp only [incrDbuilder, tryIncrBuilders_model P _ hm, bind_ok] at h
  obtain ⟨o, ho, h⟩ := h
  have hnd : ∀ t ∈ m.lhs ++ m.rhs, t.factors.Nodup := by
    cases f <;> first | exact hf m hm | simp [modelOf] at hm
  have hpair : ∀ data, ∃ l r' cl cr, o = some [l, r'] ∧ designMatrixBuilders P (parts.map (·.data)) [m.lhs, m.rhs] = .ok [l, r'] ∧
      BuilderPair data l r' cl cr ∧ (m.lhs = [] → EmptyCoding cl) := fun data => descBuilders_sound hw hnd ho
  obtain ⟨l, r', cl, cr, rfl, hdis, hpl, hel⟩ := hpair whole
  simp only at h
  split at h
  · cases h
  rename_i hcols
  cases h
  obtain ⟨ext, hext⟩ := forall₂_of_exists (l := parts)
    (R := fun (p q : Part D K) => q.data = p.data ∧ q.index = p.index ∧ q.built.index = p.built.index ∧
      q.built.mats[1]? = p.built.mats[0]? ∧
      buildDesignMatrices isnan P.na (rt = .dataframe) q.index [l, r] q.data = .ok q.built) (by
    intro p hp
    obtain ⟨l', r', cl', cr', heq, _, hp', he'⟩ := hpair p.data
    simp only [Option.some.injEq, List.cons.injEq, and_true] at heq
    obtain ⟨rfl, rfl⟩ := heq
    obtain ⟨x, y, hy, h⟩ := build_with_empty hp' (he' hlhs) (hb p hp)
    exact ⟨⟨p.data, p.index, ⟨[x, y], p.built.index⟩⟩, rfl, rfl, rfl, by simp [hy], h⟩)
  have e1 : ext.map (·.data) = parts.map (·.data) := by
    exact map_of_forall₂ (hext.imp fun _ _ h => h.1)
  have e2 : ext.map (·.index) = parts.map (·.index) := by
    exact map_of_forall₂ (hext.imp fun _ _ h => h.2.1)
  have e3 : ext.map (·.built.index) = parts.map (·.built.index) := by
    exact map_of_forall₂ (hext.imp fun _ _ h => h.2.2.1)
  have e4 : ext.map (·.built.mats[1]?) = parts.map (·.built.mats[0]?) := by
    exact map_of_forall₂ (hext.imp fun _ _ h => h.2.2.2.1)
  have hne : ext ≠ [] := by
    rintro rfl
    exact hparts (by simpa using hext)
  obtain ⟨t, eval, h1, h2, h3, h4, h5, _, h6⟩ := joined_pair hw hne hf hm (e1 ▸ hS) (e1 ▸ hdis) hrt (e2 ▸ hdi) (by
    intro q hq
    obtain ⟨p, _, hp⟩ := exists_mem_of_forall₂' hext hq
    exact hp.2.2.2.2)
  refine ⟨t.2, eval, ?_, h3, h5, ?_, h6.none, ?_⟩
  · simp only [dmatrix, h1, ok_bind, h4]
    simp only [ne_eq, ite_not]
    rw [if_pos (by omega)]
  · rw [← e4]
    exact h6.mat
  · rw [← e3]
    exact h6.labels

/-! ### Example -/

namespace ReorderSample

open BuilderSample HighSample

def firstRows : Data := [(1, 2, "u"), (3, 4, "w")]

def lastRows : Data := [(5, 99, "v"), (7, 8, "u")]

/-- The factors have on `old` their values on the two chunks put together. -/
theorem chunked (fs : List String) : Chunked setting setting [firstRows, lastRows] old fs where
  same := ⟨rfl, rfl, rfl, rfl, rfl, rfl⟩
  memorize eval h := ⟨eval, h, fun _ _ => rfl⟩
  values eval h f _ ss hss := by
    cases h
    simp only [List.mapM_cons, List.mapM_nil] at hss
    have hnum : ∀ g : ℚ × ℚ × String → ℚ,
        JoinedSeen ([firstRows, lastRows].map fun d : Data =>
          (⟨.raw (.array .number 1 1 (d.map fun r => .float (g r))), d.map fun r => [g r], none⟩ : Seen ℚ))
          ⟨.raw (.array .number 1 1 (old.map fun r => .float (g r))), old.map fun r => [g r], none⟩ := by
      intro g
      refine ⟨⟨[firstRows, lastRows].map fun d : Data => .array .number 1 1 (d.map fun r => .float (g r)), rfl, le_rfl,
        [firstRows, lastRows].map fun d : Data => d.map fun r => .float (g r), rfl, fun _ => rfl⟩, fun _ => rfl, by simp [JoinedLabels]⟩
    have hnone : ∀ g : ℚ × ℚ × String → ℚ, Unmixed setting.na
        (.raw (.array .number 1 1 (old.map fun r => .float (g r))) : CatValue (Contrast.Spec ℚ)) := by
      intro g
      refine .inr ?_
      simp [sniffed, withBools]
    by_cases h1 : f = "y"
    · simp only [look, if_pos h1] at hss ⊢
      cases hss
      exact ⟨_, rfl, hnum _, hnone _⟩
    by_cases h2 : f = "x"
    · simp only [look, if_neg h1, if_pos h2] at hss ⊢
      cases hss
      exact ⟨_, rfl, hnum _, hnone _⟩
    by_cases h3 : f = "a"
    · simp only [look, if_neg h1, if_neg h2, if_pos h3] at hss ⊢
      cases hss
      refine ⟨_, rfl, ⟨⟨[firstRows, lastRows].map fun d : Data => .array .other 1 1 (d.map fun r => .str r.2.2), rfl, le_rfl,
        [firstRows, lastRows].map fun d : Data => d.map fun r => .str r.2.2, rfl, fun _ => rfl⟩, ?_, by simp [JoinedLabels]⟩, .inr ?_⟩
      · rintro ⟨_, _, _, h⟩
        cases h
      · simp [sniffed, withBools, old, PyVal.key]
    · simp only [look, if_neg h1, if_neg h2, if_neg h3] at hss
      cases hss

def designs : Except Err (DesignInfo String Data ℚ × DesignInfo String Data ℚ) :=
  incrDbuilders setting [firstRows, lastRows] formula

def built (d : Data) (i : Option (List Build.Label)) : Except Err (Built ℚ) := do
  let p ← designs
  buildDesignMatrices isnan setting.na true i [p.1, p.2] d

theorem built_ok : isOk (built firstRows (labels ["p", "q"])) = true ∧ isOk (built lastRows (labels ["r", "s"])) = true := by
  decide +kernel

theorem designs_ok : isOk designs = true := by decide +kernel

end ReorderSample

open ReorderSample in
/-- Example for `chunks_together`: `y ~ 1 + a + x` on four rows in two chunks.  The level `v` occurs only in the second
chunk, and in a row that is dropped. -/
example : World setting ∧ Sound old formula ∧ (∀ fs, Chunked setting setting [firstRows, lastRows] old fs) ∧
    JoinedLabels [labels ["p", "q"], labels ["r", "s"]] (labels ["p", "q", "r", "s"]) ∧
    (∃ p, incrDbuilders setting [firstRows, lastRows] formula = .ok p ∧
      p.2.columnNames = ["Intercept", "a[T.v]", "a[T.w]", "x"]) ∧
    (∃ b, built firstRows (labels ["p", "q"]) = .ok b ∧ b.mats = [⟨2, [[1, 3]]⟩, ⟨2, [[1, 1], [0, 0], [0, 1], [2, 4]]⟩] ∧
      b.index = labels ["p", "q"]) ∧
    (∃ b, built lastRows (labels ["r", "s"]) = .ok b ∧ b.mats = [⟨1, [[7]]⟩, ⟨1, [[1], [0], [0], [8]]⟩] ∧ b.index = labels ["s"]) ∧
    ∃ t, dmatrices setting isnan (labels ["p", "q", "r", "s"]) old .dataframe formula = .ok t ∧
      t.1.mat = ⟨3, [[1, 3, 7]]⟩ ∧ t.2.mat = ⟨3, [[1, 1, 1], [0, 0, 0], [0, 1, 0], [2, 4, 8]]⟩ ∧ t.2.index = labels ["p", "q", "s"] :=
  ⟨world, sound, chunked, ⟨[["p", "q"].map .other, ["r", "s"].map .other], rfl, rfl⟩,
    ⟨getOk designs designs_ok, getOk_eq _, by decide +kernel⟩,
    ⟨getOk _ built_ok.1, getOk_eq _, by decide +kernel, by decide +kernel⟩,
    ⟨getOk _ built_ok.2, getOk_eq _, by decide +kernel, by decide +kernel⟩,
    getOk (dmatrices setting isnan (labels ["p", "q", "r", "s"]) old .dataframe formula) (by decide +kernel), getOk_eq _,
    by decide +kernel, by decide +kernel, by decide +kernel⟩

/-! ### Zeros and ones -/

namespace ReorderSample

/-- Enough of `str` for the example. -/
def shownDigit : PyVal → String
  | .int 0 => "0"
  | .int 1 => "1"
  | .int 2 => "2"
  | _ => "?"

def digits : Setting String (List PyVal) ℚ (Redundancy.Subterm String) :=
  { objects with default := .coding (Contrast.dummyCode shownDigit) (Contrast.treatment shownDigit none) }

def zeros : List PyVal := [.int 0, .int 1]

def twos : List PyVal := [.int 2, .int 0]

theorem zeros_ok : isOk (incrDbuilder digits [zeros, twos] cells) = true ∧ isOk (incrDbuilder digits [zeros ++ twos] cells) = true := by
  decide +kernel

end ReorderSample

open ReorderSample in
/-- **C66**, the condition `Unmixed` is needed: a list of objects that begins with a chunk of zeros and ones has the levels 0
and 1 (`CategoricalSniffer` stops there), although on the whole data 2 is a level, too.  The design lacks a column, and the
second chunk is rejected. -/
theorem chunks_of_zeros : ∃ d d' : DesignInfo String (List PyVal) ℚ, incrDbuilder digits [zeros, twos] cells = .ok d ∧
    incrDbuilder digits [zeros ++ twos] cells = .ok d' ∧ d.columnNames.length = 2 ∧ d'.columnNames.length = 3 ∧
    buildDesignMatrices (fun _ => false) digits.na false none [d] twos = .error .patsyError :=
  ⟨getOk _ zeros_ok.1, getOk _ zeros_ok.2, getOk_eq _, getOk_eq _, by decide +kernel, by decide +kernel, eq_of_failsWith (by decide +kernel)⟩

end Patsy.Props
