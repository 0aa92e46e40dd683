import Verif.Lemmas.BuildersOutcome

/-!
# C58: what may go wrong
-/

set_option linter.unusedSectionVars false

namespace Patsy.Props

open Patsy.Spec Patsy.Build Patsy.Desc Patsy.Cat Patsy.Redundancy Patsy.Outcome

variable {F D K H : Type} [DecidableEq F] [DecidableEq H]

/-- **C58**, first part.  If `design_matrix_builders` fails for different terms, then in one of the ways that
`BuildersFail` lists. -/
theorem builders_outcome {P : Setting F D K H} (hw : RealWorld P) {chunks : List D} {tls : List (List (Term F))}
    (hnd : ∀ tl ∈ tls, ∀ t ∈ tl, t.factors.Nodup)
    (hdis : ∀ tl ∈ tls, tl.Pairwise fun s t => Term.eqv s t = false)
    (hsep : ∀ eval types, LearnedFrom P chunks tls eval types → ∀ tl ∈ tls,
      Separates P.hash (fun f => (dictGet types.1 f).isSome) (tl.map (·.factors)))
    {e : Err} (h : designMatrixBuilders P chunks tls = .error e) : BuildersFail P chunks tls e := by
  have hmem : ∀ {f}, f ∈ P.visit (allFactors tls) ↔ f ∈ allFactors tls := fun {f} => (hw.visits _).mem_iff
  simp only [designMatrixBuilders, bind_error] at h
  rcases h with h | ⟨eval, he, h | ⟨types, ht, h | ⟨infos, hi, h⟩⟩⟩
  · exact .memorize h
  · obtain ⟨f, hf, d, hd, h⟩ := examineTypes_error hw.visits h
    have hf := hmem.mp hf
    rcases h with h | ⟨v, hv, h⟩
    · simp only [bind_error] at h
      rcases h with h | ⟨_, _, h⟩
      · exact .evaluate he hf hd h
      · cases h
    · simp only [bind_ok, pure_ok] at hv
      obtain ⟨s, hs, rfl⟩ := hv
      rcases h with h | ⟨h1, h2⟩
      · exact .refused he hf hd hs h
      · exact .huge he hf hd hs h2 h1
  · obtain ⟨p, hp, h⟩ := mapM_error h
    have hf : p.1 ∈ P.visit (allFactors tls) := by
      have : p.1 ∈ ((P.visit (allFactors tls)).zipIdx).map Prod.fst := List.mem_map_of_mem hp
      rwa [List.zipIdx_map_fst] at this
    simp only [bind_error] at h
    rcases h with h | ⟨_, _, h⟩
    · have htype : typeOf types p.1 = none ∧ e = .assertionError := by
        simp only [factorInfo] at h
        split at h
        · cases h
        · rename_i hn
          split at h
          · rename_i hc
            cases h
            exact ⟨by simp [typeOf, hn, hc], rfl⟩
          · cases h
      refine .noData ?_ (hmem.mp hf) htype.2
      by_contra hc
      exact examined_some hw.visits (visited_nodup hw.visits tls) ht hf hc htype.1
    · cases h
  · obtain ⟨tl, htl, h⟩ := mapM_error h
    have hl : LearnedFrom P chunks tls eval types := ⟨he, ht⟩
    have hall : ∀ t ∈ tl, ∀ f ∈ t.factors, f ∈ allFactors tls := fun t ht f hf => allFactors_mem.mpr ⟨tl, htl, t, ht, hf⟩
    have hex : ∀ t ∈ tl, ∀ f ∈ t.factors, Examined types.1 (coderOf P.default types.2) infos f := by
      intro t ht' f hf
      obtain ⟨h1, h2⟩ := examined_factor hw hi (hall t ht' f hf)
      refine ⟨h1, fun hn => ?_, fun hn full cm hcm => (coder_real hw hl (hall t ht' f hf) hn hcm).suffixes⟩
      obtain ⟨fi, levels, _, h3, h4, h5, _⟩ := h2 hn
      exact ⟨fi, _, h3, h4, h5⟩
    rcases makeDesign_error (hnd tl htl) (hdis tl htl) (hsep eval types hl tl htl) hex h with
      ⟨t, ht', f, hf, hn, full, h⟩ | ⟨hk, t, ht', f, hf, hn, fi, k, h1, h2, full, cm, hcm, h3⟩ | ⟨hk, hread⟩
    · obtain ⟨_, levels, c, _, _, _, h4⟩ := (examined_factor hw hi (hall t ht' f hf)).2 hn
      rw [typeOf_none_of_nums hn full P.default h4] at h
      exact .contrast hl (hall t ht' f hf) h4 h
    · obtain ⟨fi', levels, c, h4, _, h5, h6⟩ := (examined_factor hw hi (hall t ht' f hf)).2 hn
      rw [h1] at h4
      cases h4
      rw [h2] at h5
      cases h5
      rw [typeOf_none_of_nums hn full P.default h6] at hcm
      exact .rows hl (hall t ht' f hf) h6 hcm h3 hk
    · exact .names hl htl hread hk

/-- A failure of the build that comes from a factor. -/
theorem factor_fails {na : NAAction} {P : Setting F D K H} {chunks : List D} {tls : List (List (Term F))}
    {eval : F → D → Except Err (Seen K)} {types : Types F K} (hl : LearnedFrom P chunks tls eval types) {f : F}
    (hf : f ∈ allFactors tls) {uid : Nat} {fi : FactorInfo F D K} {data : D} {e : Err}
    (hfi : factorInfo eval types.1 types.2 uid f = .ok fi) (h : fi.eval na.types data = .error e) :
    BuildFail P chunks tls data e := by
  rcases (factorInfo_ok hfi).2.2.2 with ⟨n, _, _, h3⟩ | ⟨levels, c, h1, _, h3⟩
  · rw [h3] at h
    simp only [bind_error] at h
    rcases h with h | ⟨s, _, h⟩
    · exact .evaluate hl.1 hf h
    · refine .refused ?_
      simp only [numericValue] at h
      split at h
      · split at h <;> cases h
        rfl
      · cases h; rfl
  · rw [h3] at h
    simp only [bind_error] at h
    rcases h with h | ⟨s, hs, h⟩
    · exact .evaluate hl.1 hf h
    · simp only [categoricalValue, bind_error] at h
      rcases h with h | ⟨_, _, h⟩
      · exact .unusable hl hf h1 hs (categoricalToInt_error h)
      · cases h

/-- **C58**, second part.  Designs that `design_matrix_builders` has made are well-formed: if `build_design_matrices`
fails on any data, then with a `PatsyError`, because a factor cannot be evaluated, or because of one of the two kinds of
values that `Unusable` tells. -/
theorem build_outcome [Mul K] [One K] {P : Setting F D K H} (hw : RealWorld P) {chunks : List D}
    {tls : List (List (Term F))} (hne : tls ≠ []) (hnd : ∀ tl ∈ tls, ∀ t ∈ tl, t.factors.Nodup)
    {dis : List (DesignInfo F D K)} (h : designMatrixBuilders P chunks tls = .ok dis)
    {isnan : K → Bool} {na : NAAction} {frame : Bool} {dataIndex : Option (List Build.Label)} {data : D} {e : Err}
    (he : buildDesignMatrices isnan na frame dataIndex dis data = .error e) : BuildFail P chunks tls data e := by
  obtain ⟨cs, hcs, _, _, hlen⟩ := builders_sound hw.toWorld hnd h
  obtain ⟨h1, h2, h3, eval, types, hl, h4⟩ := builders_real hw hnd h hcs
  have hdis : dis ≠ [] := by
    rintro rfl
    cases hcs
    cases hlen
    exact hne rfl
  rcases build_error hdis hcs h1 (h2 _ data) h3 (fun fi hfi v i hv hk => by
      obtain ⟨f, _, uid, h5⟩ := h4 fi hfi
      exact factorInfo_fits h5 (fun s hs => hw.rows _ _ hl.1 f data s hs)
        (fun s cats codes hs hv => hw.codes _ _ hl.1 f data s cats codes hs hv) hv hk)
    (fun fi hfi => by
      obtain ⟨f, _, uid, h5⟩ := h4 fi hfi
      exact factorInfo_kind h5 _ data) he with h' | ⟨fi, hfi, h'⟩
  · exact .refused h'
  · obtain ⟨f, hf, uid, h5⟩ := h4 fi hfi
    exact factor_fails hl hf h5 h'

/-- **C58**, third part.  The matrices are made exactly if the factors can be evaluated together (`Evaluation`: values of
the right kind, as many rows and the same index) and no row is missing in case that this is to be reported. -/
theorem build_succeeds_iff [Mul K] [One K] {P : Setting F D K H} (hw : RealWorld P) {chunks : List D}
    {tls : List (List (Term F))} (hne : tls ≠ []) (hnd : ∀ tl ∈ tls, ∀ t ∈ tl, t.factors.Nodup)
    {dis : List (DesignInfo F D K)} (h : designMatrixBuilders P chunks tls = .ok dis)
    {cs : List (Coding F D K)} (hcs : List.Forall₂ IsDesign dis cs)
    {isnan : K → Bool} {na : NAAction} {frame : Bool} {dataIndex : Option (List Build.Label)} {data : D} :
    (∃ b, buildDesignMatrices isnan na frame dataIndex dis data = .ok b) ↔
      ∃ V n idx, Evaluation na.types (Spec.factorsOf cs) dataIndex data V n idx ∧
        (na.onNA = .raise → completeRows na isnan (Spec.factorsOf cs) V n = List.range n) := by
  obtain ⟨cs', hcs', _, _, hlen⟩ := builders_sound hw.toWorld hnd h
  obtain ⟨h1, h2, h3, eval, types, hl, h4⟩ := builders_real hw hnd h hcs
  have hdis : dis ≠ [] := by
    rintro rfl
    cases hcs'
    cases hlen
    exact hne rfl
  exact build_ok_iff hdis hcs h1 (h2 _ data) h3 fun fi hfi v i hv hk => by
    obtain ⟨f, _, uid, h5⟩ := h4 fi hfi
    exact factorInfo_fits h5 (fun s hs => hw.rows _ _ hl.1 f data s hs)
      (fun s cats codes hs hv => hw.codes _ _ hl.1 f data s cats codes hs hv) hv hk

theorem tryIncrBuilders_model (P : Setting F D K H) (chunks : List D) {f : FormulaLike F D K} {m : ModelDesc F}
    (hm : modelOf f = some m) : tryIncrBuilders P chunks f = descBuilders P chunks m := by
  cases f with
  | provider r =>
    cases r with
    | error e => simp [modelOf] at hm
    | ok o =>
      cases o with
      | none => simp [modelOf] at hm
      | some m' =>
        simp only [modelOf, Option.some.injEq] at hm
        subst hm
        simp only [tryIncrBuilders, isDesc, ok_bind]
  | text r =>
    cases r with
    | error e => simp [modelOf] at hm
    | ok m' =>
      simp only [modelOf, Option.some.injEq] at hm
      subst hm
      simp only [tryIncrBuilders, ok_bind]
  | desc m' =>
    simp only [modelOf, Option.some.injEq] at hm
    subst hm
    rfl
  | _ => simp [modelOf] at hm

/-- **C58** for `dmatrix` and `dmatrices`: a call with a model description fails with a `PatsyError` or in one of the ways
that `BuildersFail` and `BuildFail` list. -/
theorem formula_outcome [Mul K] [One K] {P : Setting F D K H} (hw : RealWorld P) {isnan : K → Bool}
    {dataIndex : Option (List Build.Label)} {data : D} {rt : ReturnType} {f : FormulaLike F D K} {m : ModelDesc F}
    (hm : modelOf f = some m) (hnd : ∀ t ∈ m.lhs ++ m.rhs, t.factors.Nodup)
    (hdl : m.lhs.Pairwise fun s t => Term.eqv s t = false) (hdr : m.rhs.Pairwise fun s t => Term.eqv s t = false)
    (hsep : ∀ eval types, LearnedFrom P [data] [m.lhs, m.rhs] eval types → ∀ ts ∈ [m.lhs, m.rhs],
      Separates P.hash (fun f => (dictGet types.1 f).isSome) (ts.map (·.factors))) {e : Err}
    (h : dmatrix P isnan dataIndex data rt f = .error e ∨ dmatrices P isnan dataIndex data rt f = .error e) :
    e = .patsyError ∨ BuildersFail P [data] [m.lhs, m.rhs] e ∨ BuildFail P [data] [m.lhs, m.rhs] data e := by
  have hnd' : ∀ tl ∈ [m.lhs, m.rhs], ∀ t ∈ tl, t.factors.Nodup := by
    intro tl htl t ht
    simp only [List.mem_cons, List.not_mem_nil, or_false] at htl
    rcases htl with rfl | rfl
    · exact hnd t (by simp [ht])
    · exact hnd t (by simp [ht])
  have hdis : ∀ tl ∈ [m.lhs, m.rhs], tl.Pairwise fun s t => Term.eqv s t = false := by
    intro tl htl
    simp only [List.mem_cons, List.not_mem_nil, or_false] at htl
    rcases htl with rfl | rfl
    · exact hdl
    · exact hdr
  have h : e = .patsyError ∨ highLevelDesign P isnan dataIndex data rt f = .error e := by
    rcases h with h | h
    · simp only [dmatrix, bind_error] at h
      rcases h with h | ⟨t, _, h⟩
      · exact .inr h
      · split at h <;> cases h
        exact .inl rfl
    · simp only [dmatrices, bind_error] at h
      rcases h with h | ⟨t, _, h⟩
      · exact .inr h
      · split at h <;> cases h
        exact .inl rfl
  rcases h with h | h
  · exact .inl h
  have htry := tryIncrBuilders_model P [data] hm
  unfold highLevelDesign at h
  split at h
  · cases h; exact .inl rfl
  simp only [htry, descBuilders, bind_error, bind_ok, pure_ok] at h
  rcases h with (h | ⟨_, _, h⟩) | ⟨_, ⟨dis, hd, rfl⟩, h⟩
  · exact .inr (.inl (builders_outcome hw hnd' hdis hsep h))
  · cases h
  · simp only [bind_error] at h
    rcases h with h | ⟨b, hb, h⟩
    · exact .inr (.inr (build_outcome hw (by simp) hnd' hd h))
    · exfalso
      obtain ⟨cs, hcs, h1, h2, hlen⟩ := builders_sound hw.toWorld hnd' hd
      obtain ⟨cl, cr, rfl, _⟩ := forall₂_two hlen
      obtain ⟨l, r, rfl, _⟩ := forall₂_two hcs.flip
      obtain ⟨_, _, _, _, _, hmats, _⟩ := (build_keeps_complete_rows (by simp) hcs h1 (h2 _ data)).mp hb
      obtain ⟨x, y, hxy, _⟩ := forall₂_two hmats
      simp only [asTables, hxy] at h
      cases h

/-! ### The codings that come with patsy -/

section builtin

open Patsy.Contrast

theorem made_real {A : Type} {rows : List (List A)} {n : Nat} {sfx : List String} (hr : ∀ r ∈ rows, r.length = n)
    {cm : ContrastMatrix A} (h : ContrastMatrix.make rows n sfx = .ok cm) : RealMatrix cm := by
  simp only [ContrastMatrix.make] at h
  split at h
  · cases h
  · rename_i hn
    cases h
    exact ⟨hr, (not_not.mp hn).symm⟩

theorem matOf_rows {A : Type} (m n : Nat) (f : Nat → Nat → A) : ∀ r ∈ matOf m n f, r.length = n := by
  simp [matOf]

theorem withOnes_rows {A : Type} [Field A] {m : List (List A)} {n : Nat} (h : ∀ r ∈ m, r.length = n) :
    ∀ r ∈ withOnes m, r.length = n + 1 := by
  intro r hr
  simp only [withOnes, List.mem_map] at hr
  obtain ⟨r', hr', rfl⟩ := hr
  simp [h r' hr']

theorem spliced_rows {A : Type} {m : List (List A)} {n r : Nat} (h : ∀ x ∈ m, x.length = n) (a : A) :
    ∀ x ∈ m.take r ++ [List.replicate n a] ++ m.drop r, x.length = n := by
  intro x hx
  simp only [List.mem_append, List.mem_singleton] at hx
  rcases hx with (hx | rfl) | hx
  · exact h x (List.mem_of_mem_take hx)
  · simp
  · exact h x (List.mem_of_mem_drop hx)

/-- The codings that come with patsy meet the hypothesis of C58 about contrasts. -/
theorem builtin_real {A : Type} [Field A] (readable : PyVal → String) (ref : Option PyVal) (argsort : List Nat → List Nat) :
    RealContrast (K := A) (.coding (dummyCode readable) (treatment readable ref)) ∧
    RealContrast (K := A) (.coding (sumWith readable ref) (sumWithout readable ref)) ∧
    RealContrast (K := A) (.coding (helmertWith readable) (helmertWithout readable)) ∧
    RealContrast (K := A) (.coding (diffWith readable argsort) (diffWithout readable argsort)) ∧
    ∀ qr scores, RealContrast (.coding (poly qr scores true) (poly qr scores false)) := by
  have hsum : ∀ levels cm, sumWithout (K := A) readable ref levels = .ok cm → RealMatrix cm := by
    intro levels cm h
    simp only [sumWithout, bind_ok] at h
    obtain ⟨o, _, h⟩ := h
    split at h
    · cases h
    · exact made_real (spliced_rows (matOf_rows _ _ _) _) h
  refine ⟨?_, ?_, ?_, ?_, ?_⟩
  · rintro levels cm (h | h)
    · exact made_real (matOf_rows _ _ _) h
    · simp only [treatment, bind_ok] at h
      obtain ⟨o, _, h⟩ := h
      split at h
      · cases h
      · exact made_real (spliced_rows (matOf_rows _ _ _) _) h
  · rintro levels cm (h | h)
    · simp only [sumWith, bind_ok] at h
      obtain ⟨c, hc, h⟩ := h
      exact made_real (withOnes_rows (hsum levels c hc).rows) h
    · exact hsum levels cm h
  · rintro levels cm (h | h)
    · simp only [helmertWith] at h
      split at h
      · cases h
      · rename_i hn
        refine made_real (fun r hr => ?_) h
        rw [withOnes_rows (matOf_rows _ _ _) r hr]
        omega
    · simp only [helmertWithout] at h
      split at h
      · cases h
      · exact made_real (matOf_rows _ _ _) h
  · rintro levels cm (h | h)
    · simp only [diffWith] at h
      split at h
      · cases h
      · rename_i hn
        refine made_real (fun r hr => ?_) h
        rw [withOnes_rows (matOf_rows _ _ _) r hr]
        omega
    · simp only [diffWithout] at h
      split at h
      · cases h
      · exact made_real (matOf_rows _ _ _) h
  · rintro qr scores levels cm (h | h)
    · simp only [poly] at h
      split at h
      · cases h
      · exact made_real (matOf_rows _ _ _) h
    · simp only [poly] at h
      split at h
      · cases h
      · simp only [Bool.false_eq_true, if_false] at h
        exact made_real (matOf_rows _ _ _) h

end builtin

/-! ### Examples -/

namespace OutcomeSample

open BuilderSample

theorem sample_world : RealWorld setting where
  visits := visits
  fits := by
    rintro fs eval h f d s hs l hl
    cases h
    simp only [look] at hs
    split at hs
    · cases hs; cases hl
    · split at hs
      · cases hs; cases hl
      · split at hs <;> cases hs
        cases hl
  codes := by
    rintro fs eval h f d s cats codes hs hv
    cases h
    simp only [look] at hs
    split at hs
    · cases hs; cases hv
    · split at hs
      · cases hs; cases hv
      · split at hs <;> cases hs
        cases hv
  rows := by
    rintro fs eval h f d s hs ndim ncols vals hv
    cases h
    simp only [look] at hs
    split at hs
    · cases hs
      cases hv
      simp only [number, List.mem_map]
      rintro r ⟨_, ⟨_, _, rfl⟩, rfl⟩
      rfl
    · split at hs
      · cases hs
        cases hv
        simp only [number, List.mem_map]
        rintro r ⟨_, ⟨_, _, rfl⟩, rfl⟩
        rfl
      · split at hs <;> cases hs
        cases hv
  default := (builtin_real _ none id).1
  contrasts := by
    rintro fs eval h f d s hs c hc
    cases h
    simp only [look] at hs
    split at hs
    · cases hs; cases hc
    · split at hs
      · cases hs; cases hc
      · split at hs <;> cases hs
        cases hc

/-- `C(b, levels=["u", "v"])` for boolean `b`, and `C(z, m)` for a matrix `m` with two rows. -/
def boxed (f : String) (_ : Data) : Except Err (Seen ℚ) :=
  if f = "b" then .ok ⟨.box (.array .boolDtype 1 1 [.bool true, .bool false]) none (some [.str "u", .str "v"]), [], none⟩
  else .ok ⟨.box (.array .other 1 1 [.str "u", .str "v", .str "w"]) (some (.matrix ⟨[[0], [1]], 1, ["[1]"]⟩)) none, [], none⟩

def boxSetting : Setting String Data ℚ (Redundancy.Subterm String) := { setting with memorize := fun _ => .ok boxed }

theorem box_world : RealWorld boxSetting where
  visits := visits
  fits := by
    rintro fs eval h f d s hs l hl
    cases h
    simp only [boxed] at hs
    split at hs <;> cases hs <;> cases hl
  codes := by
    rintro fs eval h f d s cats codes hs hv
    cases h
    simp only [boxed] at hs
    split at hs <;> cases hs <;> cases hv
  rows := by
    rintro fs eval h f d s hs ndim ncols vals hv
    cases h
    simp only [boxed] at hs
    split at hs <;> cases hs <;> cases hv
  default := (builtin_real _ none id).1
  contrasts := by
    rintro fs eval h f d s hs c hc
    cases h
    simp only [boxed] at hs
    split at hs
    · cases hs; cases hc
    · cases hs
      cases hc
      exact ⟨by simp, rfl⟩

end OutcomeSample

open OutcomeSample BuilderSample in
/-- Example: the hypotheses hold for `y ~ 1 + a + a:x` and for a formula with an unknown variable, which is reported as
such. -/
example : RealWorld setting ∧ (∀ tl ∈ terms, ∀ t ∈ tl, t.factors.Nodup) ∧
    (∀ tl ∈ terms, tl.Pairwise fun s t => Term.eqv s t = false) ∧
    (∀ isNum, ∀ tl ∈ terms, Separates setting.hash isNum (tl.map (·.factors))) ∧
    isOk (designMatrixBuilders setting chunks terms) = true ∧
    designMatrixBuilders setting chunks [[⟨["x"]⟩, ⟨["x", "z"]⟩]] = .error .nameError :=
  ⟨sample_world, by decide, by decide, fun _ _ _ _ _ _ _ h => minusPiece_injective h, by decide +kernel,
    eq_of_failsWith (by decide +kernel)⟩

open OutcomeSample BuilderSample in
/-- Example: `C(b, levels=["u", "v"])` with boolean values is accepted as a model; to build the matrix is a `KeyError`. -/
example : RealWorld boxSetting ∧ ∃ dis, designMatrixBuilders boxSetting chunks [[⟨["b"]⟩]] = .ok dis ∧
    buildDesignMatrices (fun _ => false) {} false none dis [] = .error .keyError ∧
    IsBoolArray (Cn := ℚ) (.box (.array .boolDtype 1 1 [.bool true, .bool false]) none (some [.str "u", .str "v"])) ∧
    LacksBools [.str "u", .str "v"] := by
  have h : isOk (designMatrixBuilders boxSetting chunks [[⟨["b"]⟩]]) = true := by decide +kernel
  refine ⟨box_world, getOk (designMatrixBuilders boxSetting chunks [[⟨["b"]⟩]]) (by decide +kernel), getOk_eq h,
    eq_of_failsWith (by decide +kernel), trivial, true, by decide⟩

open OutcomeSample BuilderSample in
/-- Example: a contrast matrix with two rows for three levels is a `ValueError`; without data there is an
`AssertionError`. -/
example : RealWorld boxSetting ∧ designMatrixBuilders boxSetting chunks [[⟨["z"]⟩]] = .error .valueError ∧
    designMatrixBuilders setting [] terms = .error .assertionError :=
  ⟨box_world, eq_of_failsWith (by decide +kernel), eq_of_failsWith (by decide +kernel)⟩

end Patsy.Props
