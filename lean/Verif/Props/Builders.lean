import Verif.Lemmas.Builders
import Verif.Props.Missing
import Verif.Props.TermOrder
import Verif.Props.Contrasts

/-!
# C46 and C47: what `design_matrix_builders` finds out about the factors
-/

namespace Patsy.Props

open Patsy.Desc Patsy.Cat Patsy.Build Patsy.Spec

variable {F D K Cn : Type} [DecidableEq F]

/-! ### C47: every factor is examined by itself -/

/-- **C47**.  What `_examine_factor_types` reports for a factor (`typeOf`) is what looking at the values of this factor
alone, chunk by chunk, reveals (`examineFactor`, whose results are described by C14 and C15). -/
theorem examined_alone {na : NAAction} {order : List PyVal → List PyVal} {visit : List F → List F}
    (hv : ∀ l, (visit l).Perm l) {eval : F → D → Except Err (CatValue Cn)} {chunks : List D} {fs : List F} (hn : fs.Nodup)
    {r} (h : examineTypes na order visit eval chunks fs = .ok r) {f : F} (hf : f ∈ fs)
    {vs : List (CatValue Cn)} (hvs : chunks.mapM (eval f) = .ok vs) :
    examineFactor na order none vs = .ok (typeOf r f) := by
  rw [ownLoop_examineFactor, ← ownLoop_values hvs]
  exact examineTypes_own hv hn h hf

/-- **C47**.  The type of a factor depends neither on the other factors nor on the order in which Python goes through
them: two runs agree about the factors that they have in common. -/
theorem examined_independent {na : NAAction} {order : List PyVal → List PyVal} {visit visit' : List F → List F}
    (hv : ∀ l, (visit l).Perm l) (hv' : ∀ l, (visit' l).Perm l) {eval eval' : F → D → Except Err (CatValue Cn)}
    {chunks : List D} {fs fs' : List F} (hn : fs.Nodup) (hn' : fs'.Nodup) {r r'}
    (h : examineTypes na order visit eval chunks fs = .ok r)
    (h' : examineTypes na order visit' eval' chunks fs' = .ok r') {f : F} (hf : f ∈ fs) (hf' : f ∈ fs')
    (he : eval f = eval' f) : typeOf r f = typeOf r' f := by
  have h1 := examineTypes_own hv hn h hf
  have h2 := examineTypes_own hv' hn' h' hf'
  rw [he, h2] at h1
  exact (Except.ok.inj h1).symm

/-- **C47**.  The examination of several factors fails exactly if that of one of them fails. -/
theorem examined_iff {na : NAAction} {order : List PyVal → List PyVal} {visit : List F → List F}
    (hv : ∀ l, (visit l).Perm l) {eval : F → D → Except Err (CatValue Cn)} {chunks : List D} {fs : List F}
    (hn : fs.Nodup) :
    isOk (examineTypes na order visit eval chunks fs) = true ↔
      ∀ f ∈ fs, isOk (examineTypes na order visit eval chunks [f]) = true := by
  have hok : ∀ l : List F, isOk (examineTypes na order visit eval chunks l) = true ↔
      ∃ r, examineTypes na order visit eval chunks l = .ok r := by
    intro l
    cases examineTypes na order visit eval chunks l <;> simp [isOk]
  rw [hok, examineTypes_ok_iff hv hn]
  refine forall₂_congr fun f _ => ?_
  rw [hok, examineTypes_ok_iff hv (by simp)]
  simp

/-! ### C46: the designs that are made together -/

/-- Whether a factor info is numerical. -/
def isNumerical (fi : FactorInfo F D K) : Bool :=
  match fi.type with
  | .numerical _ => true
  | .categorical _ => false

theorem coding_of_isDesign {d : DesignInfo F D K} {c : Coding F D K} (h : IsDesign d c) : d.coding = some c := by
  obtain ⟨name, names, h⟩ := h
  exact (make_good.mp h).coding

theorem builders_codings {H : Type} [DecidableEq H] {P : Setting F D K H} {types : List (F × Nat) × _}
    {infos : List (F × FactorInfo F D K)} {tls : List (List (Term F))} {dis : List (DesignInfo F D K)}
    (hd : List.Forall₂ (fun tl d => makeDesign P.name P.hash types.1 (coderOf P.default types.2) infos tl = .ok d) tls dis)
    (hnd : ∀ tl ∈ tls, ∀ t ∈ tl, t.factors.Nodup) :
    ∃ cs, List.Forall₂ IsDesign dis cs ∧ List.Forall₂ (fun tl c =>
      (∀ p ∈ c.factorInfos, dictGet infos p.1 = some p.2) ∧
      (∀ f, f ∈ c.factorInfos.map Prod.fst ↔ ∃ t ∈ tl, f ∈ t.factors) ∧
      c.termCodings.Pairwise (fun p q => Term.eqv p.1 q.1 = false) ∧
      InOrder (fun f => (dictGet types.1 f).isSome) tl (c.termCodings.map Prod.fst)) tls cs := by
  induction hd with
  | nil => exact ⟨[], .nil, .nil⟩
  | @cons tl d tls dis h1 h2 ih =>
    obtain ⟨cs, hcs, hall⟩ := ih (fun tl h => hnd tl (List.mem_cons_of_mem _ h))
    obtain ⟨c, hc, ⟨names, hm⟩, h3, h4⟩ := makeDesign_isDesign h1
    obtain ⟨c', hc', h5, h6⟩ := design_term_order (hnd tl (by simp)) h1
    obtain rfl : c = c' := Option.some.inj (hc.symm.trans hc')
    exact ⟨c :: cs, .cons ⟨_, _, hm⟩ hcs, .cons ⟨h3, h4, h5, h6⟩ hall⟩

/-- Of an `NA_action`, `categorical_to_int` only uses the `NA_types`. -/
theorem categoricalToInt_types {Cn : Type} {na na' : NAAction} (h : na.types = na'.types) (levels : List PyVal)
    (v : Cat.CatValue Cn) : Cat.categoricalToInt na levels v = Cat.categoricalToInt na' levels v := by
  have h1 : na.nan = na'.nan := congrArg NATypes.nan h
  have h2 : na.none = na'.none := congrArg NATypes.none h
  have h3 : ∀ d, Cat.valueToInt na d = Cat.valueToInt na' d := by
    intro d
    funext v
    simp only [Cat.valueToInt, Cat.isCategoricalNA, h1, h2]
  have h4 : Cat.arrayToInt na levels = Cat.arrayToInt na' levels := by
    funext k n l
    simp only [Cat.arrayToInt, h3]
  cases v with
  | raw r => cases r <;> simp only [Cat.categoricalToInt, h4]
  | box r c l => cases r <;> simp only [Cat.categoricalToInt, h4]

theorem factorInfo_ok {eval : F → D → Except Err (Seen K)} {nums cats} {uid : Nat} {f : F}
    {fi : FactorInfo F D K} (h : factorInfo eval nums cats uid f = .ok fi) :
    fi.uid = uid ∧ fi.factor = f ∧ isNumerical fi = (dictGet nums f).isSome ∧
    ((∃ n, typeOf (nums, cats) f = some (.numerical n) ∧ fi.type = .numerical n ∧
        ∀ ty d, fi.eval ty d = do numericValue (← eval f d)) ∨
      ∃ levels c, typeOf (nums, cats) f = some (.categorical levels c) ∧ fi.type = .categorical levels.length ∧
        ∀ (na : NAAction) d, fi.eval na.types d = do categoricalValue na levels (← eval f d)) := by
  simp only [factorInfo] at h
  cases hn : dictGet nums f with
  | some n =>
    rw [hn] at h
    cases h
    refine ⟨rfl, rfl, rfl, .inl ⟨n, ?_, rfl, fun _ _ => rfl⟩⟩
    simp [typeOf, hn]
  | none =>
    rw [hn] at h
    cases hc : dictGet cats f with
    | none => rw [hc] at h; cases h
    | some lc =>
      rw [hc] at h
      cases h
      refine ⟨rfl, rfl, rfl, .inr ⟨lc.1, lc.2, ?_, rfl, fun na d => ?_⟩⟩
      · simp [typeOf, hn, hc]
      · simp only [categoricalValue]
        simp only [categoricalToInt_types (na := ⟨.drop, na.types.nan, na.types.none⟩) (na' := na) rfl]

/-- **C46**.  The designs that one call of `design_matrix_builders` makes from several lists of terms are accepted by the
constructor; a design has exactly the factors of its terms; its terms come in the order of C18, and numerical and
categorical factors are told apart in the same way for all designs; a factor that occurs in several designs is the
same object (`FactorInfo`) in all of them, and different factors are different objects.  So the hypotheses of C15 about
designs are met by what `design_matrix_builders` returns. -/
theorem builders_consistent {H : Type} [DecidableEq H] {P : Setting F D K H} (hv : ∀ l, (P.visit l).Perm l)
    {chunks : List D} {tls : List (List (Term F))} (hnd : ∀ tl ∈ tls, ∀ t ∈ tl, t.factors.Nodup)
    {dis : List (DesignInfo F D K)} (h : designMatrixBuilders P chunks tls = .ok dis) :
    ∃ cs, List.Forall₂ IsDesign dis cs ∧ SameIdentity (factorsOf cs) ∧
      (∀ c ∈ cs, ∀ c' ∈ cs, ∀ f fi fi', (f, fi) ∈ c.factorInfos → (f, fi') ∈ c'.factorInfos → fi = fi') ∧
      (∀ c ∈ cs, ∀ p ∈ c.factorInfos, p.2.factor = p.1) ∧
      ∃ isNum : F → Bool, (∀ c ∈ cs, ∀ p ∈ c.factorInfos, isNumerical p.2 = isNum p.1) ∧
        List.Forall₂ (fun tl c => (∀ f, f ∈ c.factorInfos.map Prod.fst ↔ ∃ t ∈ tl, f ∈ t.factors) ∧
          c.termCodings.Pairwise (fun p q => Term.eqv p.1 q.1 = false) ∧
          InOrder isNum tl (c.termCodings.map Prod.fst)) tls cs := by
  obtain ⟨eval, types, infos, _, _, hinfo, hd⟩ := builders_ok hv h
  obtain ⟨cs, hcs, hall⟩ := builders_codings hd hnd
  have hget : ∀ c ∈ cs, ∀ p ∈ c.factorInfos, dictGet infos p.1 = some p.2 := by
    intro c hc p hp
    obtain ⟨i, hi, rfl⟩ := List.getElem_of_mem hc
    have := List.Forall₂.get hall (i := i) (by rw [hall.length_eq]; exact hi) hi
    exact this.1 p hp
  refine ⟨cs, hcs, ?_, ?_, ?_, fun f => (dictGet types.1 f).isSome, ?_, ?_⟩
  · intro a ha b hb hab
    simp only [Spec.factorsOf, List.mem_flatMap, List.mem_map] at ha hb
    obtain ⟨c, hc, ⟨f, a'⟩, hp, rfl⟩ := ha
    obtain ⟨c', hc', ⟨g, b'⟩, hq, rfl⟩ := hb
    have h1 := hget c hc _ hp
    have h2 := hget c' hc' _ hq
    simp only at h1 h2 hab ⊢
    obtain ⟨hf, h3⟩ := hinfo _ _ h1
    obtain ⟨hg, h4⟩ := hinfo _ _ h2
    rw [(factorInfo_ok h3).1, (factorInfo_ok h4).1] at hab
    have hfg : f = g := (List.idxOf_inj ((hv _).mem_iff.mpr hf)).mp hab
    subst hfg
    exact Option.some.inj (h1.symm.trans h2)
  · intro c hc c' hc' f fi fi' h1 h2
    exact Option.some.inj ((hget c hc _ h1).symm.trans (hget c' hc' _ h2))
  · intro c hc p hp
    exact (factorInfo_ok (hinfo _ _ (hget c hc p hp)).2).2.1
  · intro c hc p hp
    exact (factorInfo_ok (hinfo _ _ (hget c hc p hp)).2).2.2.1
  · exact hall.imp fun tl c h => h.2

/-- A factor info treats the factor as a factor of type `T` with the values `ev`, whatever the `NA_action`. -/
def TreatedAs (ev : D → Except Err (Seen K)) (fi : FactorInfo F D K) : FactorType (Contrast.Spec K) → Prop
  | .numerical n => fi.type = .numerical n ∧ ∀ ty d, fi.eval ty d = do numericValue (← ev d)
  | .categorical levels _ =>
    fi.type = .categorical levels.length ∧
      ∀ (na : NAAction) d, fi.eval na.types d = do categoricalValue na levels (← ev d)

theorem builders_own {H : Type} [DecidableEq H] {P : Setting F D K H} (hv : ∀ l, (P.visit l).Perm l)
    {chunks : List D} {tls : List (List (Term F))} {dis : List (DesignInfo F D K)}
    (h : designMatrixBuilders P chunks tls = .ok dis) :
    ∃ eval, P.memorize (P.visit (allFactors tls)) = .ok eval ∧
      ∀ d ∈ dis, ∀ c, d.coding = some c → ∀ p ∈ c.factorInfos, ∃ T,
        (ownLoop P.na (fun d => do pure (← eval p.1 d).value) chunks (.working none) >>=
          fun o => pure (ownResult P.order o)) = .ok (some T) ∧ TreatedAs (eval p.1) p.2 T := by
  obtain ⟨eval, types, infos, he, ht, hinfo, hd⟩ := builders_ok hv h
  refine ⟨eval, he, ?_⟩
  intro d hd' c hc p hp
  obtain ⟨i, hi, rfl⟩ := List.getElem_of_mem hd'
  have := List.Forall₂.get hd (i := i) (by rw [hd.length_eq]; exact hi) hi
  obtain ⟨c', hc', _, h3, _⟩ := makeDesign_isDesign this
  obtain rfl : c = c' := Option.some.inj (hc.symm.trans hc')
  obtain ⟨hf, hfi⟩ := hinfo _ _ (h3 p hp)
  have hnd : (P.visit (allFactors tls)).Nodup := (hv _).nodup_iff.mpr (allFactors_nodup tls)
  have hown := examineTypes_own hv hnd ht ((hv _).mem_iff.mpr hf)
  rcases (factorInfo_ok hfi).2.2.2 with ⟨n, h1, h2, h4⟩ | ⟨levels, cn, h1, h2, h4⟩
  · exact ⟨_, hown.trans (congrArg Except.ok h1), h2, h4⟩
  · exact ⟨_, hown.trans (congrArg Except.ok h1), h2, h4⟩

/-- **C47** for the finished designs: a factor of a design is numerical or categorical, with the number of columns or
the levels that its own values show, and is evaluated accordingly. -/
theorem builders_treat {H : Type} [DecidableEq H] {P : Setting F D K H} (hv : ∀ l, (P.visit l).Perm l)
    {chunks : List D} {tls : List (List (Term F))} {dis : List (DesignInfo F D K)}
    (h : designMatrixBuilders P chunks tls = .ok dis) :
    ∃ eval, P.memorize (P.visit (allFactors tls)) = .ok eval ∧
      ∀ d ∈ dis, ∀ c, d.coding = some c → ∀ p ∈ c.factorInfos, ∀ vs,
        chunks.mapM (fun d => do pure (← eval p.1 d).value) = .ok vs →
        ∃ T, examineFactor P.na P.order none vs = .ok (some T) ∧ TreatedAs (eval p.1) p.2 T := by
  obtain ⟨eval, he, hall⟩ := builders_own hv h
  refine ⟨eval, he, fun d hd c hc p hp vs hvs => ?_⟩
  obtain ⟨T, h1, h2⟩ := hall d hd c hc p hp
  refine ⟨T, ?_, h2⟩
  rw [ownLoop_examineFactor, ← ownLoop_values hvs]
  exact h1

/-- **C47** for the finished designs: two formulas that have a factor in common treat it in the same way, whatever else
they contain, provided that memorisation does (C24). -/
theorem builders_independent {H : Type} [DecidableEq H] {P : Setting F D K H} (hv : ∀ l, (P.visit l).Perm l)
    {chunks : List D} {tls tls' : List (List (Term F))} {dis dis' : List (DesignInfo F D K)}
    (h : designMatrixBuilders P chunks tls = .ok dis) (h' : designMatrixBuilders P chunks tls' = .ok dis')
    {d d' : DesignInfo F D K} (hd : d ∈ dis) (hd' : d' ∈ dis') {c c' : Coding F D K} (hc : d.coding = some c)
    (hc' : d'.coding = some c') {f : F} {fi fi' : FactorInfo F D K} (hf : (f, fi) ∈ c.factorInfos)
    (hf' : (f, fi') ∈ c'.factorInfos)
    (hm : ∀ eval eval', P.memorize (P.visit (allFactors tls)) = .ok eval →
      P.memorize (P.visit (allFactors tls')) = .ok eval' → eval f = eval' f) :
    fi.type = fi'.type ∧ fi.eval = fi'.eval := by
  obtain ⟨eval, he, hall⟩ := builders_own hv h
  obtain ⟨eval', he', hall'⟩ := builders_own hv h'
  obtain ⟨T, h1, h2⟩ := hall d hd c hc _ hf
  obtain ⟨T', h1', h2'⟩ := hall' d' hd' c' hc' _ hf'
  simp only at h1 h1' h2 h2'
  rw [← hm eval eval' he he'] at h1' h2'
  obtain rfl : T = T' := Option.some.inj (Except.ok.inj (h1.symm.trans h1'))
  cases T with
  | numerical n =>
    exact ⟨h2.1.trans h2'.1.symm, funext fun ty => funext fun d => (h2.2 ty d).trans (h2'.2 ty d).symm⟩
  | categorical levels cn =>
    exact ⟨h2.1.trans h2'.1.symm, funext fun ty => funext fun d =>
      (h2.2 ⟨.drop, ty.nan, ty.none⟩ d).trans (h2'.2 ⟨.drop, ty.nan, ty.none⟩ d).symm⟩

/-- A formula with a factor cannot be made without data: the loop over no chunks at all ends in an `AssertionError`
(not a `PatsyError`). -/
theorem builders_no_data {H : Type} [DecidableEq H] {P : Setting F D K H} (hv : ∀ l, (P.visit l).Perm l)
    {tls : List (List (Term F))} {f : F} (hf : f ∈ allFactors tls) {eval : F → D → Except Err (Seen K)}
    (hm : P.memorize (P.visit (allFactors tls)) = .ok eval) :
    designMatrixBuilders P [] tls = .error .assertionError := by
  have hf' : f ∈ P.visit (allFactors tls) := (hv _).mem_iff.mpr hf
  simp only [designMatrixBuilders, hm, ok_bind, examineTypes, examineLoop]
  obtain ⟨g, L, hL⟩ : ∃ g L, P.visit (allFactors tls) = g :: L := by
    cases hL : P.visit (allFactors tls) with
    | nil => rw [hL] at hf'; simp at hf'
    | cons g L => exact ⟨g, L, rfl⟩
  rw [hL]
  rfl

/-! ### Examples -/

namespace BuilderSample

/-- A data set has the variables `y`, `x` (numbers) and `a` (strings). -/
abbrev Data := List (ℚ × ℚ × String)

def number (xs : List ℚ) : Seen ℚ := ⟨.raw (.array .number 1 1 []), xs.map fun x => [x], none⟩

def look (f : String) (d : Data) : Except Err (Seen ℚ) :=
  if f = "y" then .ok (number (d.map fun r => r.1))
  else if f = "x" then .ok (number (d.map fun r => r.2.1))
  else if f = "a" then .ok ⟨.raw (.array .other 1 1 (d.map fun r => .str r.2.2)), [], none⟩
  else .error .nameError

def readable : PyVal → String
  | .str s => s
  | _ => "?"

def setting : Setting String Data ℚ (Redundancy.Subterm String) where
  name := id
  hash := id
  visit := List.reverse
  order := id
  default := .coding (Contrast.dummyCode readable) (Contrast.treatment readable none)
  na := {}
  memorize := fun _ => .ok look

/-- Two chunks; the second one shows a level that the first one does not have. -/
def chunks : List Data := [[(1, 2, "u"), (3, 4, "v")], [(5, 6, "w"), (7, 8, "u")]]

/-- `y ~ 1 + a + a:x`. -/
def terms : List (List (Term String)) := [[⟨["y"]⟩], [⟨[]⟩, ⟨["a"]⟩, ⟨["a", "x"]⟩]]

theorem visits (l : List String) : (setting.visit l).Perm l := l.reverse_perm

end BuilderSample

open BuilderSample in
/-- Example: the designs of `y ~ 1 + a + a:x`; all three levels are found. -/
example : (∀ l, (setting.visit l).Perm l) ∧ (∀ tl ∈ terms, ∀ t ∈ tl, t.factors.Nodup) ∧
    ∃ dis, designMatrixBuilders setting chunks terms = .ok dis ∧
      dis.map (fun d => d.columnNames) =
        [["y"], ["Intercept", "a[T.v]", "a[T.w]", "a[u]:x", "a[v]:x", "a[w]:x"]] := by
  have h : isOk (designMatrixBuilders setting chunks terms) = true := by decide +kernel
  exact ⟨visits, by decide, getOk (designMatrixBuilders setting chunks terms) (by decide +kernel), getOk_eq h,
    by decide +kernel⟩

open BuilderSample in
/-- Example: the factor `a` is treated alike in `a` and in `y ~ 1 + a + a:x`. -/
example : isOk (designMatrixBuilders setting chunks [[⟨["a"]⟩]]) = true ∧
    isOk (examineTypes setting.na id List.reverse (fun f d => do pure (← look f d).value) chunks ["a", "x"]) = true ∧
    isOk (chunks.mapM (fun d => do pure (← look "a" d).value)) = true ∧
    isOk (examineTypes setting.na id List.reverse (fun f d => do pure (← look f d).value) chunks ["a", "z"]) = false := by
  decide +kernel

open BuilderSample in
/-- Example: without data there is no design, except for formulas without factors. -/
example : "x" ∈ allFactors terms ∧ isOk (designMatrixBuilders setting [] terms) = false ∧
    isOk (designMatrixBuilders setting [] [[⟨[]⟩]]) = true := by
  decide +kernel

end Patsy.Props
