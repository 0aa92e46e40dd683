import Verif.Spec.Fit

/-! Lemmas about whole calls of `dmatrix` and `dmatrices`. -/

set_option linter.unusedSectionVars false

namespace Patsy.Build

open Patsy.Desc Patsy.Cat Patsy.Spec Patsy.Props Patsy.Contrast

variable {F D K : Type} [DecidableEq F]

/-! ### The codes are in range -/

theorem levelDict_range : ∀ {levels : List PyVal} {n : Nat} {d : List (Key × Nat)}, levelDict n levels = .ok d →
    ∀ p ∈ d, p.2 < n + levels.length := by
  intro levels
  induction levels with
  | nil =>
    intro n d h p hp
    cases h
    cases hp
  | cons v vs ih =>
    intro n d h p hp
    simp only [levelDict] at h
    split at h
    · cases h
    · rename_i k _
      simp only [bind_ok] at h
      obtain ⟨r, hr, h⟩ := h
      have hr' : ∀ p ∈ r, p.2 < n + (vs.length + 1) := by
        intro q hq
        have := ih hr q hq
        omega
      simp only [Except.ok.injEq] at h
      subst h
      split at hp
      · exact hr' p hp
      · rcases List.mem_cons.mp hp with rfl | hp
        · simp
        · exact hr' p hp

theorem lookupKey_range {levels : List PyVal} {d : List (Key × Nat)} (h : levelDict 0 levels = .ok d) {k : Key} {i : Nat}
    (hi : lookupKey d k = some i) : i < levels.length := by
  simp only [lookupKey, Option.map_eq_some_iff] at hi
  obtain ⟨p, hp, rfl⟩ := hi
  have := levelDict_range h p (List.mem_of_find?_eq_some hp)
  omega

theorem mapM_all {A B : Type} {f : A → Except Err B} {Q : B → Prop} (hf : ∀ a b, f a = .ok b → Q b) {l : List A} {m : List B}
    (h : l.mapM f = .ok m) : ∀ b ∈ m, Q b := by
  have := mapM_ok.mp h
  clear h
  induction this with
  | nil => intro b hb; cases hb
  | cons h1 _ ih =>
    intro b hb
    rcases List.mem_cons.mp hb with rfl | hb
    · exact hf _ _ h1
    · exact ih b hb

theorem valueToInt_range {na : NAAction} {levels : List PyVal} {d : List (Key × Nat)} (h : levelDict 0 levels = .ok d)
    {v : PyVal} {c : Int} (hc : valueToInt na d v = .ok c) : -1 ≤ c ∧ c < levels.length := by
  simp only [valueToInt, bind_ok] at hc
  obtain ⟨b, _, hc⟩ := hc
  split at hc
  · cases hc
    omega
  · split at hc
    · cases hc
    · split at hc
      · cases hc
      · rename_i i hi
        cases hc
        have := lookupKey_range h hi
        omega

theorem arrayToInt_range {na : NAAction} {levels : List PyVal} {kind : Kind} {ndim : Nat} {vals : List PyVal}
    {codes : List Int} (h : arrayToInt na levels kind ndim vals = .ok codes) :
    ∀ c ∈ codes, -1 ≤ c ∧ c < levels.length := by
  simp only [arrayToInt] at h
  split at h
  · cases h
  · simp only [bind_ok] at h
    obtain ⟨d, hd, h⟩ := h
    have key : ∀ {m : List Int}, vals.mapM (valueToInt na d) = .ok m → ∀ c ∈ m, -1 ≤ c ∧ c < levels.length :=
      fun hm => mapM_all (fun _ _ => valueToInt_range hd) hm
    split at h
    · split at h
      · cases h
      · split at h
        · cases h
        · rename_i h1
          have := lookupKey_range hd h1
          cases h
          intro c hc
          obtain ⟨v, _, rfl⟩ := List.mem_map.mp hc
          unfold boolToInt
          split <;> omega
        · exact key h
      · exact key h
    · exact key h

theorem categoricalToInt_range {Cn : Type} {na : NAAction} {levels : List PyVal} {v : CatValue Cn} {codes : List Int}
    (hp : ∀ cats cs, v = .raw (.pandas cats cs) → ∀ c ∈ cs, -1 ≤ c ∧ c < cats.length)
    (h : categoricalToInt na levels v = .ok codes) : ∀ c ∈ codes, -1 ≤ c ∧ c < levels.length := by
  have hif : ∀ (b : Bool) (x : Except Err (List Int)),
      (if b then Except.error .patsyError else x) = .ok codes → x = .ok codes := by
    intro b x hx
    cases b with
    | true => cases hx
    | false => exact hx
  match v with
  | .raw (.pandas cats cs) =>
    simp only [categoricalToInt] at h
    split at h
    · rename_i hs
      cases h
      have hl : cats.length = levels.length := by
        have := congrArg List.length (of_decide_eq_true hs)
        simpa using this
      rw [← hl]
      exact hp cats _ rfl
    · cases h
  | .raw (.array kind ndim _ vals) => exact arrayToInt_range h
  | .box (.pandas cats cs) _ l => exact arrayToInt_range (hif _ _ h)
  | .box (.array kind ndim _ vals) _ l => exact arrayToInt_range (hif _ _ h)

/-! ### Only the factors of a design matter -/

theorem prodFrom_congr [Mul K] {fis : List (F × FactorInfo F D K)} {cms : List (F × ContrastMatrix K)}
    {cells cells' : F → Option (Cell K)} (h : ∀ f, dictGet fis f ≠ none → cells f = cells' f) :
    ∀ (fs : List F) (js : List Nat) (x : K), prodFrom fis cms cells x fs js = prodFrom fis cms cells' x fs js := by
  intro fs
  induction fs with
  | nil => intro js x; cases js <;> rfl
  | cons f fs ih =>
    intro js x
    cases js with
    | nil => rfl
    | cons j js =>
      have he : entryAt fis cms cells f j = entryAt fis cms cells' f j := by
        unfold entryAt
        cases hf : dictGet fis f with
        | none => rfl
        | some fi => rw [h f (by simp [hf])]
      simp only [prodFrom, he, ih]

theorem isMatrix_congr [Mul K] [One K] {c : Coding F D K} {A : Type} {rs : List A} {a b : A → F → Option (Cell K)}
    (h : ∀ r ∈ rs, ∀ f, dictGet c.factorInfos f ≠ none → a r f = b r f) {cols : List (List K)}
    (hm : IsMatrix c (rs.map a) cols) : IsMatrix c (rs.map b) cols := by
  have he : ∀ col, (rs.map a).mapM (fun cells => columnEntry c cells col) = (rs.map b).mapM fun cells => columnEntry c cells col := by
    intro col
    clear hm
    rw [List.mapM_map, List.mapM_map]
    induction rs with
    | nil => rfl
    | cons r rs ih =>
      rw [List.mapM_cons, List.mapM_cons, ih (fun r hr => h r (by simp [hr])), Function.comp_apply, Function.comp_apply,
        columnEntry, columnEntry, prodFrom_congr (h r (by simp))]
  unfold IsMatrix at hm ⊢
  simpa only [he] using hm

/-! ### Other factors are not mentioned -/

/-- The state mentions only factors of the list. -/
def Mentions {Cn : Type} (fs : List F) (s : Exam F Cn) : Prop :=
  (∀ g, dictGet s.nums g ≠ none → g ∈ fs) ∧ (∀ g, dictGet s.sniffers g ≠ none → g ∈ fs) ∧ ∀ g ∈ s.needed, g ∈ fs

theorem examineOne_mentions {Cn : Type} {na : NAAction} {eval : F → D → Except Err (CatValue Cn)} {d : D} {fs : List F}
    {s s' : Exam F Cn} {f : F} (hf : f ∈ fs) (hs : Mentions fs s) (h : examineOne na eval d s f = .ok s') :
    Mentions fs s' := by
  obtain ⟨h1, h2, h3⟩ := hs
  simp only [examineOne, bind_ok] at h
  obtain ⟨v, _, h⟩ := h
  have hset : ∀ {B : Type} {l : List (F × B)} {b : B}, (∀ g, dictGet l g ≠ none → g ∈ fs) →
      ∀ g, dictGet (dictSet (fun a b => decide (a = b)) l f b) g ≠ none → g ∈ fs := by
    intro B l b hl g hg
    rw [dictSet_get] at hg
    split at hg
    · rename_i he
      exact he ▸ hf
    · exact hl g hg
  split at h
  · simp only [bind_ok, pure_ok] at h
    obtain ⟨r, _, rfl⟩ := h
    refine ⟨h1, hset h2, ?_⟩
    intro g hg
    simp only at hg
    split at hg
    · exact h3 g (List.mem_of_mem_erase hg)
    · exact h3 g hg
  · simp only [bind_ok, pure_ok] at h
    obtain ⟨k, _, rfl⟩ := h
    exact ⟨hset h1, h2, fun g hg => h3 g (List.mem_of_mem_erase hg)⟩

theorem examineLoop_mentions {Cn : Type} {na : NAAction} {visit : List F → List F} (hv : ∀ l, (visit l).Perm l)
    {eval : F → D → Except Err (CatValue Cn)} {fs : List F} : ∀ {ds : List D} {s s' : Exam F Cn}, Mentions fs s →
    examineLoop na visit eval ds s = .ok s' → Mentions fs s' := by
  intro ds
  induction ds with
  | nil => intro s s' hs h; cases h; exact hs
  | cons d ds ih =>
    intro s s' hs h
    simp only [examineLoop, bind_ok] at h
    obtain ⟨s1, h1, h⟩ := h
    have hs1 : Mentions fs s1 := by
      have hall : ∀ f ∈ visit s.needed, f ∈ fs := fun f hf => hs.2.2 f ((hv _).mem_iff.mp hf)
      generalize visit s.needed = L at h1 hall
      clear h ih
      induction L generalizing s with
      | nil => cases h1; exact hs
      | cons f L ihL =>
        rw [List.foldlM_cons] at h1
        simp only [bind_ok] at h1
        obtain ⟨s2, h2, h1⟩ := h1
        exact ihL (examineOne_mentions (hall f (by simp)) hs h2) h1 fun g hg => hall g (by simp [hg])
    split at h
    · cases h; exact hs1
    · exact ih hs1 h

theorem typeOf_none {Cn : Type} {na : NAAction} {order : List PyVal → List PyVal} {visit : List F → List F}
    (hv : ∀ l, (visit l).Perm l) {eval : F → D → Except Err (CatValue Cn)} {chunks : List D} {fs : List F} {r}
    (h : examineTypes na order visit eval chunks fs = .ok r) {f : F} (hf : f ∉ fs) : typeOf r f = none := by
  simp only [examineTypes, bind_ok, pure_ok] at h
  obtain ⟨s, hs, rfl⟩ := h
  obtain ⟨h1, h2, _⟩ := examineLoop_mentions (fs := fs) hv ⟨by simp [dictGet], by simp [dictGet], fun _ h => h⟩ hs
  have e1 : dictGet s.nums f = none := by_contra fun h => hf (h1 f h)
  have e2 : dictGet s.sniffers f = none := by_contra fun h => hf (h2 f h)
  simp only [typeOf, e1, dictGet_map, e2]
  rfl

/-! ### The values of the factors -/

/-- What the evaluation of a factor info says in terms of the factor. -/
theorem cellOf_factorCell {na : NAAction} {eval : F → D → Except Err (Seen K)} {types : Types F K} {uid : Nat} {f : F}
    {fi : FactorInfo F D K} (h : factorInfo eval types.1 types.2 uid f = .ok fi) {data : D} {v : Value K}
    {i : Option (List Label)} (he : fi.eval na.types data = .ok (v, i)) (r : Nat) :
    cellOf v r = factorCell na types (fun f => eval f data) r f := by
  rcases (factorInfo_ok h).2.2.2 with ⟨n, h1, _, h3⟩ | ⟨levels, c, h1, _, h3⟩
  · rw [h3] at he
    simp only [bind_ok] at he
    obtain ⟨s, hs, he⟩ := he
    simp only [numericValue] at he
    have h1' : typeOf types f = some (.numerical n) := h1
    unfold factorCell
    split at he
    · split at he
      · cases he
      · simp only [Except.ok.injEq, Prod.mk.injEq] at he
        obtain ⟨rfl, _⟩ := he
        simp only [h1', hs]
        rfl
    · cases he
  · rw [h3] at he
    simp only [bind_ok, categoricalValue, pure_ok, Prod.mk.injEq] at he
    obtain ⟨s, hs, codes, hc, rfl, _⟩ := he
    have h1' : typeOf types f = some (.categorical levels c) := h1
    unfold factorCell
    simp only [h1', hs, hc]
    rfl

theorem cellOf_isSome {T : FType} {v : Value K} (h : kindOK T v) (r : Nat) : (cellOf v r).isSome ↔ r < v.nrows := by
  cases v with
  | num m rows => simp [cellOf, Value.nrows]
  | cat codes => simp [cellOf, Value.nrows]
  | labels l => cases T <;> exact h.elim

theorem typeOf_nums {types types' : Types F K} {f : F} (h : typeOf types f = typeOf types' f) :
    dictGet types.1 f = dictGet types'.1 f := by
  unfold typeOf at h
  cases h1 : dictGet types.1 f with
  | some n =>
    cases h2 : dictGet types'.1 f with
    | some n' => simp only [h1, h2, Option.some.injEq, FactorType.numerical.injEq] at h; rw [h]
    | none =>
      simp only [h1, h2] at h
      cases h3 : dictGet types'.2 f <;> simp [h3] at h
  | none =>
    cases h2 : dictGet types'.1 f with
    | some n' =>
      simp only [h1, h2] at h
      cases h3 : dictGet types.2 f <;> simp [h3] at h
    | none => rfl

end Patsy.Build

namespace Patsy.Props

open Patsy.Build Patsy.Desc Patsy.Cat Patsy.Spec Patsy.Contrast Patsy.Redundancy

variable {F D K H : Type} [DecidableEq F] [Field K] [DecidableEq H]

theorem hasDesigns_of_model {f : FormulaLike F D K} {m : ModelDesc F} (h : modelOf f = some m) : HasDesigns f := by
  cases f <;> trivial

/-- What `build_design_matrices` returns for designs that one call of `design_matrix_builders` has made, on any data and
with any `NA_action`: the matrices of the terms on the rows that are kept, where the types and the states of the factors are
those of the data that the designs were made from. -/
theorem designs_made {P : Setting F D K H} (hw : World P) (hcodes : CodesFit P) {chunks : List D}
    {tls : List (List (Term F))} (hnd : ∀ tl ∈ tls, ∀ t ∈ tl, t.factors.Nodup) {dis : List (DesignInfo F D K)}
    (hb : designMatrixBuilders P chunks tls = .ok dis) :
    ∃ eval types infos, P.memorize (P.visit (allFactors tls)) = .ok eval ∧
      examineTypes P.na P.order P.visit (fun f d => do pure (← eval f d).value) chunks
        (P.visit (allFactors tls)) = .ok types ∧
      ∀ (isnan : K → Bool) (na : NAAction) (frame : Bool) (dataIndex : Option (List Label)) (data : D)
        (use : List (List (Term F) × DesignInfo F D K)), use ≠ [] → (∀ p ∈ use, p ∈ tls.zip dis) → ∀ b,
        buildDesignMatrices isnan na frame dataIndex (use.map Prod.snd) data = .ok b →
        ∃ n, RowCount na types (fun f => eval f data) (allFactors (use.map Prod.fst)) dataIndex n ∧
          List.Forall₂ (fun p mat =>
            mat.nrows = (keptCells na isnan types (fun f => eval f data) (allFactors (use.map Prod.fst)) n).length ∧
            (GoodCodings P.default types p.1 →
              Separates P.hash (fun f => (dictGet types.1 f).isSome) (p.1.map (·.factors)) →
              MadeMatrix P.hash types.1 (levelCount types) (coderOf P.default types.2) infos p.1 p.2
                (keptCells na isnan types (fun f => eval f data) (allFactors (use.map Prod.fst)) n) mat.cols)) use b.mats := by
  obtain ⟨cs, hcs, hsame, hfits, _⟩ := builders_sound hw hnd hb
  obtain ⟨eval, types, infos, he, ht, hinfo, hd⟩ := builders_ok hw.visits hb
  refine ⟨eval, types, infos, he, ht, ?_⟩
  intro isnan na frame dataIndex data use hne huse b hbuild
  -- the codings
  have hchoose : ∃ cs', List.Forall₂ (fun p c => IsDesign p.2 c ∧ c ∈ cs ∧ p.1 ∈ tls ∧
      makeDesign P.name P.hash types.1 (coderOf P.default types.2) infos p.1 = .ok p.2) use cs' := by
    clear hbuild hne
    induction use with
    | nil => exact ⟨[], .nil⟩
    | cons p use ih =>
      obtain ⟨cs', ih⟩ := ih fun q hq => huse q (by simp [hq])
      obtain ⟨i, hi, hp⟩ := List.getElem_of_mem (huse p (by simp))
      have hi' := hi
      rw [List.length_zip] at hi'
      have hl : i < cs.length := by rw [← hcs.length_eq]; omega
      have h1 := List.Forall₂.get hd (i := i) (by omega) (by omega)
      have h2 := List.Forall₂.get hcs (i := i) (by omega) hl
      rw [List.getElem_zip] at hp
      subst hp
      exact ⟨cs[i] :: cs', .cons ⟨h2, List.getElem_mem hl, List.getElem_mem _, h1⟩ ih⟩
  obtain ⟨cs', hcs'⟩ := hchoose
  have hdes : List.Forall₂ IsDesign (use.map Prod.snd) cs' := by
    rw [List.forall₂_map_left_iff]
    exact hcs'.imp fun _ _ h => h.1
  have hsub : ∀ fi ∈ Spec.factorsOf cs', fi ∈ Spec.factorsOf cs := by
    intro fi hfi
    obtain ⟨c, hc, hfi⟩ := List.mem_flatMap.mp hfi
    obtain ⟨p, _, h⟩ := exists_mem_of_forall₂' hcs' hc
    exact List.mem_flatMap.mpr ⟨c, h.2.1, hfi⟩
  have hsame' : SameIdentity (Spec.factorsOf cs') := fun a ha b hb => hsame a (hsub a ha) b (hsub b hb)
  have hfits' : IndexFits na.types (Spec.factorsOf cs') data := fun fi hfi => hfits na.types data fi (hsub fi hfi)
  rw [build_keeps_complete_rows (by simpa using hne) hdes hsame' hfits'] at hbuild
  obtain ⟨V, n, idx, hev, _, hmats, _⟩ := hbuild
  have side : ∀ c ∈ cs', ∃ p ∈ use, p.2.coding = some c ∧ (∀ q ∈ c.factorInfos, dictGet infos q.1 = some q.2) ∧
        ∀ f, f ∈ c.factorInfos.map Prod.fst ↔ ∃ t ∈ p.1, f ∈ t.factors := by
    intro c hc
    obtain ⟨p, hp, h1, _, _, h2⟩ := exists_mem_of_forall₂' hcs' hc
    obtain ⟨c', h3, _, h4, h5⟩ := makeDesign_isDesign h2
    obtain rfl : c = c' := Option.some.inj ((coding_of_isDesign h1).symm.trans h3)
    exact ⟨p, hp, h3, h4, h5⟩
  have hcell : ∀ c ∈ cs', ∀ p ∈ c.factorInfos, (∀ r, cellOf (V p.2) r = factorCell na types (fun f => eval f data) r p.1) ∧
      p.2 ∈ Spec.factorsOf cs' := by
    intro c hc p hpc
    have hmem : p.2 ∈ Spec.factorsOf cs' := List.mem_flatMap.mpr ⟨c, hc, List.mem_map.mpr ⟨p, hpc, rfl⟩⟩
    obtain ⟨i, hi, _⟩ := hev.value p.2 hmem
    obtain ⟨_, _, _, h4, _⟩ := side c hc
    exact ⟨fun r => cellOf_factorCell (hinfo _ _ (h4 p hpc)).2 hi r, hmem⟩
  have hkey : ∀ f, f ∈ allFactors (use.map Prod.fst) ↔ ∃ c ∈ cs', ∃ p ∈ c.factorInfos, p.1 = f := by
    intro f
    rw [allFactors_mem]
    constructor
    · rintro ⟨ts, hts, t, ht, hf⟩
      obtain ⟨p, hp, rfl⟩ := List.mem_map.mp hts
      obtain ⟨c, hc, h1, _, _, h2⟩ := exists_mem_of_forall₂ hcs' hp
      obtain ⟨c', h3, _, _, h5⟩ := makeDesign_isDesign h2
      obtain rfl : c = c' := Option.some.inj ((coding_of_isDesign h1).symm.trans h3)
      obtain ⟨q, hq, rfl⟩ := List.mem_map.mp ((h5 f).mpr ⟨t, ht, hf⟩)
      exact ⟨c, hc, q, hq, rfl⟩
    · rintro ⟨c, hc, q, hq, rfl⟩
      obtain ⟨p, hp, _, _, h5⟩ := side c hc
      obtain ⟨t, ht, hf⟩ := (h5 q.1).mp (List.mem_map.mpr ⟨q, hq, rfl⟩)
      exact ⟨p.1, List.mem_map.mpr ⟨p, hp, rfl⟩, t, ht, hf⟩
  have hrows : (completeRows na isnan (Spec.factorsOf cs') V n).map (factorCell na types fun f => eval f data) =
      keptCells na isnan types (fun f => eval f data) (allFactors (use.map Prod.fst)) n := by
    unfold keptCells completeRows
    congr 1
    refine List.filter_congr fun r _ => ?_
    rw [Bool.eq_iff_iff, complete, List.all_eq_true, List.all_eq_true]
    constructor
    · intro hall f hf
      obtain ⟨c, hc, p, hp, rfl⟩ := (hkey f).mp hf
      obtain ⟨h1, h2⟩ := hcell c hc p hp
      rw [← h1 r]
      exact hall _ h2
    · intro hall fi hfi
      obtain ⟨c, hc, hfi⟩ := List.mem_flatMap.mp hfi
      obtain ⟨p, hp, rfl⟩ := List.mem_map.mp hfi
      rw [(hcell c hc p hp).1 r]
      exact hall _ ((hkey _).mpr ⟨c, hc, p, hp, rfl⟩)
  have hlen : (completeRows na isnan (Spec.factorsOf cs') V n).length =
      (keptCells na isnan types (fun f => eval f data) (allFactors (use.map Prod.fst)) n).length := by
    rw [← hrows, List.length_map]
  have hmatrix : ∀ c ∈ cs', ∀ cols,
      IsMatrix c ((completeRows na isnan (Spec.factorsOf cs') V n).map (designCells c V)) cols →
      IsMatrix c (keptCells na isnan types (fun f => eval f data) (allFactors (use.map Prod.fst)) n) cols := by
    intro c hc cols hmat
    rw [← hrows]
    refine isMatrix_congr ?_ hmat
    intro r _ g hg
    obtain ⟨fi, hfi⟩ := Option.ne_none_iff_exists'.mp hg
    simp only [designCells, hfi, Option.bind_some]
    exact (hcell c hc _ (dictGet_mem hfi)).1 r
  -- every categorical factor is at one of its levels
  have hlevel : ∀ cells ∈ keptCells na isnan types (fun f => eval f data) (allFactors (use.map Prod.fst)) n,
      ∀ f ∈ allFactors (use.map Prod.fst), dictGet types.1 f = none → levelAt cells f < levelCount types f := by
    intro cells hcells f hfa hn
    obtain ⟨r, hr, rfl⟩ := List.mem_map.mp hcells
    obtain ⟨hr, hcomp⟩ := List.mem_filter.mp hr
    obtain ⟨c, hc, p, hpc, rfl⟩ := (hkey f).mp hfa
    obtain ⟨h1, h2⟩ := hcell c hc p hpc
    obtain ⟨_, _, _, hgets, _⟩ := side c hc
    have hget := hgets p hpc
    have hsome : (factorCell na types (fun f => eval f data) r p.1).isSome := by
      rw [← h1 r, cellOf_isSome (hev.kind _ h2), hev.rows _ h2]
      exact List.mem_range.mp hr
    have hcomp := List.all_eq_true.mp hcomp _ hfa
    rcases (factorInfo_ok (hinfo _ _ hget).2).2.2.2 with ⟨k, h3, _⟩ | ⟨levels, cn, h3, _⟩
    · have h3' : typeOf types p.1 = some (.numerical k) := h3
      simp only [typeOf, hn] at h3'
      cases h4 : dictGet types.2 p.1 <;> simp [h4] at h3'
    · have h3' : typeOf types p.1 = some (.categorical levels cn) := h3
      simp only [levelCount, levelsOf, h3', levelAt]
      unfold factorCell at hsome hcomp ⊢
      simp only [h3'] at hsome hcomp ⊢
      cases hs : eval p.1 data with
      | error e => simp [hs] at hsome
      | ok s =>
        simp only [hs] at hsome hcomp ⊢
        cases hcat : categoricalToInt na levels s.value with
        | error e => simp [hcat] at hsome
        | ok codes =>
          simp only [hcat] at hsome hcomp ⊢
          cases hcr : codes[r]? with
          | none => simp [hcr] at hsome
          | some q =>
            simp only [hcr, Option.map_some, Option.all_some, cellMissing] at hcomp ⊢
            have hq := categoricalToInt_range (fun cats cs hv => hcodes _ _ he _ _ _ cats cs hs hv) hcat q
              (List.mem_of_getElem? hcr)
            have : q ≠ -1 := by simpa using hcomp
            omega
  refine ⟨n, ⟨?_, ?_⟩, ?_⟩
  · intro g hg r
    obtain ⟨c, hc, p, hpc, rfl⟩ := (hkey g).mp hg
    obtain ⟨h1, h2⟩ := hcell c hc p hpc
    rw [← h1 r, cellOf_isSome (hev.kind _ h2), hev.rows _ h2]
  · intro hno
    have hfis : Spec.factorsOf cs' = [] := by
      rw [List.eq_nil_iff_forall_not_mem]
      intro fi hfi
      obtain ⟨c, hc, hfi⟩ := List.mem_flatMap.mp hfi
      obtain ⟨p, hp, rfl⟩ := List.mem_map.mp hfi
      have := (hkey p.1).mpr ⟨c, hc, p, hp, rfl⟩
      rw [hno] at this
      cases this
    obtain ⟨l, hl⟩ := Option.ne_none_iff_exists'.mp (hev.known hfis)
    exact ⟨l, hl, by rw [hev.frame l hl, hev.length]⟩
  · have made : ∀ p ∈ use, ∀ c ∈ cs', ∀ mat : Mat K, IsDesign p.2 c → p.1 ∈ tls →
        makeDesign P.name P.hash types.1 (coderOf P.default types.2) infos p.1 = .ok p.2 →
        IsMatrix c ((completeRows na isnan (Spec.factorsOf cs') V n).map (designCells c V)) mat.cols →
        GoodCodings P.default types p.1 →
        Separates P.hash (fun f => (dictGet types.1 f).isSome) (p.1.map (·.factors)) →
        MadeMatrix P.hash types.1 (levelCount types) (coderOf P.default types.2) infos p.1 p.2
          (keptCells na isnan types (fun f => eval f data) (allFactors (use.map Prod.fst)) n) mat.cols := by
      intro p hp c hc mat hdc hts hmk hmat hgood hsep
      obtain ⟨c', hdc', _, hi, hk⟩ := makeDesign_isDesign hmk
      obtain rfl : c = c' := Option.some.inj ((coding_of_isDesign hdc).symm.trans hdc')
      have hall : ∀ t ∈ p.1, ∀ f ∈ t.factors, f ∈ allFactors (use.map Prod.fst) := fun t ht f hf =>
        allFactors_mem.mpr ⟨p.1, List.mem_map.mpr ⟨p, hp, rfl⟩, t, ht, hf⟩
      have hinfo' : ∀ t ∈ p.1, ∀ f ∈ t.factors, ∃ fi, dictGet infos f = some fi := by
        intro t ht f hf
        obtain ⟨q, hq, rfl⟩ := List.mem_map.mp ((hk f).mpr ⟨t, ht, hf⟩)
        exact ⟨_, hi q hq⟩
      refine ⟨⟨_, hmk⟩, hnd _ hts, hsep, ?_, ?_, ⟨c, hdc', hmatrix c hc _ hmat⟩, ?_⟩
      · intro t ht f hf k hk'
        obtain ⟨fi, hfi⟩ := hinfo' t ht f hf
        refine ⟨fi, hfi, ?_⟩
        rcases (factorInfo_ok (hinfo _ _ hfi).2).2.2.2 with ⟨k', h3, h4, _⟩ | ⟨levels, cn, h3, _⟩
        · simp only [typeOf, hk', Option.some.injEq, FactorType.numerical.injEq] at h3
          rw [h4, h3]
        · simp [typeOf, hk'] at h3
      · intro t ht f hf hn
        obtain ⟨fi, hfi⟩ := hinfo' t ht f hf
        rcases (factorInfo_ok (hinfo _ _ hfi).2).2.2.2 with ⟨k', h3, h4, _⟩ | ⟨levels, cn, h3, _⟩
        · simp only [typeOf, hn] at h3
          cases h4 : dictGet types.2 f <;> simp [h4] at h3
        · have h3' : typeOf types f = some (.categorical levels cn) := h3
          have hgc := hgood t ht f hf levels cn h3'
          have hlc : levelCount types f = levels.length := by simp [levelCount, levelsOf, h3']
          simp only [typeOf, hn, Option.map_eq_some_iff, FactorType.categorical.injEq] at h3'
          obtain ⟨lc, h5, rfl, rfl⟩ := h3'
          have hco : ∀ full, coderOf P.default types.2 f full =
              codeContrastMatrix full lc.1 (lc.2.getD .none) P.default := by
            intro full
            rw [coderOf, h5]
          simp only [hco, hlc]
          exact hgc
      · intro cells hcells t ht f hf hn
        exact hlevel cells hcells f (hall t ht f hf) hn
    have hall : ∀ {us : List (List (Term F) × DesignInfo F D K)} {cc : List (Coding F D K)} {ms : List (Mat K)},
        (∀ p ∈ us, p ∈ use) → (∀ c ∈ cc, c ∈ cs') →
        List.Forall₂ (fun p c => IsDesign p.2 c ∧ c ∈ cs ∧ p.1 ∈ tls ∧
          makeDesign P.name P.hash types.1 (coderOf P.default types.2) infos p.1 = .ok p.2) us cc →
        List.Forall₂ (fun c m => m.nrows = (completeRows na isnan (Spec.factorsOf cs') V n).length ∧
          IsMatrix c ((completeRows na isnan (Spec.factorsOf cs') V n).map (designCells c V)) m.cols) cc ms →
        List.Forall₂ (fun p mat =>
            mat.nrows = (keptCells na isnan types (fun f => eval f data) (allFactors (use.map Prod.fst)) n).length ∧
            (GoodCodings P.default types p.1 →
              Separates P.hash (fun f => (dictGet types.1 f).isSome) (p.1.map (·.factors)) →
              MadeMatrix P.hash types.1 (levelCount types) (coderOf P.default types.2) infos p.1 p.2
                (keptCells na isnan types (fun f => eval f data) (allFactors (use.map Prod.fst)) n) mat.cols)) us ms := by
      intro us cc ms hu hc h1
      induction h1 generalizing ms with
      | nil => intro h2; cases h2; exact .nil
      | @cons p c us cc h3 _ ih =>
        intro h2
        cases h2 with
        | @cons _ mat _ ms h4 h5 =>
          exact .cons ⟨h4.1.trans hlen, made p (hu p (by simp)) c (hc c (by simp)) mat h3.1 h3.2.2.1 h3.2.2.2 h4.2⟩
            (ih (fun q hq => hu q (by simp [hq])) (fun q hq => hc q (by simp [hq])) h5)
    exact hall (fun _ h => h) (fun _ h => h) hcs' hmats

/-- What `_do_highlevel_design` returns for a formula: the two matrices of the model on the rows that are kept. -/
theorem formula_made {P : Setting F D K H} (hw : World P) (hcodes : CodesFit P) {isnan : K → Bool}
    {dataIndex : Option (List Label)} {data : D} {rt : ReturnType} {f : FormulaLike F D K} (hf : Sound data f)
    {m : ModelDesc F} (hm : modelOf f = some m) (hnd : ∀ t ∈ m.lhs ++ m.rhs, t.factors.Nodup)
    {t : Table F D K × Table F D K} (h : highLevelDesign P isnan dataIndex data rt f = .ok t) :
    ∃ eval types infos n, P.memorize (P.visit (allFactors [m.lhs, m.rhs])) = .ok eval ∧
      examineTypes P.na P.order P.visit (fun f d => do pure (← eval f d).value) [data]
        (P.visit (allFactors [m.lhs, m.rhs])) = .ok types ∧
      RowCount P.na types (fun f => eval f data) (allFactors [m.lhs, m.rhs]) dataIndex n ∧
      t.1.mat.nrows = (keptCells P.na isnan types (fun f => eval f data) (allFactors [m.lhs, m.rhs]) n).length ∧
      t.2.mat.nrows = (keptCells P.na isnan types (fun f => eval f data) (allFactors [m.lhs, m.rhs]) n).length ∧
      ∀ ts d mat, (ts, d, mat) ∈ [(m.lhs, t.1.info, t.1.mat), (m.rhs, t.2.info, t.2.mat)] →
        GoodCodings P.default types ts →
        Separates P.hash (fun f => (dictGet types.1 f).isSome) (ts.map (·.factors)) →
        MadeMatrix P.hash types.1 (levelCount types) (coderOf P.default types.2) infos ts d
          (keptCells P.na isnan types (fun f => eval f data) (allFactors [m.lhs, m.rhs]) n) mat.cols := by
  obtain ⟨_, _, hbuild, _, cl, cr, hp, _, _, hb⟩ := highLevel_built hw hf (hasDesigns_of_model hm) h
  have hnd' : ∀ tl ∈ [m.lhs, m.rhs], ∀ t ∈ tl, t.factors.Nodup := by
    intro tl htl t ht
    simp only [List.mem_cons, List.not_mem_nil, or_false] at htl
    rcases htl with rfl | rfl
    · exact hnd t (by simp [ht])
    · exact hnd t (by simp [ht])
  obtain ⟨eval, types, infos, he, ht, hall⟩ := designs_made hw hcodes hnd' (hb m hm)
  obtain ⟨n, hn, hmats⟩ := hall _ _ _ _ _ [(m.lhs, t.1.info), (m.rhs, t.2.info)] (by simp) (by simp) _ hbuild
  obtain ⟨x, y, hxy, ⟨a1, a2⟩, b1, b2⟩ := forall₂_two hmats
  simp only [List.cons.injEq, and_true] at hxy
  obtain ⟨rfl, rfl⟩ := hxy
  refine ⟨eval, types, infos, n, he, ht, hn, a1, b1, ?_⟩
  intro ts d mat hmem
  simp only [List.mem_cons, List.not_mem_nil, or_false, Prod.mk.injEq] at hmem
  rcases hmem with ⟨rfl, rfl, rfl⟩ | ⟨rfl, rfl, rfl⟩
  · exact a2
  · exact b2

end Patsy.Props
