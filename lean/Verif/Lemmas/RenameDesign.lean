import Verif.Lemmas.Rename

/-!
# Renaming factors: designs and matrices
-/

set_option linter.unusedSectionVars false

namespace Patsy.Build

open Patsy.Desc Patsy.Redundancy
open Patsy.Spec (renameFactor renameSet HashAlike renameTerm)

variable {F G D K : Type} [DecidableEq F] [DecidableEq G]

/-- Rename the factor of a factor info and change the identity of the object. -/
def renameInfo (φ : F → G) (σ : Nat → Nat) (fi : FactorInfo F D K) : FactorInfo G D K := ⟨σ fi.uid, φ fi.factor, fi.type, fi.eval⟩

/-- Rename the factors in the coding of a design. -/
def renameCoding (φ : F → G) (σ : Nat → Nat) (c : Coding F D K) : Coding G D K :=
  ⟨c.factorInfos.map (Prod.map φ (renameInfo φ σ)), renameCodings φ c.termCodings⟩

/-- Rename the factors in a design; the names of columns and terms stay. -/
def renameDesign (φ : F → G) (σ : Nat → Nat) (d : DesignInfo F D K) : DesignInfo G D K :=
  ⟨d.columnIndexes, d.coding.map (renameCoding φ σ), d.termSlices.map (List.map (Prod.map (renameTerm φ) id)), d.termNameSlices⟩

/-- The dictionaries have corresponding entries. -/
def InfosAlike (φ : F → G) (σ : Nat → Nat) (fis : List (F × FactorInfo F D K)) (fis' : List (G × FactorInfo G D K)) : Prop :=
  ∀ f, dictGet fis' (φ f) = (dictGet fis f).map (renameInfo φ σ)

theorem infosAlike_map {φ : F → G} (hφ : Function.Injective φ) (σ : Nat → Nat) (fis : List (F × FactorInfo F D K)) :
    InfosAlike φ σ fis (fis.map (Prod.map φ (renameInfo φ σ))) := dictGet_rename hφ _ fis

theorem designFactors_rename {φ : F → G} (hφ : Function.Injective φ) {σ : Nat → Nat} {fis : List (F × FactorInfo F D K)}
    {fis' : List (G × FactorInfo G D K)} (hf : InfosAlike φ σ fis fis') (ts : List (Term F)) :
    designFactors fis' (ts.map (renameTerm φ)) = (designFactors fis ts).map (List.map (Prod.map φ (renameInfo φ σ))) := by
  have hfm : (ts.map (renameTerm φ)).flatMap (·.factors) = (ts.flatMap (·.factors)).map φ := by
    rw [List.flatMap_map, List.map_flatMap]; rfl
  simp only [designFactors, hfm]
  have key : ∀ (fs : List F) (acc : List (F × FactorInfo F D K)),
      (fs.map φ).foldlM (fun acc f => do
        let fi ← match dictGet fis' f with
          | some fi => Except.ok fi
          | none => .error Err.keyError
        .ok (dictSet (fun a b => decide (a = b)) acc f fi)) (acc.map (Prod.map φ (renameInfo φ σ))) =
      (fs.foldlM (fun acc f => do
        let fi ← match dictGet fis f with
          | some fi => Except.ok fi
          | none => .error Err.keyError
        (.ok (dictSet (fun a b => decide (a = b)) acc f fi) : Except Err _)) acc).map (List.map (Prod.map φ (renameInfo φ σ))) := by
    intro fs
    induction fs with
    | nil => intro acc; rfl
    | cons f fs ih =>
      intro acc
      simp only [List.map_cons, List.foldlM_cons, hf f]
      cases dictGet fis f with
      | none => rfl
      | some fi =>
        have := dictSet_rename (eqv := fun a b => decide (a = b)) (eqv' := fun a b => decide (a = b))
          (φ := φ) (fun a b => by simp only [hφ.eq_iff]) (renameInfo φ σ) acc f fi
        simp only [Option.map_some, bind, Except.bind, this]
        exact ih _
  exact key _ []

theorem columnsPerFactor_rename {φ : F → G} (hφ : Function.Injective φ) {σ : Nat → Nat} {fis : List (F × FactorInfo F D K)}
    {fis' : List (G × FactorInfo G D K)} (hf : InfosAlike φ σ fis fis') (cms : List (F × ContrastMatrix K)) (fs : List F) :
    columnsPerFactor fis' (cms.map (Prod.map φ id)) (fs.map φ) = columnsPerFactor fis cms fs := by
  induction fs with
  | nil => rfl
  | cons f fs ih =>
    simp only [List.map_cons, columnsPerFactor, hf f, dictGet_rename hφ, ih, Option.map_id]
    cases dictGet fis f <;> rfl

theorem subtermCombinations_rename {φ : F → G} (hφ : Function.Injective φ) {σ : Nat → Nat} {fis : List (F × FactorInfo F D K)}
    {fis' : List (G × FactorInfo G D K)} (hf : InfosAlike φ σ fis fis') (st : SubtermInfo F K) :
    subtermCombinations fis' (renameSubterm φ st) = subtermCombinations fis st := by
  simp only [subtermCombinations, renameSubterm, columnsPerFactor_rename hφ hf]

theorem namePiece_rename {φ : F → G} (hφ : Function.Injective φ) {σ : Nat → Nat} {fis : List (F × FactorInfo F D K)}
    {fis' : List (G × FactorInfo G D K)} (hf : InfosAlike φ σ fis fis') {name : F → String} {name' : G → String}
    (hname : ∀ f, name' (φ f) = name f) (cms : List (F × ContrastMatrix K)) (f : F) (j : Nat) :
    namePiece name' fis' (cms.map (Prod.map φ id)) (φ f) j = namePiece name fis cms f j := by
  simp only [namePiece, hf f, dictGet_rename hφ, hname, Option.map_id]
  cases dictGet fis f <;> rfl

theorem namePieces_rename {φ : F → G} (hφ : Function.Injective φ) {σ : Nat → Nat} {fis : List (F × FactorInfo F D K)}
    {fis' : List (G × FactorInfo G D K)} (hf : InfosAlike φ σ fis fis') {name : F → String} {name' : G → String}
    (hname : ∀ f, name' (φ f) = name f) (cms : List (F × ContrastMatrix K)) (fs : List F) :
    ∀ js, namePieces name' fis' (cms.map (Prod.map φ id)) (fs.map φ) js = namePieces name fis cms fs js := by
  induction fs with
  | nil => intro js; cases js <;> rfl
  | cons f fs ih =>
    intro js
    cases js with
    | nil => rfl
    | cons j js => simp only [List.map_cons, namePieces, namePiece_rename hφ hf hname, ih]

theorem subtermColumnNames_rename {φ : F → G} (hφ : Function.Injective φ) {σ : Nat → Nat} {fis : List (F × FactorInfo F D K)}
    {fis' : List (G × FactorInfo G D K)} (hf : InfosAlike φ σ fis fis') {name : F → String} {name' : G → String}
    (hname : ∀ f, name' (φ f) = name f) (st : SubtermInfo F K) :
    subtermColumnNames name' fis' (renameSubterm φ st) = subtermColumnNames name fis st := by
  simp only [subtermColumnNames, subtermCombinations_rename hφ hf]
  simp only [renameSubterm, namePieces_rename hφ hf hname]
  rfl

theorem expectedColumns_rename {φ : F → G} (hφ : Function.Injective φ) {σ : Nat → Nat} {fis : List (F × FactorInfo F D K)}
    {fis' : List (G × FactorInfo G D K)} (hf : InfosAlike φ σ fis fis') (cms : List (F × ContrastMatrix K)) (fs : List F) :
    expectedColumns fis' (cms.map (Prod.map φ id)) (fs.map φ) = (expectedColumns fis cms fs).map (Prod.map id (List.map φ)) := by
  induction fs with
  | nil => rfl
  | cons f fs ih =>
    simp only [List.map_cons, expectedColumns, hf f, dictGet_rename hφ, ih, Option.map_id]
    cases dictGet fis f with
    | none => rfl
    | some fi =>
      simp only [Option.map_some, renameInfo]
      cases fi.type with
      | numerical n => simp only; cases expectedColumns fis cms fs <;> rfl
      | categorical k =>
        simp only [id]
        cases dictGet cms f with
        | none => rfl
        | some cm =>
          simp only
          split
          · rfl
          · cases expectedColumns fis cms fs <;> rfl

theorem sameSet_rename {φ : F → G} (hφ : Function.Injective φ) (l m : List F) : sameSet (l.map φ) (m.map φ) = sameSet l m := by
  simp only [sameSet, List.all_map]
  congr 2 <;> funext f <;> simp only [Function.comp, mem_rename hφ]

theorem checkSubterm_rename {φ : F → G} (hφ : Function.Injective φ) {σ : Nat → Nat} {fis : List (F × FactorInfo F D K)}
    {fis' : List (G × FactorInfo G D K)} (hf : InfosAlike φ σ fis fis') (st : SubtermInfo F K) :
    checkSubterm fis' (renameSubterm φ st) = checkSubterm fis st := by
  simp only [checkSubterm]
  rw [show (renameSubterm φ st).contrasts = st.contrasts.map (Prod.map φ id) from rfl,
    show (renameSubterm φ st).factors = st.factors.map φ from rfl, show (renameSubterm φ st).numColumns = st.numColumns from rfl,
    expectedColumns_rename hφ hf, show (st.contrasts.map (Prod.map φ id)).map Prod.fst = (st.contrasts.map Prod.fst).map φ by simp]
  cases expectedColumns fis st.contrasts st.factors with
  | error e => rfl
  | ok r =>
    simp only [Except.map, bind, Except.bind, Prod.map_snd, Prod.map_fst, sameSet_rename hφ]
    rfl

theorem forAll_rename {A B : Type} {check : A → Except Err Unit} {check' : B → Except Err Unit} {g : A → B} {l : List A}
    (h : ∀ a ∈ l, check' (g a) = check a) : forAll check' (l.map g) = forAll check l := by
  induction l with
  | nil => rfl
  | cons a l ih => simp only [List.map_cons, forAll, h a (by simp), ih fun b hb => h b (by simp [hb])]

theorem checkCoding_rename {φ : F → G} (hφ : Function.Injective φ) (σ : Nat → Nat) (c : Coding F D K) :
    checkCoding (renameCoding φ σ c) = checkCoding c := by
  simp only [checkCoding, renameCoding, renameCodings]
  rw [forAll_rename (check := fun (p : Term F × List (SubtermInfo F K)) =>
      forAll (fun (st : SubtermInfo F K) =>
        if st.factors.all (fun f => decide (f ∈ p.1.factors)) then .ok () else .error .valueError) p.2) (fun p _ => ?_),
    forAll_rename (check := fun (p : F × FactorInfo F D K) =>
      if p.1 = p.2.factor then .ok () else .error .valueError) (fun p _ => ?_),
    forAll_rename (check := fun (p : Term F × List (SubtermInfo F K)) => forAll (checkSubterm c.factorInfos) p.2) (fun p _ => ?_)]
  simp only [show (c.termCodings.map (Prod.map (renameTerm φ) (List.map (renameSubterm φ)))).flatMap (fun p => p.1.factors) =
      (c.termCodings.flatMap fun p => p.1.factors).map φ by rw [List.flatMap_map, List.map_flatMap]; rfl,
    show (c.factorInfos.map (Prod.map φ (renameInfo φ σ))).map Prod.fst = (c.factorInfos.map Prod.fst).map φ by simp,
    sameSet_rename hφ]
  · rw [Prod.map_snd]
    exact forAll_rename fun st _ => checkSubterm_rename hφ (infosAlike_map hφ σ _) st
  · simp only [Prod.map_fst, Prod.map_snd, renameInfo, hφ.eq_iff]
  · rw [Prod.map_snd]
    refine forAll_rename fun st _ => ?_
    simp only [renameSubterm, Prod.map_fst, renameTerm, List.all_map, Function.comp_def, mem_rename hφ]

theorem termName_rename {φ : F → G} {name : F → String} {name' : G → String} (hname : ∀ f, name' (φ f) = name f) (t : Term F) :
    termName name' (renameTerm φ t) = termName name t := by
  simp only [termName, renameTerm, List.isEmpty_map, List.map_map]
  congr 3
  funext f
  exact hname f

theorem termColumns_rename (φ : F → G) (sts : List (SubtermInfo F K)) : termColumns (sts.map (renameSubterm φ)) = termColumns sts := by
  simp only [termColumns, List.map_map]
  rfl

theorem layout_rename {A B : Type} (g : A → B) (l : List (A × Nat)) : ∀ idx,
    layout idx (l.map (Prod.map g id)) = (layout idx l).map (Prod.map g id) := by
  induction l with
  | nil => intro idx; rfl
  | cons a l ih => intro idx; simp only [List.map_cons, layout, Prod.map_apply, ih, id]; rfl

theorem make_rename {φ : F → G} (hφ : Function.Injective φ) (σ : Nat → Nat) {name : F → String} {name' : G → String}
    (hname : ∀ f, name' (φ f) = name f) (names : List String) (c : Coding F D K) :
    DesignInfo.make name' names (some (renameCoding φ σ c)) = (DesignInfo.make name names (some c)).map (renameDesign φ σ) := by
  have h1 : ((renameCoding φ σ c).termCodings.map fun p => (p.1, termColumns p.2)) =
      (c.termCodings.map fun p => (p.1, termColumns p.2)).map (Prod.map (renameTerm φ) id) := by
    simp only [renameCoding, renameCodings, List.map_map]
    refine List.map_congr_left fun p _ => ?_
    simp only [Function.comp, Prod.map_fst, Prod.map_snd, termColumns_rename, Prod.map_apply, id]
  have h2 : ((renameCoding φ σ c).termCodings.map fun p => termColumns p.2) = c.termCodings.map fun p => termColumns p.2 := by
    simp only [renameCoding, renameCodings, List.map_map]
    refine List.map_congr_left fun p _ => ?_
    simp only [Function.comp, Prod.map_snd, termColumns_rename]
  have h3 : ∀ l : List (Term F × Slice), ((l.map (Prod.map (renameTerm φ) id)).map fun p => (termName name' p.1, p.2)) =
      l.map fun p => (termName name p.1, p.2) := by
    intro l
    rw [List.map_map]
    refine List.map_congr_left fun p _ => ?_
    simp only [Function.comp, Prod.map_fst, Prod.map_snd, termName_rename hname, id]
  have h4 : ∀ l : List (Term F × Slice), (l.map (Prod.map (renameTerm φ) id)).map Prod.snd = l.map Prod.snd := by intro l; simp
  simp only [DesignInfo.make, checkCoding_rename hφ, h1, h2, layout_rename, h3, h4]
  cases checkCoding c with
  | error e => rfl
  | ok _ =>
    simp only [bind, Except.bind]
    split
    · rfl
    · split
      · rfl
      · cases checkCovered names.length 0 _ with
        | error e => rfl
        | ok _ =>
          simp only [DesignInfo.make.finish, bind, Except.bind]
          cases forAll _ _ <;> rfl

theorem makeDesign_rename {H H' : Type} [DecidableEq H] [DecidableEq H'] {φ : F → G} (hφ : Function.Injective φ) {σ : Nat → Nat}
    {name : F → String} {name' : G → String} (hname : ∀ f, name' (φ f) = name f) {hash : Subterm F → H} {hash' : Subterm G → H'}
    (hh : HashAlike φ hash hash') {nums : List (F × Nat)} {nums' : List (G × Nat)} (hn : ∀ f, dictGet nums' (φ f) = dictGet nums f)
    {coder : F → Bool → Except Err (ContrastMatrix K)} {coder' : G → Bool → Except Err (ContrastMatrix K)}
    (hc : ∀ f b, dictGet nums f = none → coder' (φ f) b = coder f b) {fis : List (F × FactorInfo F D K)} {fis' : List (G × FactorInfo G D K)}
    (hf : InfosAlike φ σ fis fis') (ts : List (Term F)) :
    makeDesign name' hash' nums' coder' fis' (ts.map (renameTerm φ)) =
      (makeDesign name hash nums coder fis ts).map (renameDesign φ σ) := by
  simp only [makeDesign, makeSubtermInfos_rename hφ hh hn hc, designFactors_rename hφ hf]
  cases makeSubtermInfos hash nums coder ts with
  | error e => rfl
  | ok infos =>
    simp only [Except.map, bind, Except.bind]
    rw [show ((renameCodings φ infos).all fun p => (ts.map (renameTerm φ)).any (Term.eqv p.1)) =
        infos.all fun p => ts.any (Term.eqv p.1) by
      simp only [renameCodings, List.all_map, List.any_map]
      simp only [Function.comp_def, Prod.map_fst, eqv_rename hφ],
      show ((ts.map (renameTerm φ)).all fun t => (renameCodings φ infos).any fun p => Term.eqv p.1 t) =
        ts.all fun t => infos.any fun p => Term.eqv p.1 t by
      simp only [renameCodings, List.all_map, List.any_map]
      simp only [Function.comp_def, Prod.map_fst, eqv_rename hφ],
      show (renameCodings φ infos).flatMap (·.2) = (infos.flatMap (·.2)).map (renameSubterm φ) by
        simp only [renameCodings, List.flatMap_map, List.map_flatMap]; rfl,
      show ((infos.flatMap (·.2)).map (renameSubterm φ)).mapM (subtermColumnNames name' fis') =
        ((infos.flatMap (·.2)).mapM (subtermColumnNames name fis)).map (List.map id) from
        mapM_rename fun st _ => by
          rw [subtermColumnNames_rename hφ hf hname]
          cases subtermColumnNames name fis st <;> rfl]
    split
    · cases designFactors fis ts with
      | error e => rfl
      | ok own =>
        simp only
        cases (infos.flatMap (·.2)).mapM (subtermColumnNames name fis) with
        | error e => rfl
        | ok names =>
          simp only [Except.map, List.map_id]
          exact make_rename hφ σ hname names.flatten ⟨own, infos⟩
    · rfl

end Patsy.Build
