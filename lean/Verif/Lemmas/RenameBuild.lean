import Verif.Lemmas.RenameDesign

/-!
# Renaming factors: the matrices stay
-/

set_option linter.unusedSectionVars false

namespace Patsy.Build

open Patsy.Desc Patsy.Redundancy
open Patsy.Spec (renameFactor renameSet HashAlike renameTerm)

variable {F G D K : Type} [DecidableEq F] [DecidableEq G]

theorem map_listMap_id {A : Type} (x : Except Err (List A)) : x.map (List.map id) = x := by
  cases x <;> simp [Except.map]

theorem factorColumn_rename {φ : F → G} (hφ : Function.Injective φ) {σ : Nat → Nat} {fis : List (F × FactorInfo F D K)}
    {fis' : List (G × FactorInfo G D K)} (hf : InfosAlike φ σ fis fis') (cms : List (F × ContrastMatrix K))
    (values : List (F × Value K)) (f : F) (j : Nat) :
    factorColumn fis' (cms.map (Prod.map φ id)) (values.map (Prod.map φ id)) (φ f) j = factorColumn fis cms values f j := by
  simp only [factorColumn, hf f, dictGet_rename hφ, Option.map_id]
  cases dictGet fis f with
  | none => rfl
  | some fi => cases dictGet values f <;> rfl

theorem mulColumns_rename [Mul K] {φ : F → G} (hφ : Function.Injective φ) {σ : Nat → Nat} {fis : List (F × FactorInfo F D K)}
    {fis' : List (G × FactorInfo G D K)} (hf : InfosAlike φ σ fis fis') (cms : List (F × ContrastMatrix K))
    (values : List (F × Value K)) (fs : List F) : ∀ (js : List Nat) (col : List K),
    mulColumns fis' (cms.map (Prod.map φ id)) (values.map (Prod.map φ id)) (fs.map φ) js col = mulColumns fis cms values fs js col := by
  induction fs with
  | nil => intro js col; cases js <;> rfl
  | cons f fs ih =>
    intro js col
    cases js with
    | nil => rfl
    | cons j js =>
      simp only [List.map_cons, mulColumns, factorColumn_rename hφ hf]
      cases factorColumn fis cms values f j with
      | error e => rfl
      | ok v => exact ih js _

theorem buildSubterm_rename [Mul K] [One K] {φ : F → G} (hφ : Function.Injective φ) {σ : Nat → Nat}
    {fis : List (F × FactorInfo F D K)} {fis' : List (G × FactorInfo G D K)} (hf : InfosAlike φ σ fis fis')
    (st : SubtermInfo F K) (values : List (F × Value K)) (nrows outCols : Nat) :
    buildSubterm fis' (renameSubterm φ st) (values.map (Prod.map φ id)) nrows outCols = buildSubterm fis st values nrows outCols := by
  simp only [buildSubterm, subtermCombinations_rename hφ hf]
  simp only [renameSubterm, mulColumns_rename hφ hf]

theorem buildSubterms_rename [Mul K] [One K] {φ : F → G} (hφ : Function.Injective φ) {σ : Nat → Nat}
    {fis : List (F × FactorInfo F D K)} {fis' : List (G × FactorInfo G D K)} (hf : InfosAlike φ σ fis fis')
    (values : List (F × Value K)) (nrows width : Nat) (sts : List (SubtermInfo F K)) : ∀ start,
    buildSubterms fis' (values.map (Prod.map φ id)) nrows width (sts.map (renameSubterm φ)) start =
      buildSubterms fis values nrows width sts start := by
  induction sts with
  | nil => intro start; rfl
  | cons st sts ih =>
    intro start
    simp only [List.map_cons, buildSubterms, buildSubterm_rename hφ hf]
    rw [show (renameSubterm φ st).numColumns = st.numColumns from rfl]
    simp only [ih]

theorem collectValues_rename {φ : F → G} {σ : Nat → Nat} (hσ : Function.Injective σ)
    {fis : List (F × FactorInfo F D K)} {fis' : List (G × FactorInfo G D K)} (hf : InfosAlike φ σ fis fis')
    (l : List (FactorInfo F D K × Value K)) : ∀ (acc : List (F × Value K)) (rows : Option Nat),
    collectValues fis' (l.map (Prod.map (renameInfo φ σ) id)) (acc.map (Prod.map φ id)) rows =
      (collectValues fis l acc rows).map (Prod.map (List.map (Prod.map φ id)) id) := by
  induction l with
  | nil => intro acc rows; rfl
  | cons p l ih =>
    obtain ⟨fi, v⟩ := p
    intro acc rows
    simp only [List.map_cons, Prod.map_apply, collectValues, id]
    rw [show (renameInfo φ σ fi).factor = φ fi.factor from rfl, hf]
    cases dictGet fis fi.factor with
    | none => exact ih acc rows
    | some fi' =>
      simp only [Option.map_some, renameInfo, ne_eq, hσ.eq_iff]
      split
      · exact ih acc rows
      · have h := ih (acc ++ [(fi.factor, v)])
        simp only [List.map_append, List.map_cons, List.map_nil, Prod.map_apply, id] at h
        cases rows with
        | none => exact h _
        | some n =>
          simp only
          split
          · rfl
          · exact h _

theorem buildDesignMatrix_rename [Mul K] [One K] {φ : F → G} (hφ : Function.Injective φ) {σ : Nat → Nat}
    (hσ : Function.Injective σ) (c : Coding F D K) (width : Nat) (vals : List (FactorInfo F D K × Value K)) :
    buildDesignMatrix (renameCoding φ σ c) width (vals.map (Prod.map (renameInfo φ σ) id)) = buildDesignMatrix c width vals := by
  have hf : InfosAlike φ σ c.factorInfos (renameCoding φ σ c).factorInfos := infosAlike_map hφ σ _
  have h := collectValues_rename hσ hf vals [] none
  simp only [List.map_nil] at h
  simp only [buildDesignMatrix, h]
  cases collectValues c.factorInfos vals [] none with
  | error e => rfl
  | ok cv =>
    simp only [Except.map, bind, Except.bind, Prod.map_fst, Prod.map_snd, id]
    rw [show (renameCoding φ σ c).termCodings.flatMap (·.2) = (c.termCodings.flatMap (·.2)).map (renameSubterm φ) by
      simp only [renameCoding, renameCodings, List.flatMap_map, List.map_flatMap]; rfl,
      buildSubterms_rename hφ hf]

theorem evalLoop_rename {φ : F → G} {σ : Nat → Nat} (hσ : Function.Injective σ) (isnan : K → Bool) (na : NAAction) (data : D)
    (fis : List (FactorInfo F D K)) : ∀ s : EvalState F D K,
    evalLoop isnan na data (fis.map (renameInfo φ σ)) ⟨s.entries.map (Prod.map (renameInfo φ σ) id), s.rows, s.index⟩ =
      (evalLoop isnan na data fis s).map fun s => ⟨s.entries.map (Prod.map (renameInfo φ σ) id), s.rows, s.index⟩ := by
  induction fis with
  | nil => intro s; rfl
  | cons fi fis ih =>
    intro s
    simp only [List.map_cons, evalLoop]
    rw [show ((s.entries.map (Prod.map (renameInfo φ σ) id)).any fun e => decide (e.1.uid = (renameInfo φ σ fi).uid)) =
      s.entries.any fun e => decide (e.1.uid = fi.uid) by
        simp only [List.any_map, Function.comp_def, Prod.map_fst, renameInfo, hσ.eq_iff],
      show evalFactor isnan na (renameInfo φ σ fi) data = evalFactor isnan na fi data from rfl]
    split
    · exact ih s
    · cases evalFactor isnan na fi data with
      | error e => rfl
      | ok r =>
        simp only [bind, Except.bind]
        cases checkMatch s.rows r.1.nrows with
        | error e => rfl
        | ok rows =>
          simp only
          cases checkIndex s.index r.2.2 with
          | error e => rfl
          | ok index =>
            simp only
            rw [← ih]
            simp

theorem buildDesignMatrices_rename [Mul K] [One K] {φ : F → G} (hφ : Function.Injective φ) {σ : Nat → Nat}
    (hσ : Function.Injective σ) {isnan : K → Bool} {na : NAAction} {frame : Bool} {dataIndex : Option (List Label)}
    {dis : List (DesignInfo F D K)} {dis' : List (DesignInfo G D K)}
    (h : dis'.mapM DesignInfo.codingOf = (dis.mapM DesignInfo.codingOf).map (List.map (Prod.map (renameCoding φ σ) id))) (data : D) :
    buildDesignMatrices isnan na frame dataIndex dis' data = buildDesignMatrices isnan na frame dataIndex dis data := by
  simp only [buildDesignMatrices, h]
  cases dis.mapM DesignInfo.codingOf with
  | error e => rfl
  | ok cs =>
    simp only [Except.map, bind, Except.bind]
    rw [show (cs.map (Prod.map (renameCoding φ σ) id)).flatMap (fun c => c.1.factorInfos.map Prod.snd) =
      (cs.flatMap fun c => c.1.factorInfos.map Prod.snd).map (renameInfo φ σ) by
        simp only [List.flatMap_map, List.map_flatMap]
        refine List.flatMap_congr fun c _ => ?_
        simp [renameCoding]]
    have he := evalLoop_rename hσ isnan na data (φ := φ) (cs.flatMap fun c => c.1.factorInfos.map Prod.snd)
      ⟨[], dataIndex.map List.length, dataIndex⟩
    simp only [List.map_nil] at he
    rw [he]
    cases evalLoop isnan na data (cs.flatMap fun c => c.1.factorInfos.map Prod.snd) ⟨[], dataIndex.map List.length, dataIndex⟩ with
    | error e => rfl
    | ok s =>
      simp only [Except.map]
      rw [show (s.entries.map (Prod.map (renameInfo φ σ) id)).map (fun e => e.2.1) = s.entries.map (fun e => e.2.1) by
          rw [List.map_map]; rfl,
        show (s.entries.map (Prod.map (renameInfo φ σ) id)).map (fun e => e.2.2) = s.entries.map (fun e => e.2.2) by
          rw [List.map_map]; rfl]
      cases na.handleNA _ _ with
      | error e => rfl
      | ok newValues =>
        simp only
        rw [show (s.entries.map (Prod.map (renameInfo φ σ) id)).map Prod.fst = (s.entries.map Prod.fst).map (renameInfo φ σ) by simp]
        rw [mapM_rename (f := fun c => buildDesignMatrix c.1 c.2 ((s.entries.map Prod.fst).zip
          (if (frame && s.rows.isSome) = true then newValues.dropLast else newValues))) (g := id) (fun c _ => ?_)]
        · rw [map_listMap_id]
        · rw [List.zip_map_left]
          refine (buildDesignMatrix_rename hφ hσ c.1 c.2 _).trans ?_
          cases buildDesignMatrix c.1 c.2 _ <;> rfl

end Patsy.Build
