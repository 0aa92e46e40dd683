import Verif.Lemmas.RenameBuilders
import Verif.Props.Predict

/-!
# C62: what should not matter does not matter

Hash functions, the orders in which Python goes through sets, and how factors are represented.
-/

set_option linter.unusedSectionVars false

namespace Patsy.Props

open Patsy.Build Patsy.Desc Patsy.Spec Patsy.Redundancy

variable {F G D K H H' : Type} [DecidableEq F] [DecidableEq G] [DecidableEq H] [DecidableEq H']

theorem codingOf_alike {φ : F → G} {σ : Nat → Nat} {dis : List (DesignInfo F D K)} {dis' : List (DesignInfo G D K)}
    (h : List.Forall₂ (DesignAlike φ σ) dis dis') :
    dis'.mapM DesignInfo.codingOf = (dis.mapM DesignInfo.codingOf).map (List.map (Prod.map (renameCoding φ σ) id)) := by
  induction h with
  | nil => rfl
  | @cons d d' l l' h1 _ ih =>
    rw [List.mapM_cons, List.mapM_cons, ih]
    simp only [DesignInfo.codingOf, h1.coding, h1.width]
    cases d.coding with
    | none => rfl
    | some c =>
      simp only [Option.map_some]
      cases l.mapM DesignInfo.codingOf <;> rfl

/-- **C62**, predictions.  Settings that differ only in hash functions, orders and the representation of factors give designs
from which `build_design_matrices` computes the same, or fails in the same way, on all data. -/
theorem alike_predictions [Mul K] [One K] {used : F → Prop} {φ : F → G} {P : Setting F D K H} {Q : Setting G D K H'}
    (A : Alike used φ P Q) {chunks : List D} {tls : List (List (Term F))} (hu : ∀ f ∈ allFactors tls, used f)
    {dis : List (DesignInfo F D K)} {dis' : List (DesignInfo G D K)} (h : designMatrixBuilders P chunks tls = .ok dis)
    (h' : designMatrixBuilders Q chunks (tls.map (List.map (renameTerm φ))) = .ok dis') (isnan : K → Bool) (na : NAAction)
    (frame : Bool) (dataIndex : Option (List Label)) (data : D) :
    buildDesignMatrices isnan na frame dataIndex dis' data = buildDesignMatrices isnan na frame dataIndex dis data := by
  obtain ⟨σ, hσ, hd, _⟩ := builders_alike A hu h h'
  exact buildDesignMatrices_rename A.distinct hσ (codingOf_alike hd) data

theorem highLevelDesign_model [Mul K] [One K] {P : Setting F D K H} {isnan : K → Bool} {dataIndex : Option (List Label)}
    {data : D} {rt : ReturnType} {f : FormulaLike F D K} {m : ModelDesc F} (hm : modelOf f = some m)
    {t : Table F D K × Table F D K} : highLevelDesign P isnan dataIndex data rt f = .ok t ↔
      rt ≠ .other ∧ ∃ l r b x y, designMatrixBuilders P [data] [m.lhs, m.rhs] = .ok [l, r] ∧
        buildDesignMatrices isnan P.na (rt = .dataframe) dataIndex [l, r] data = .ok b ∧ b.mats = [x, y] ∧
        t = (⟨l, x, b.index⟩, ⟨r, y, b.index⟩) := by
  have htry : tryIncrBuilders P [data] f = descBuilders P [data] m := by
    unfold modelOf at hm
    split at hm <;> cases hm <;> rfl
  simp only [highLevelDesign, htry, descBuilders]
  by_cases hrt : rt = .other
  · simp [hrt]
  · rw [if_neg hrt]
    cases hb : designMatrixBuilders P [data] [m.lhs, m.rhs] with
    | error e =>
      simp only [err_bind]
      constructor
      · intro h; cases h
      · rintro ⟨_, l, r, b, x, y, h, _⟩; cases h
    | ok dis =>
      simp only [ok_bind, pure, Except.pure]
      constructor
      · intro h
        rw [bind_ok] at h
        obtain ⟨b, h1, h2⟩ := h
        unfold asTables at h2
        split at h2
        · rename_i l r x y h3 
          cases h2
          exact ⟨hrt, l, r, b, x, y, rfl, h1, h3, rfl⟩
        · cases h2
      · rintro ⟨_, l, r, b, x, y, h1, h2, h3, rfl⟩
        cases h1
        rw [h2, ok_bind]
        simp only [asTables, h3]

theorem tables_alike {φ : F → G} {σ : Nat → Nat} {d : DesignInfo F D K} {d' : DesignInfo G D K} (h : DesignAlike φ σ d d') (x : Mat K)
    (i : Option (List Label)) : TableAlike φ ⟨d, x, i⟩ ⟨d', x, i⟩ :=
  ⟨rfl, rfl, by simpa [DesignInfo.columnNames] using h.width, h.slices⟩

/-- **C62**, matrices.  Settings that differ only in hash functions, orders and the representation of factors give the same
matrices with the same labels of the rows and the same ranges of columns for corresponding terms; and the same names if
corresponding factors have the same names. -/
theorem alike_matrices [Mul K] [One K] {used : F → Prop} {φ : F → G} {P : Setting F D K H} {Q : Setting G D K H'}
    (A : Alike used φ P Q) {f : FormulaLike F D K} {f' : FormulaLike G D K} {m : ModelDesc F} (hm : modelOf f = some m)
    (hm' : modelOf f' = some (renameModel φ m)) (hu : ∀ x ∈ allFactors [m.lhs, m.rhs], used x) {isnan : K → Bool}
    {dataIndex : Option (List Label)} {data : D} {rt : ReturnType} {t : Table F D K × Table F D K}
    {t' : Table G D K × Table G D K} (h : highLevelDesign P isnan dataIndex data rt f = .ok t)
    (h' : highLevelDesign Q isnan dataIndex data rt f' = .ok t') :
    TableAlike φ t.1 t'.1 ∧ TableAlike φ t.2 t'.2 ∧ (NamedAlike φ P Q →
      t'.1.info.columnIndexes = t.1.info.columnIndexes ∧ t'.2.info.columnIndexes = t.2.info.columnIndexes ∧
      t'.1.info.termNameSlices = t.1.info.termNameSlices ∧ t'.2.info.termNameSlices = t.2.info.termNameSlices) := by
  obtain ⟨_, l, r, b, x, y, h1, h2, h3, rfl⟩ := (highLevelDesign_model hm).mp h
  obtain ⟨_, l', r', b', x', y', h1', h2', h3', rfl⟩ := (highLevelDesign_model hm').mp h'
  obtain ⟨σ, hσ, hd, hN⟩ := builders_alike A hu h1 h1'
  have hb := buildDesignMatrices_rename (isnan := isnan) (na := P.na) (frame := (rt = .dataframe)) (dataIndex := dataIndex)
    A.distinct hσ (codingOf_alike hd) data
  rw [A.na] at h2'
  rw [h2, h2'] at hb
  cases hb
  rw [h3] at h3'
  cases h3'
  cases hd with
  | cons e1 hd =>
    cases hd with
    | cons e2 hd =>
      refine ⟨tables_alike e1 _ _, tables_alike e2 _ _, fun hn => ?_⟩
      have := hN hn
      simp only [List.map_cons, List.map_nil, List.cons.injEq, and_true] at this
      obtain ⟨rfl, rfl⟩ := this
      exact ⟨rfl, rfl, rfl, rfl⟩

/-- **C62**, success.  If memorisation succeeds in both or in none of two such settings, and corresponding factors have the
same names, then `_do_highlevel_design` succeeds in both or in none of them. -/
theorem alike_success [Mul K] [One K] {used : F → Prop} {φ : F → G} {P : Setting F D K H} {Q : Setting G D K H'}
    (A : Alike used φ P Q) (hM : MemoriseAlike used φ P Q) (hN : NamedAlike φ P Q) {f : FormulaLike F D K}
    {f' : FormulaLike G D K} {m : ModelDesc F} (hm : modelOf f = some m) (hm' : modelOf f' = some (renameModel φ m))
    (hu : ∀ x ∈ allFactors [m.lhs, m.rhs], used x) {isnan : K → Bool} {dataIndex : Option (List Label)} {data : D}
    {rt : ReturnType} : (∃ t, highLevelDesign P isnan dataIndex data rt f = .ok t) ↔
      ∃ t', highLevelDesign Q isnan dataIndex data rt f' = .ok t' := by
  have hiff := builders_alike_ok A hM hN (chunks := [data]) hu
  constructor
  · rintro ⟨t, h⟩
    obtain ⟨hrt, l, r, b, x, y, h1, h2, h3, rfl⟩ := (highLevelDesign_model hm).mp h
    obtain ⟨dis', h1'⟩ := hiff.mp ⟨_, h1⟩
    obtain ⟨σ, hσ, hd, _⟩ := builders_alike A hu h1 h1'
    have hb := buildDesignMatrices_rename (isnan := isnan) (na := P.na) (frame := (rt = .dataframe)) (dataIndex := dataIndex)
      A.distinct hσ (codingOf_alike hd) data
    rw [h2, ← A.na] at hb
    cases hd with
    | cons e1 hd =>
      cases hd with
      | cons e2 hd =>
        cases hd
        exact ⟨_, (highLevelDesign_model hm').mpr ⟨hrt, _, _, b, x, y, h1', hb, h3, rfl⟩⟩
  · rintro ⟨t', h'⟩
    obtain ⟨hrt, l', r', b, x, y, h1', h2, h3, rfl⟩ := (highLevelDesign_model hm').mp h'
    obtain ⟨dis, h1⟩ := hiff.mpr ⟨_, h1'⟩
    obtain ⟨σ, hσ, hd, _⟩ := builders_alike A hu h1 h1'
    have hb := buildDesignMatrices_rename (isnan := isnan) (na := P.na) (frame := (rt = .dataframe)) (dataIndex := dataIndex)
      A.distinct hσ (codingOf_alike hd) data
    rw [A.na] at h2
    rw [h2] at hb
    cases hd with
    | cons e1 hd =>
      cases hd with
      | cons e2 hd =>
        cases hd
        exact ⟨_, (highLevelDesign_model hm).mpr ⟨hrt, _, _, b, x, y, h1, hb.symm, h3, rfl⟩⟩

/-! ### The same program in two runs of Python -/

section Text

open Patsy.Tokens Patsy.EvalFactor Patsy.Program

variable {V A S : Type}

theorem renameTerm_id : (renameTerm (id : F → F)) = id := by
  funext t
  simp [renameTerm]

theorem renameModel_id (m : ModelDesc F) : renameModel id m = m := by
  simp [renameModel, renameTerm_id]

theorem sameProgram_code {I : Interp D V A S K H} {J : Interp D V A S K H'} (h : SameProgram I J) : J.code = I.code := by
  funext f
  simp only [Interp.code, h.tokens]

theorem sameProgram_parse {I : Interp D V A S K H} {J : Interp D V A S K H'} (h : SameProgram I J) (fin : RawEnd)
    (raw : List PyTok) : J.fromFormula fin raw = I.fromFormula fin raw := by
  have : J.mkFactor = I.mkFactor := by
    funext c
    simp only [Interp.mkFactor, h.tokens]
  simp only [Interp.fromFormula, h.isNumber, h.toInt, this]

theorem sameProgram_alike {I : Interp D V A S K H} {J : Interp D V A S K H'} (hI : Sane I) (hJ : Sane J) (hs : SameProgram I J)
    (hnan : I.order = J.order ∨ I.na.nan = true) {used : String → Prop}
    (hgood : ∀ fs : List String, (∀ f ∈ fs, used f) → GoodCode I.stateful I.code fs fun f => (readTokens (I.code f)).getD .nil)
    (chunks : List D) : Alike used id (I.setting chunks) (J.setting chunks) ∧
      MemoriseAlike used id (I.setting chunks) (J.setting chunks) ∧ NamedAlike id (I.setting chunks) (J.setting chunks) := by
  have hgood' : ∀ fs : List String, (∀ f ∈ fs, used f) →
      GoodCode I.stateful I.code fs fun f => (readTokens (I.code f)).getD .nil := hgood
  refine ⟨⟨Function.injective_id, hI.visits, hJ.visits, ?_, hnan.imp id fun h => ⟨h, hI.order, hJ.order⟩, hs.default, hs.na, ?_⟩, ?_, fun _ => rfl⟩
  · intro s t
    have hid : ∀ s : Subterm String, renameSet id s = s := by
      intro s
      have : (renameFactor (id : String → String)) = id := by funext e; rfl
      simp [renameSet, this]
    rw [hid, hid]
    exact ⟨fun h => congrArg _ (hI.hash h), fun h => congrArg _ (hJ.hash h)⟩
  · intro fs gs hu hn hp eval eval' h h' f hf
    rw [List.map_id] at hp
    simp only [Interp.setting, sameProgram_code hs, hs.python, hs.stateful, hs.classOf, hs.see] at h h'
    have hu' : ∀ g ∈ gs, used g := fun g hg => hu g (hp.mem_iff.mp hg)
    cases hm : memorizeFactors I.python I.stateful I.classOf I.visitNames I.visitFactors I.code chunks fs with
    | error e => rw [hm] at h; cases h
    | ok states =>
      cases hm' : memorizeFactors I.python I.stateful I.classOf J.visitNames J.visitFactors I.code chunks gs with
      | error e => rw [hm'] at h'; cases h'
      | ok states' =>
        rw [hm] at h
        rw [hm'] at h'
        cases h
        cases h'
        funext d
        simp only [id]
        rw [memorized_alike (hgood fs hu) (hgood gs hu') hI.names hJ.names hI.factors hJ.factors hn (hp.nodup_iff.mpr hn) chunks
          hm hm' f hf (hp.mem_iff.mpr hf) d]
  · intro fs gs hu hn hp
    rw [List.map_id] at hp
    have hu' : ∀ g ∈ gs, used g := fun g hg => hu g (hp.mem_iff.mp hg)
    have e1 := (memorized_states (P := I.python) (classOf := I.classOf) (hgood fs hu) hI.names hI.factors hn chunks).1
    have e2 := (memorized_states (P := I.python) (classOf := I.classOf) (hgood gs hu') hJ.names hJ.factors
      (hp.nodup_iff.mpr hn) chunks).1
    have hmap : ∀ {X Y : Type} (x : Except Err X) (g : X → Y), (∃ y, x.map g = .ok y) ↔ ∃ y, x = .ok y := by
      intro X Y x g
      cases x <;> simp [Except.map]
    simp only [Interp.setting, sameProgram_code hs, hs.python, hs.stateful, hs.classOf, hmap]
    rw [e1, e2]
    exact ⟨fun h f hf => h f (hp.mem_iff.mp hf), fun h f hf => h f (hp.mem_iff.mpr hf)⟩

theorem sameTable_of_alike {t t' : Table String D K} (h : TableAlike id t t') (h1 : t'.info.columnIndexes = t.info.columnIndexes)
    (h2 : t'.info.termNameSlices = t.info.termNameSlices) : SameTable t t' := by
  refine ⟨h.mat, h.index, h1, ?_, h2⟩
  rw [h.terms, renameTerm_id]
  cases t.info.termSlices with
  | none => rfl
  | some l => simp

theorem same_run_core [Mul K] [One K] {I : Interp D V A S K H} {J : Interp D V A S K H'} (hI : Sane I) (hJ : Sane J)
    (hs : SameProgram I J) (hnan : I.na.nan = true) {fin : RawEnd} {raw : List PyTok} (hfine : FineText I fin raw)
    {isnan : K → Bool} {dataIndex : Option (List Build.Label)} {data : D} {rt : ReturnType} :
    ((∃ t, highLevelDesign (I.setting [data]) isnan dataIndex data rt (.text (I.fromFormula fin raw)) = .ok t) ↔
      ∃ t, highLevelDesign (J.setting [data]) isnan dataIndex data rt (.text (J.fromFormula fin raw)) = .ok t) ∧
    ∀ t t', highLevelDesign (I.setting [data]) isnan dataIndex data rt (.text (I.fromFormula fin raw)) = .ok t →
      highLevelDesign (J.setting [data]) isnan dataIndex data rt (.text (J.fromFormula fin raw)) = .ok t' →
      SameTable t.1 t'.1 ∧ SameTable t.2 t'.2 := by
  rw [sameProgram_parse hs]
  cases hm : I.fromFormula fin raw with
  | error e =>
    have key : ∀ {H : Type} [DecidableEq H] (P : Setting String D K H) t,
        highLevelDesign P isnan dataIndex data rt (.text (.error e)) ≠ .ok t := by
      intro H _ P t h
      simp only [highLevelDesign, tryIncrBuilders] at h
      split at h <;> cases h
    exact ⟨⟨fun ⟨t, h⟩ => absurd h (key _ _), fun ⟨t, h⟩ => absurd h (key _ _)⟩, fun t t' h => absurd h (key _ _)⟩
  | ok m =>
    obtain ⟨_, _, hcode⟩ := fromFormula_ok hfine hm
    obtain ⟨hA, hM, hN⟩ := sameProgram_alike hI hJ hs (.inr hnan) (used := fun f => f ∈ allFactors [m.lhs, m.rhs])
      (fun fs hfs => fine_good hfine fun f hf => hcode f (hfs f hf)) [data]
    have hm1 : modelOf (K := K) (D := D) (.text (.ok m)) = some m := rfl
    have hm2 : modelOf (K := K) (D := D) (.text (.ok m)) = some (renameModel id m) := by rw [renameModel_id]; rfl
    refine ⟨alike_success hA hM hN hm1 hm2 fun _ h => h, fun t t' h h' => ?_⟩
    obtain ⟨h1, h2, h3⟩ := alike_matrices hA hm1 hm2 (fun _ h => h) h h'
    obtain ⟨h4, h5, h6, h7⟩ := h3 hN
    exact ⟨sameTable_of_alike h1 h4 h6, sameTable_of_alike h2 h5 h7⟩

/-- **C62**, `dmatrices`.  Whether `dmatrices` succeeds for the text of a formula, and what it returns, depends neither on the
hash function nor on the orders in which Python goes through sets (of names, of factors, of levels), as long as NaN counts as
missing. -/
theorem same_run [Mul K] [One K] {I : Interp D V A S K H} {J : Interp D V A S K H'} (hI : Sane I) (hJ : Sane J)
    (hs : SameProgram I J) (hnan : I.na.nan = true) {fin : RawEnd} {raw : List PyTok} (hfine : FineText I fin raw)
    {isnan : K → Bool} {dataIndex : Option (List Build.Label)} {data : D} {rt : ReturnType} :
    ((∃ t, I.dmatrices isnan dataIndex data rt fin raw = .ok t) ↔ ∃ t, J.dmatrices isnan dataIndex data rt fin raw = .ok t) ∧
    ∀ t t', I.dmatrices isnan dataIndex data rt fin raw = .ok t → J.dmatrices isnan dataIndex data rt fin raw = .ok t' →
      SameTable t.1 t'.1 ∧ SameTable t.2 t'.2 := by
  obtain ⟨h1, h2⟩ := same_run_core hI hJ hs hnan hfine (isnan := isnan) (dataIndex := dataIndex) (data := data) (rt := rt)
  have hdm : ∀ {H : Type} [DecidableEq H] (P : Setting String D K H) f t, Build.dmatrices P isnan dataIndex data rt f = .ok t ↔
      highLevelDesign P isnan dataIndex data rt f = .ok t ∧ t.1.ncols ≠ 0 := by
    intro H _ P f t
    simp only [Build.dmatrices, bind_ok]
    constructor
    · rintro ⟨t', h, h'⟩
      split at h' <;> cases h'
      exact ⟨h, by assumption⟩
    · rintro ⟨h, h'⟩
      exact ⟨t, h, by rw [if_neg h']⟩
  simp only [Interp.dmatrices, hdm]
  constructor
  · constructor
    · rintro ⟨t, h, hc⟩
      obtain ⟨t', h'⟩ := h1.mp ⟨t, h⟩
      refine ⟨t', h', ?_⟩
      rwa [Table.ncols, (h2 t t' h h').1.mat]
    · rintro ⟨t', h', hc⟩
      obtain ⟨t, h⟩ := h1.mpr ⟨t', h'⟩
      refine ⟨t, h, ?_⟩
      rwa [Table.ncols, (h2 t t' h h').1.mat] at hc
  · exact fun t t' h h' => h2 t t' h.1 h'.1

/-- **C62** for `dmatrix`. -/
theorem same_run_single [Mul K] [One K] {I : Interp D V A S K H} {J : Interp D V A S K H'} (hI : Sane I) (hJ : Sane J)
    (hs : SameProgram I J) (hnan : I.na.nan = true) {fin : RawEnd} {raw : List PyTok} (hfine : FineText I fin raw)
    {isnan : K → Bool} {dataIndex : Option (List Build.Label)} {data : D} {rt : ReturnType} :
    ((∃ t, I.dmatrix isnan dataIndex data rt fin raw = .ok t) ↔ ∃ t, J.dmatrix isnan dataIndex data rt fin raw = .ok t) ∧
    ∀ t t', I.dmatrix isnan dataIndex data rt fin raw = .ok t → J.dmatrix isnan dataIndex data rt fin raw = .ok t' →
      SameTable t t' := by
  obtain ⟨h1, h2⟩ := same_run_core hI hJ hs hnan hfine (isnan := isnan) (dataIndex := dataIndex) (data := data) (rt := rt)
  have hdm : ∀ {H : Type} [DecidableEq H] (P : Setting String D K H) f t, Build.dmatrix P isnan dataIndex data rt f = .ok t ↔
      ∃ l, highLevelDesign P isnan dataIndex data rt f = .ok (l, t) ∧ l.ncols = 0 := by
    intro H _ P f t
    simp only [Build.dmatrix, bind_ok]
    constructor
    · rintro ⟨t', h, h'⟩
      split at h'
      · cases h'
      · rename_i hc
        cases h'
        exact ⟨t'.1, h, Decidable.not_not.mp hc⟩
    · rintro ⟨l, h, h'⟩
      exact ⟨(l, t), h, by rw [if_neg]; exact fun h => h h'⟩
  simp only [Interp.dmatrix, hdm]
  constructor
  · constructor
    · rintro ⟨t, l, h, hc⟩
      obtain ⟨t', h'⟩ := h1.mp ⟨_, h⟩
      refine ⟨t'.2, t'.1, h', ?_⟩
      rw [Table.ncols, (h2 _ t' h h').1.mat]
      exact hc
    · rintro ⟨t', l', h', hc⟩
      obtain ⟨t, h⟩ := h1.mpr ⟨_, h'⟩
      refine ⟨t.2, t.1, h, ?_⟩
      have := (h2 t _ h h').1.mat
      simp only at this
      rw [Table.ncols, this] at hc
      exact hc
  · rintro t t' ⟨l, h, _⟩ ⟨l', h', _⟩
    exact (h2 _ _ h h').2

end Text

/-! ### Examples -/

namespace RenameSample

open BuilderSample Patsy.Cat

/-- The factors are pairs, sets are gone through in another order, and hashes are something else. -/
def paired : Setting (String × Bool) Data ℚ (Nat × Subterm (String × Bool)) where
  name g := g.1
  hash s := (7, s)
  visit := id
  order := List.reverse
  default := setting.default
  na := setting.na
  memorize _ := .ok fun g d => look g.1 d

def pair (f : String) : String × Bool := (f, true)

theorem pair_injective : Function.Injective pair := fun _ _ h => (Prod.mk.inj h).1

theorem alike : Alike (fun _ => True) pair setting paired where
  distinct := pair_injective
  visits := visits
  visits' _ := .refl _
  hash s t := by
    have : Function.Injective (renameSet pair) := Redundancy.renameSet_injective pair_injective
    simp [setting, paired, this.eq_iff]
  order := .inr ⟨rfl, fun _ => .refl _, fun l => l.reverse_perm⟩
  default := rfl
  na := rfl
  values fs gs _ _ _ eval eval' h h' f _ := by
    cases h
    cases h'
    rfl

theorem memorise_alike : MemoriseAlike (fun _ => True) pair setting paired := fun _ _ _ _ _ =>
  ⟨fun _ => ⟨_, rfl⟩, fun _ => ⟨_, rfl⟩⟩

/-- `y ~ 1 + a + a:x`. -/
def model : ModelDesc String := ⟨[⟨["y"]⟩], [⟨[]⟩, ⟨["a"]⟩, ⟨["a", "x"]⟩]⟩

def rows : Data := [(1, 2, "u"), (3, 4, "v"), (5, 6, "w"), (7, 8, "u")]

def one := highLevelDesign setting (fun _ => false) none rows .matrix (.desc model)

def other := highLevelDesign paired (fun _ => false) none rows .matrix (.desc (renameModel pair model))

theorem one_ok : isOk one = true := by decide +kernel

theorem other_ok : isOk other = true := by decide +kernel

theorem chunks_ok : isOk (designMatrixBuilders setting chunks terms) = true := by decide +kernel

theorem chunks_ok' : isOk (designMatrixBuilders paired chunks (terms.map (List.map (renameTerm pair)))) = true := by
  decide +kernel

/-- A variable with the values 2, NaN and 1, marked as categorical; NaN does not count as missing. -/
def nanSetting (order : List PyVal → List PyVal) : Setting String Data ℚ (Subterm String) :=
  { setting with
    order := order
    na := { nan := false }
    memorize := fun _ => .ok fun _ _ => .ok ⟨.box (.array .number 1 1 [.int 2, .nan 0, .int 1]) none none, [], none⟩ }

/-- The names of the columns of `a` for these data. -/
def nanNames (order : List PyVal → List PyVal) : Except Err (List (List String)) :=
  (designMatrixBuilders { nanSetting order with default := .coding (Contrast.dummyCode shown) (Contrast.treatment shown none) }
    [[]] [[⟨["a"]⟩]]).map (List.map (·.columnNames))
where
  shown : PyVal → String
    | .int i => toString i
    | _ => "nan"

end RenameSample

open RenameSample in
/-- Example for `alike_matrices`, `alike_success`: `y ~ 1 + a + a:x`; the names are the same, too. -/
example : ∃ t t', RenameSample.one = .ok t ∧ RenameSample.other = .ok t' ∧ t'.2.mat = t.2.mat ∧
    t'.2.info.columnNames = t.2.info.columnNames ∧
    t.2.info.columnNames = ["Intercept", "a[T.v]", "a[T.w]", "a[u]:x", "a[v]:x", "a[w]:x"] := by
  refine ⟨_, _, getOk_eq one_ok, getOk_eq other_ok, ?_⟩
  obtain ⟨_, h2, h3⟩ := alike_matrices alike (f := .desc model) (f' := .desc (renameModel pair model)) rfl rfl
    (fun _ _ => trivial) (getOk_eq one_ok) (getOk_eq other_ok)
  refine ⟨h2.mat, ?_, by decide +kernel⟩
  rw [DesignInfo.columnNames, DesignInfo.columnNames, (h3 fun _ => rfl).2.1]

open RenameSample in
example : (∃ t, highLevelDesign BuilderSample.setting (fun _ => false) none rows .matrix (.desc model) = .ok t) ↔
    ∃ t, highLevelDesign paired (fun _ => false) none rows .matrix (.desc (renameModel pair model)) = .ok t :=
  alike_success alike memorise_alike (fun _ => rfl) rfl rfl fun _ _ => trivial

open RenameSample in
/-- Example for `alike_predictions`: the levels are learned from two chunks, the matrices are built for other data. -/
example : ∃ dis dis', designMatrixBuilders BuilderSample.setting BuilderSample.chunks BuilderSample.terms = .ok dis ∧
    designMatrixBuilders paired BuilderSample.chunks (BuilderSample.terms.map (List.map (renameTerm pair))) = .ok dis' ∧
    buildDesignMatrices (fun _ => false) {} false none dis' rows = buildDesignMatrices (fun _ => false) {} false none dis rows ∧
    isOk (buildDesignMatrices (fun _ => false) {} false none dis rows) = true := by
  exact ⟨_, _, getOk_eq chunks_ok, getOk_eq chunks_ok', alike_predictions alike (fun _ _ => trivial) (getOk_eq chunks_ok)
    (getOk_eq chunks_ok') _ _ _ _ _, by decide +kernel⟩

open RenameSample in
/-- **C62**, NaN.  If NaN does not count as missing, it is a level, and as it cannot be sorted, the order of the levels and
hence the coding depend on the order in which Python goes through the set of levels. -/
theorem nan_order_matters : (∀ l : List Cat.PyVal, (id l).Perm l) ∧ (∀ l : List Cat.PyVal, l.reverse.Perm l) ∧
    okIs (nanNames id) [["a[2]", "a[nan]", "a[1]"]] = true ∧ okIs (nanNames List.reverse) [["a[1]", "a[nan]", "a[2]"]] = true := by
  refine ⟨fun _ => .refl _, fun l => l.reverse_perm, ?_, ?_⟩ <;> decide +kernel

namespace RenameSample

open ProgramSample FitSample FitSample2 BuilderSample Patsy.Program

/-- Another run of Python. -/
def rerun : Interp Col Col (Unit × Col) (State.Center Unit ℚ) ℚ (Nat × Subterm String) where
  tokens := interp.tokens
  isNumber := interp.isNumber
  toInt := interp.toInt
  python := interp.python
  stateful := interp.stateful
  classOf := interp.classOf
  visitNames := List.reverse
  visitFactors _ _ := List.reverse
  visit := id
  order := List.reverse
  hash s := (1, s)
  default := interp.default
  na := interp.na
  see := interp.see

theorem sane_rerun : Sane rerun where
  names l := l.reverse_perm
  factors _ _ l := l.reverse_perm
  visits _ := .refl _
  order l := l.reverse_perm
  hash _ _ h := (Prod.mk.inj h).2
  fits := ProgramSample.real.fits
  codes := ProgramSample.real.codes

theorem same_program : SameProgram interp rerun := ⟨rfl, rfl, rfl, rfl, rfl, rfl, rfl, rfl, rfl⟩

theorem rerun_ok : isOk (rerun.dmatrices FitSample.isnan none FitSample2.rows .matrix .exhausted raw) = true := by decide +kernel

end RenameSample

open RenameSample in
/-- Example for `same_run`: `x ~ center(x + center(x))`. -/
example : ∃ t t', ProgramSample.interp.dmatrices FitSample.isnan none FitSample2.rows .matrix .exhausted ProgramSample.raw = .ok t ∧
    rerun.dmatrices FitSample.isnan none FitSample2.rows .matrix .exhausted ProgramSample.raw = .ok t' ∧
    SameTable t.1 t'.1 ∧ SameTable t.2 t'.2 :=
  ⟨_, _, getOk_eq ProgramSample.ok, getOk_eq rerun_ok,
    (same_run ProgramSample.real.toSane sane_rerun same_program rfl (ProgramSample.fine_of _ rfl rfl)).2 _ _
      (getOk_eq ProgramSample.ok) (getOk_eq rerun_ok)⟩

end Patsy.Props
