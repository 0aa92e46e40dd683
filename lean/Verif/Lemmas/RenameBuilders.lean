import Verif.Lemmas.RenameBuild
import Verif.Lemmas.Builders
import Verif.Lemmas.Categorical
import Verif.Lemmas.Fit

/-!
# Renaming factors: `design_matrix_builders`
-/

set_option linter.unusedSectionVars false

namespace Patsy.Cat

open Patsy.Build (NAAction)

variable {Cn : Type}

/-- A set of levels that can be sorted. -/
def Tidy (l : List PyVal) : Prop := (∀ v ∈ l, Sortable v) ∧ (l.map PyVal.key).Nodup

theorem addLevel_tidy {set s : List PyVal} {v : PyVal} (hs : Tidy set) (hv : ∀ i, v ≠ .nan i) (h : addLevel set v = .ok s) :
    Tidy s := by
  have hk : v.key.isSome = true := by
    cases hk : v.key with
    | none => simp [addLevel, hk] at h
    | some k => rfl
  rw [addLevel_ok hk] at h
  cases h
  refine ⟨fun w hw => ?_, nodup_addKey hs.2⟩
  rw [addKey] at hw
  split at hw
  · exact hs.1 w hw
  · rcases List.mem_append.mp hw with hw | hw
    · exact hs.1 w hw
    · rw [List.mem_singleton] at hw
      subst hw
      cases w <;> simp [PyVal.key, Sortable] at hk hv ⊢

theorem sniffValue_tidy {na : NAAction} (hna : na.nan = true) {set s : List PyVal} {v : PyVal} (hs : Tidy set)
    (h : sniffValue na set v = .ok s) : Tidy s := by
  unfold sniffValue at h
  simp only [Patsy.Desc.bind_ok] at h
  obtain ⟨b, hb, h⟩ := h
  split at h
  · cases h; exact hs
  · rename_i hb'
    split at h
    · simp only [Patsy.Desc.bind_ok] at h
      obtain ⟨s1, h1, h2⟩ := h
      exact addLevel_tidy (addLevel_tidy hs (by simp) h1) (by simp) h2
    · refine addLevel_tidy hs ?_ h
      rintro i rfl
      simp [isCategoricalNA, hna, scalarIsNan, bind, Except.bind] at hb
      exact hb' hb

theorem foldlM_sniff_tidy {na : NAAction} (hna : na.nan = true) : ∀ {vals set s : List PyVal}, Tidy set →
    vals.foldlM (sniffValue na) set = .ok s → Tidy s := by
  intro vals
  induction vals with
  | nil => intro set s hs h; cases h; exact hs
  | cons v vals ih =>
    intro set s hs h
    rw [List.foldlM_cons, Patsy.Desc.bind_ok] at h
    obtain ⟨s1, h1, h2⟩ := h
    exact ih (sniffValue_tidy hna hs h1) h2

theorem sniffRaw_tidy {na : NAAction} (hna : na.nan = true) {s : Sniffer Cn} {r : Raw} {out} (hs : Tidy s.levelSet)
    (h : s.sniffRaw na r = .ok out) : Tidy out.1.levelSet := by
  cases r with
  | pandas cats codes => cases h; exact hs
  | array kind ndim ncols vals =>
    simp only [Sniffer.sniffRaw] at h
    split at h
    · cases h
      exact ⟨by simp [Sortable], by simp [PyVal.key, boolNum]⟩
    · split at h
      · cases h
      · simp only [Patsy.Desc.bind_ok] at h
        obtain ⟨set, h1, h2⟩ := h
        cases h2
        exact foldlM_sniff_tidy hna hs h1

theorem sniff_tidy {na : NAAction} (hna : na.nan = true) {s : Sniffer Cn} {v : CatValue Cn} {out} (hs : Tidy s.levelSet)
    (h : s.sniff na v = .ok out) : Tidy out.1.levelSet := by
  cases v with
  | raw r => exact sniffRaw_tidy hna hs h
  | box r c l =>
    cases l with
    | some l => cases h; exact hs
    | none => exact sniffRaw_tidy (s := { s with contrast := c }) hna hs h

end Patsy.Cat

namespace Patsy.Build

open Patsy.Desc Patsy.Redundancy Patsy.Cat
open Patsy.Spec (renameFactor renameSet HashAlike renameTerm Alike MemoriseAlike NamedAlike)

variable {F G D K Cn : Type} [DecidableEq F] [DecidableEq G]

/-- The levels that have been found for a factor can be sorted. -/
def OwnTidy : Own Cn → Prop
  | .working (some s) => Tidy s.levelSet
  | .finished s => Tidy s.levelSet
  | _ => True

theorem ownStep_tidy {na : NAAction} (hna : na.nan = true) {v : Except Err (CatValue Cn)} {o o' : Own Cn} (ho : OwnTidy o)
    (h : ownStep na v o = .ok o') : OwnTidy o' := by
  cases o with
  | working w =>
    simp only [ownStep, bind_ok] at h
    obtain ⟨x, _, h⟩ := h
    split at h
    · simp only [bind_ok, pure_ok] at h
      obtain ⟨r, hr, rfl⟩ := h
      have hw : Tidy (w.getD {}).levelSet := by
        cases w with
        | none => exact ⟨by simp, by simp⟩
        | some s => exact ho
      have := sniff_tidy hna hw hr
      split <;> exact this
    · simp only [bind_ok, pure_ok] at h
      obtain ⟨n, _, rfl⟩ := h
      trivial
  | number n => cases h; trivial
  | finished s => cases h; exact ho

theorem ownLoop_tidy {na : NAAction} (hna : na.nan = true) {ev : D → Except Err (CatValue Cn)} : ∀ {ds : List D} {o o' : Own Cn},
    OwnTidy o → ownLoop na ev ds o = .ok o' → OwnTidy o' := by
  intro ds
  induction ds with
  | nil => intro o o' ho h; cases h; exact ho
  | cons d ds ih =>
    intro o o' ho h
    rw [ownLoop, List.foldlM_cons, bind_ok] at h
    obtain ⟨o1, h1, h2⟩ := h
    exact ih (ownStep_tidy hna ho h1) h2

theorem ownResult_order {order order' : List PyVal → List PyVal} (h : ∀ l, (order l).Perm l) (h' : ∀ l, (order' l).Perm l)
    {o : Own Cn} (ho : OwnTidy o) : ownResult order' o = ownResult order o := by
  have key : ∀ s : Sniffer Cn, Tidy s.levelSet → s.levelsContrast order' = s.levelsContrast order := by
    intro s hs
    simp only [Sniffer.levelsContrast]
    rw [sortAnything_perm hs.1 hs.2 (h' _), sortAnything_perm hs.1 hs.2 (h _)]
  cases o with
  | working w =>
    cases w with
    | none => rfl
    | some s => simp only [ownResult, key s ho]
  | number n => rfl
  | finished s => simp only [ownResult, key s ho]

/-! ### Types -/

theorem examineTypes_rename {H H' : Type} [DecidableEq H] [DecidableEq H'] {φ : F → G} {P : Setting F D K H} {Q : Setting G D K H'}
    {used : F → Prop} (A : Alike used φ P Q) {chunks : List D} {ev : F → D → Except Err (CatValue Cn)} {ev' : G → D → Except Err (CatValue Cn)} {fs : List F}
    {gs : List G} (hfs : fs.Nodup) (hp : gs.Perm (fs.map φ)) (he : ∀ f ∈ fs, ev' (φ f) = ev f) :
    ((∃ r, examineTypes P.na P.order P.visit ev chunks fs = .ok r) ↔ ∃ r', examineTypes Q.na Q.order Q.visit ev' chunks gs = .ok r') ∧
    ∀ r r', examineTypes P.na P.order P.visit ev chunks fs = .ok r → examineTypes Q.na Q.order Q.visit ev' chunks gs = .ok r' →
      ∀ f, typeOf r' (φ f) = typeOf r f := by
  have hgs : gs.Nodup := hp.nodup_iff.mpr (hfs.map A.distinct)
  have hmem : ∀ f, φ f ∈ gs ↔ f ∈ fs := fun f => by
    rw [hp.mem_iff]
    exact List.mem_map_of_injective A.distinct
  constructor
  · rw [examineTypes_ok_iff A.visits hfs, examineTypes_ok_iff A.visits' hgs, A.na]
    constructor
    · intro h g hg
      obtain ⟨f, hf, rfl⟩ := List.mem_map.mp (hp.mem_iff.mp hg)
      rw [he f hf]
      exact h f hf
    · intro h f hf
      have := h (φ f) ((hmem f).mpr hf)
      rwa [he f hf] at this
  · intro r r' hr hr' f
    by_cases hf : f ∈ fs
    · have h1 := examineTypes_own A.visits hfs hr hf
      have h2 := examineTypes_own A.visits' hgs hr' ((hmem f).mpr hf)
      rw [he f hf, A.na] at h2
      cases ho : ownLoop P.na (ev f) chunks (.working none) with
      | error e => rw [ho] at h1; cases h1
      | ok o =>
        rw [ho, ok_bind] at h1 h2
        have h1' : ownResult P.order o = typeOf r f := by injection h1
        have h2' : ownResult Q.order o = typeOf r' (φ f) := by injection h2
        rw [← h1', ← h2']
        rcases A.order with h | ⟨hna, h, h'⟩
        · rw [h]
        · exact ownResult_order h h' (ownLoop_tidy hna (by trivial) ho)
    · rw [typeOf_none A.visits hr hf, typeOf_none A.visits' hr' (fun h => hf ((hmem f).mp h))]

theorem typeOf_alike {r : List (F × Nat) × List (F × List PyVal × Option Cn)} {r' : List (G × Nat) × List (G × List PyVal × Option Cn)}
    {f : F} {g : G} (h : typeOf r' g = typeOf r f) :
    dictGet r'.1 g = dictGet r.1 f ∧ (dictGet r.1 f = none → dictGet r'.2 g = dictGet r.2 f) := by
  simp only [typeOf] at h
  cases h1 : dictGet r'.1 g <;> cases h2 : dictGet r.1 f <;> cases h3 : dictGet r'.2 g <;> cases h4 : dictGet r.2 f <;>
    simp [h1, h2, h3, h4] at h ⊢ <;> first | exact h | exact Prod.ext h.1 h.2

/-! ### Factor infos -/

/-- The loop that makes the factor infos. -/
def makeInfos (eval : F → D → Except Err (Seen K)) (r : List (F × Nat) × List (F × List PyVal × Option (Contrast.Spec K)))
    (fs : List F) : Except Err (List (F × FactorInfo F D K)) :=
  fs.zipIdx.mapM fun fi => do
    let info ← factorInfo eval r.1 r.2 fi.2 fi.1
    pure (fi.1, info)

theorem makeInfos_get {eval : F → D → Except Err (Seen K)} {r : List (F × Nat) × List (F × List PyVal × Option (Contrast.Spec K))}
    {fs : List F} (hfs : fs.Nodup) {infos : List (F × FactorInfo F D K)} (h : makeInfos eval r fs = .ok infos) (f : F) :
    (f ∈ fs → ∃ fi, dictGet infos f = some fi ∧ factorInfo eval r.1 r.2 (fs.idxOf f) f = .ok fi) ∧
    (f ∉ fs → dictGet infos f = none) := by
  have hall := mapM_ok.mp h
  have hlen : fs.length = infos.length := by simpa using hall.length_eq
  have hget : ∀ i (hi : i < infos.length), infos[i].1 = fs[i]'(by omega) ∧
      factorInfo eval r.1 r.2 i (fs[i]'(by omega)) = .ok infos[i].2 := by
    intro i hi
    have := List.Forall₂.get hall (i := i) (by simpa [hlen] using hi) hi
    simp only [List.get_eq_getElem, bind_ok, pure_ok, List.getElem_zipIdx, Nat.zero_add] at this
    obtain ⟨info, h1, h2⟩ := this
    rw [← h2]
    exact ⟨rfl, h1⟩
  have hkeys : infos.map Prod.fst = fs := by
    refine List.ext_getElem (by simp [hlen]) fun i h1 h2 => ?_
    simp only [List.getElem_map]
    exact (hget i (by omega)).1
  constructor
  · intro hf
    cases hd : dictGet infos f with
    | none =>
      rw [← hkeys] at hf
      obtain ⟨p, hp, rfl⟩ := List.mem_map.mp hf
      simp only [dictGet, Option.map_eq_none_iff, List.find?_eq_none, decide_eq_true_eq] at hd
      exact absurd rfl (hd p hp)
    | some fi =>
      refine ⟨fi, rfl, ?_⟩
      obtain ⟨i, hi, hi2⟩ := List.getElem_of_mem (dictGet_mem hd)
      obtain ⟨h1, h2⟩ := hget i hi
      rw [hi2] at h1 h2
      have h1' : f = fs[i]'(by omega) := h1
      rw [h1', hfs.idxOf_getElem]
      exact h2
  · intro hf
    exact dictGet_none (by rwa [hkeys])

theorem makeInfos_ok {eval : F → D → Except Err (Seen K)} {r : List (F × Nat) × List (F × List PyVal × Option (Contrast.Spec K))}
    {fs : List F} : (∃ infos, makeInfos eval r fs = .ok infos) ↔ ∀ f ∈ fs, typeOf r f ≠ none := by
  have hone : ∀ uid f, (∃ fi, factorInfo eval r.1 r.2 uid f = .ok fi) ↔ typeOf r f ≠ none := by
    intro uid f
    simp only [factorInfo, typeOf]
    cases dictGet r.1 f with
    | some n => simp
    | none => cases dictGet r.2 f <;> simp
  constructor
  · rintro ⟨infos, h⟩ f hf
    have hall := mapM_ok.mp h
    obtain ⟨i, hi, rfl⟩ := List.getElem_of_mem hf
    have hlen : fs.length = infos.length := by simpa using hall.length_eq
    have := List.Forall₂.get hall (i := i) (by simpa using hi) (by omega)
    simp only [List.get_eq_getElem, bind_ok, pure_ok, List.getElem_zipIdx, Nat.zero_add] at this
    obtain ⟨info, h1, _⟩ := this
    exact (hone i _).mp ⟨info, h1⟩
  · intro h
    have key : ∀ l : List (F × Nat), (∀ p ∈ l, p.1 ∈ fs) → ∃ infos, (l.mapM fun fi => do
        let info ← factorInfo eval r.1 r.2 fi.2 fi.1
        pure (fi.1, info)) = (.ok infos : Except Err _) := by
      intro l
      induction l with
      | nil => intro _; exact ⟨[], rfl⟩
      | cons p l ih =>
        intro hl
        obtain ⟨infos, hi⟩ := ih fun q hq => hl q (by simp [hq])
        obtain ⟨fi, hfi⟩ := (hone p.2 p.1).mpr (h p.1 (hl p (by simp)))
        exact ⟨(p.1, fi) :: infos, by rw [List.mapM_cons, hfi, hi]; rfl⟩
    exact key _ fun p hp => (List.mem_zipIdx' hp).2 ▸ List.getElem_mem _

/-- The numbers of the factors in the other setting. -/
def renumber (φ : F → G) (fs : List F) (gs : List G) (n : Nat) : Nat :=
  if h : n < fs.length then gs.idxOf (φ fs[n]) else n

theorem renumber_injective {φ : F → G} (hφ : Function.Injective φ) {fs : List F} {gs : List G} (hfs : fs.Nodup)
    (hp : gs.Perm (fs.map φ)) : Function.Injective (renumber φ fs gs) := by
  have hlen : gs.length = fs.length := by simpa using hp.length_eq
  have hmem : ∀ n (h : n < fs.length), φ fs[n] ∈ gs := fun n h => hp.mem_iff.mpr (List.mem_map_of_mem (List.getElem_mem h))
  intro a b hab
  simp only [renumber] at hab
  by_cases ha : a < fs.length <;> by_cases hb : b < fs.length
  · simp only [ha, hb, dif_pos] at hab
    have := (List.idxOf_inj (hmem a ha)).mp hab
    exact (List.Nodup.getElem_inj_iff hfs).mp (hφ this)
  · simp only [ha, hb, dif_pos] at hab
    have := List.idxOf_lt_length_of_mem (hmem a ha)
    simp only [dif_neg, not_false_eq_true] at hab
    omega
  · simp only [ha, hb, dif_pos] at hab
    have := List.idxOf_lt_length_of_mem (hmem b hb)
    simp only [dif_neg, not_false_eq_true] at hab
    omega
  · simpa [ha, hb] using hab

theorem renumber_idxOf {φ : F → G} {fs : List F} {gs : List G} {f : F} (hf : f ∈ fs) :
    renumber φ fs gs (fs.idxOf f) = gs.idxOf (φ f) := by
  have h := List.idxOf_lt_length_of_mem hf
  simp only [renumber, h, dif_pos, List.getElem_idxOf]

theorem factorInfo_rename {φ : F → G} {eval : F → D → Except Err (Seen K)} {eval' : G → D → Except Err (Seen K)}
    {r : List (F × Nat) × List (F × List PyVal × Option (Contrast.Spec K))}
    {r' : List (G × Nat) × List (G × List PyVal × Option (Contrast.Spec K))} {f : F} (ht : typeOf r' (φ f) = typeOf r f)
    (he : eval' (φ f) = eval f) (σ : Nat → Nat) (uid : Nat) :
    factorInfo eval' r'.1 r'.2 (σ uid) (φ f) = (factorInfo eval r.1 r.2 uid f).map (renameInfo φ σ) := by
  obtain ⟨h1, h2⟩ := typeOf_alike ht
  simp only [factorInfo, h1, he]
  cases hn : dictGet r.1 f with
  | some n => rfl
  | none =>
    simp only [h2 hn]
    cases dictGet r.2 f <;> rfl

theorem allFactors_rename {φ : F → G} (hφ : Function.Injective φ) (tls : List (List (Term F))) :
    allFactors (tls.map (List.map (renameTerm φ))) = (allFactors tls).map φ := by
  simp only [allFactors]
  rw [← List.dedup_map_of_injective hφ]
  congr 1
  rw [List.flatMap_map, List.map_flatMap]
  refine List.flatMap_congr fun l _ => ?_
  rw [List.flatMap_map, List.map_flatMap]
  rfl

/-! ### Names do not matter for the coding -/

theorem makeDesign_names {H : Type} [DecidableEq H] {name name' : F → String} {hash : Subterm F → H}
    {nums : List (F × Nat)} {coder : F → Bool → Except Err (ContrastMatrix K)}
    {fis : List (F × FactorInfo F D K)} {ts : List (Term F)} {d d' : DesignInfo F D K}
    (h : makeDesign name hash nums coder fis ts = .ok d) (h' : makeDesign name' hash nums coder fis ts = .ok d') :
    d'.coding = d.coding ∧ d'.termSlices = d.termSlices ∧ d'.columnIndexes.length = d.columnIndexes.length := by
  simp only [makeDesign, bind_ok] at h h'
  obtain ⟨infos, hi, h⟩ := h
  obtain ⟨infos', hi', h'⟩ := h'
  rw [hi] at hi'
  cases hi'
  split at h
  · rename_i hcond
    rw [if_pos hcond] at h'
    simp only [bind_ok] at h h'
    obtain ⟨own, ho, names, _, h⟩ := h
    obtain ⟨own', ho', names', _, h'⟩ := h'
    rw [ho] at ho'
    cases ho'
    have g := make_good.mp h
    have g' := make_good.mp h'
    refine ⟨by rw [g.coding, g'.coding], by rw [g.slices, g'.slices], ?_⟩
    have := g.total
    have := g'.total
    rw [g.indexes, g'.indexes]
    simp only [List.length_zip, List.length_range, Nat.min_self]
    omega
  · cases h

/-! ### `design_matrix_builders` -/

/-- `design_matrix_builders` after memorisation, when the loops go through the factors `fs`. -/
def buildersOn {H : Type} [DecidableEq H] (P : Setting F D K H) (name : F → String) (eval : F → D → Except Err (Seen K))
    (chunks : List D) (fs : List F) (tls : List (List (Term F))) : Except Err (List (DesignInfo F D K)) := do
  let types ← examineTypes P.na P.order P.visit (fun f d => do pure (← eval f d).value) chunks fs
  let infos ← makeInfos eval types fs
  tls.mapM (makeDesign name P.hash types.1 (coderOf P.default types.2) infos)

/-- `design_matrix_builders` after memorisation. -/
def buildersRest {H : Type} [DecidableEq H] (P : Setting F D K H) (name : F → String) (eval : F → D → Except Err (Seen K))
    (chunks : List D) (tls : List (List (Term F))) : Except Err (List (DesignInfo F D K)) :=
  buildersOn P name eval chunks (P.visit (allFactors tls)) tls

theorem builders_rest {H : Type} [DecidableEq H] {P : Setting F D K H} {chunks : List D} {tls : List (List (Term F))}
    {dis : List (DesignInfo F D K)} : designMatrixBuilders P chunks tls = .ok dis ↔
      ∃ eval, P.memorize (P.visit (allFactors tls)) = .ok eval ∧ buildersRest P P.name eval chunks tls = .ok dis := by
  simp only [designMatrixBuilders, buildersRest, buildersOn, makeInfos, bind_ok]

theorem buildersOn_rename {H H' : Type} [DecidableEq H] [DecidableEq H'] {φ : F → G} {P : Setting F D K H} {Q : Setting G D K H'}
    {used : F → Prop} (A : Alike used φ P Q) {chunks : List D} {tls : List (List (Term F))} {eval : F → D → Except Err (Seen K)}
    {eval' : G → D → Except Err (Seen K)} {fs : List F} {gs : List G} (hfs : fs.Nodup) (hp : gs.Perm (fs.map φ))
    (he : ∀ f ∈ fs, eval' (φ f) = eval f)
    {name : F → String} {name' : G → String} (hname : ∀ f, name' (φ f) = name f) :
    (∀ dis, buildersOn P name eval chunks fs tls = .ok dis →
      buildersOn Q name' eval' chunks gs (tls.map (List.map (renameTerm φ))) = .ok (dis.map (renameDesign φ (renumber φ fs gs)))) ∧
    (∀ dis', buildersOn Q name' eval' chunks gs (tls.map (List.map (renameTerm φ))) = .ok dis' →
      ∃ dis, buildersOn P name eval chunks fs tls = .ok dis) := by
  simp only [buildersOn]
  have hgs : gs.Nodup := hp.nodup_iff.mpr (hfs.map A.distinct)
  have hmem : ∀ f, φ f ∈ gs ↔ f ∈ fs := fun f => by
    rw [hp.mem_iff]
    exact List.mem_map_of_injective A.distinct
  obtain ⟨h1, h2⟩ := examineTypes_rename (Cn := Contrast.Spec K) A (chunks := chunks)
    (ev := fun f d => do pure (← eval f d).value) (ev' := fun f d => do pure (← eval' f d).value) hfs hp
    (fun f hf => by funext d; simp only [he f hf])
  have step : ∀ r r', examineTypes P.na P.order P.visit (fun f d => do pure (← eval f d).value) chunks fs = .ok r →
      examineTypes Q.na Q.order Q.visit (fun f d => do pure (← eval' f d).value) chunks gs = .ok r' →
      ((∃ infos, makeInfos eval r fs = .ok infos) ↔ ∃ infos', makeInfos eval' r' gs = .ok infos') ∧
      ∀ infos infos', makeInfos eval r fs = .ok infos → makeInfos eval' r' gs = .ok infos' →
        (tls.map (List.map (renameTerm φ))).mapM (makeDesign name' Q.hash r'.1 (coderOf Q.default r'.2) infos') =
          (tls.mapM (makeDesign name P.hash r.1 (coderOf P.default r.2) infos)).map (List.map (renameDesign φ (renumber φ fs gs))) := by
    intro r r' hr hr'
    have ht := h2 r r' hr hr'
    constructor
    · rw [makeInfos_ok, makeInfos_ok]
      constructor
      · intro h g hg
        obtain ⟨f, hf, rfl⟩ := List.mem_map.mp (hp.mem_iff.mp hg)
        rw [ht f]
        exact h f hf
      · intro h f hf
        rw [← ht f]
        exact h _ ((hmem f).mpr hf)
    · intro infos infos' hi hi'
      have hinf : InfosAlike φ (renumber φ fs gs) infos infos' := by
        intro f
        by_cases hf : f ∈ fs
        · obtain ⟨fi, h3, h4⟩ := (makeInfos_get hfs hi f).1 hf
          obtain ⟨fi', h5, h6⟩ := (makeInfos_get hgs hi' (φ f)).1 ((hmem f).mpr hf)
          rw [← renumber_idxOf (φ := φ) (gs := gs) hf, factorInfo_rename (ht f) (he f hf), h4] at h6
          cases h6
          rw [h3, h5]
          rfl
        · rw [(makeInfos_get hfs hi f).2 hf, (makeInfos_get hgs hi' (φ f)).2 (fun h => hf ((hmem f).mp h))]
          rfl
      refine mapM_rename fun ts _ => makeDesign_rename A.distinct hname A.hash (fun f => (typeOf_alike (ht f)).1) ?_ hinf ts
      intro f b hn
      simp only [coderOf, (typeOf_alike (ht f)).2 hn, A.default]
  constructor
  · intro dis h
    simp only [bind_ok] at h
    obtain ⟨r, hr, infos, hi, hd⟩ := h
    obtain ⟨r', hr'⟩ := h1.mp ⟨r, hr⟩
    obtain ⟨s1, s2⟩ := step r r' hr hr'
    obtain ⟨infos', hi'⟩ := s1.mp ⟨infos, hi⟩
    rw [hr', ok_bind, hi', ok_bind, s2 infos infos' hi hi', hd]
    rfl
  · intro dis' h
    simp only [bind_ok] at h
    obtain ⟨r', hr', infos', hi', hd'⟩ := h
    obtain ⟨r, hr⟩ := h1.mpr ⟨r', hr'⟩
    obtain ⟨s1, s2⟩ := step r r' hr hr'
    obtain ⟨infos, hi⟩ := s1.mpr ⟨infos', hi'⟩
    rw [s2 infos infos' hi hi'] at hd'
    simp only [hr, ok_bind, hi]
    cases hd : tls.mapM (makeDesign name P.hash r.1 (coderOf P.default r.2) infos) with
    | error e => rw [hd] at hd'; cases hd'
    | ok dis => exact ⟨dis, rfl⟩

theorem buildersRest_rename {H H' : Type} [DecidableEq H] [DecidableEq H'] {φ : F → G} {P : Setting F D K H} {Q : Setting G D K H'}
    {used : F → Prop} (A : Alike used φ P Q) {chunks : List D} {tls : List (List (Term F))} {eval : F → D → Except Err (Seen K)}
    {eval' : G → D → Except Err (Seen K)} (he : ∀ f ∈ P.visit (allFactors tls), eval' (φ f) = eval f)
    {name : F → String} {name' : G → String} (hname : ∀ f, name' (φ f) = name f) :
    (∀ dis, buildersRest P name eval chunks tls = .ok dis →
      buildersRest Q name' eval' chunks (tls.map (List.map (renameTerm φ))) = .ok (dis.map (renameDesign φ
        (renumber φ (P.visit (allFactors tls)) (Q.visit (allFactors (tls.map (List.map (renameTerm φ))))))))) ∧
    (∀ dis', buildersRest Q name' eval' chunks (tls.map (List.map (renameTerm φ))) = .ok dis' →
      ∃ dis, buildersRest P name eval chunks tls = .ok dis) := by
  have hfs : (P.visit (allFactors tls)).Nodup := (A.visits _).nodup_iff.mpr (allFactors_nodup tls)
  have hp : (Q.visit (allFactors (tls.map (List.map (renameTerm φ))))).Perm ((P.visit (allFactors tls)).map φ) := by
    refine (A.visits' _).trans ?_
    rw [allFactors_rename A.distinct]
    exact ((A.visits _).map φ).symm
  exact buildersOn_rename A hfs hp he hname

/-- The designs differ only in the factors and in the names. -/
structure DesignAlike (φ : F → G) (σ : Nat → Nat) (d : DesignInfo F D K) (d' : DesignInfo G D K) : Prop where
  coding : d'.coding = d.coding.map (renameCoding φ σ)
  slices : d'.termSlices = d.termSlices.map (List.map (Prod.map (renameTerm φ) id))
  width : d'.columnIndexes.length = d.columnIndexes.length

theorem builders_alike {H H' : Type} [DecidableEq H] [DecidableEq H'] {φ : F → G} {P : Setting F D K H} {Q : Setting G D K H'}
    {used : F → Prop} (A : Alike used φ P Q) {chunks : List D} {tls : List (List (Term F))} {dis : List (DesignInfo F D K)} {dis' : List (DesignInfo G D K)}
    (hu : ∀ f ∈ allFactors tls, used f) (hP : designMatrixBuilders P chunks tls = .ok dis)
    (hQ : designMatrixBuilders Q chunks (tls.map (List.map (renameTerm φ))) = .ok dis') :
    ∃ σ, Function.Injective σ ∧ List.Forall₂ (DesignAlike φ σ) dis dis' ∧ (NamedAlike φ P Q → dis' = dis.map (renameDesign φ σ)) := by
  obtain ⟨eval, hm, h⟩ := builders_rest.mp hP
  obtain ⟨eval', hm', h'⟩ := builders_rest.mp hQ
  have hu' : ∀ f ∈ P.visit (allFactors tls), used f := fun f hf => hu f ((A.visits _).mem_iff.mp hf)
  have hfs : (P.visit (allFactors tls)).Nodup := (A.visits _).nodup_iff.mpr (allFactors_nodup tls)
  have hp : (Q.visit (allFactors (tls.map (List.map (renameTerm φ))))).Perm ((P.visit (allFactors tls)).map φ) := by
    refine (A.visits' _).trans ?_
    rw [allFactors_rename A.distinct]
    exact ((A.visits _).map φ).symm
  have he := A.values _ _ hu' hfs hp eval eval' hm hm'
  refine ⟨_, renumber_injective A.distinct hfs hp, ?_, ?_⟩
  · obtain ⟨r1, r2⟩ := buildersRest_rename A he (name := fun f => Q.name (φ f)) (name' := Q.name) (fun _ => rfl) (chunks := chunks)
    obtain ⟨dis₀, h₀⟩ := r2 dis' h'
    have := r1 dis₀ h₀
    rw [h'] at this
    cases this
    simp only [buildersRest, buildersOn, bind_ok] at h h₀
    obtain ⟨r, hr, infos, hi, hd⟩ := h
    obtain ⟨r₀, hr₀, infos₀, hi₀, hd₀⟩ := h₀
    rw [hr] at hr₀
    cases hr₀
    rw [hi] at hi₀
    cases hi₀
    rw [mapM_ok] at hd hd₀
    clear hP hQ hu hu' h' r1 r2 hm hm' he hp hfs hr hi
    generalize renumber φ _ _ = σ
    induction hd generalizing dis₀ with
    | nil => cases hd₀; exact .nil
    | cons h1 _ ih =>
      cases hd₀ with
      | cons h2 h3 =>
        obtain ⟨e1, e2, e3⟩ := makeDesign_names h1 h2
        exact .cons ⟨by rw [← e1]; rfl, by rw [← e2]; rfl, e3⟩ (ih _ h3)
  · intro hn
    have := (buildersRest_rename A he (name := P.name) (name' := Q.name) hn (chunks := chunks)).1 dis h
    rw [h'] at this
    exact Except.ok.inj this

theorem builders_alike_ok {H H' : Type} [DecidableEq H] [DecidableEq H'] {φ : F → G} {P : Setting F D K H} {Q : Setting G D K H'}
    {used : F → Prop} (A : Alike used φ P Q) (hM : MemoriseAlike used φ P Q) (hN : NamedAlike φ P Q) {chunks : List D} {tls : List (List (Term F))}
    (hu : ∀ f ∈ allFactors tls, used f) : (∃ dis, designMatrixBuilders P chunks tls = .ok dis) ↔
      ∃ dis', designMatrixBuilders Q chunks (tls.map (List.map (renameTerm φ))) = .ok dis' := by
  have hu' : ∀ f ∈ P.visit (allFactors tls), used f := fun f hf => hu f ((A.visits _).mem_iff.mp hf)
  have hfs : (P.visit (allFactors tls)).Nodup := (A.visits _).nodup_iff.mpr (allFactors_nodup tls)
  have hp : (Q.visit (allFactors (tls.map (List.map (renameTerm φ))))).Perm ((P.visit (allFactors tls)).map φ) := by
    refine (A.visits' _).trans ?_
    rw [allFactors_rename A.distinct]
    exact ((A.visits _).map φ).symm
  constructor
  · rintro ⟨dis, h⟩
    obtain ⟨eval, hm, h⟩ := builders_rest.mp h
    obtain ⟨eval', hm'⟩ := (hM _ _ hu' hfs hp).mp ⟨eval, hm⟩
    have he := A.values _ _ hu' hfs hp eval eval' hm hm'
    exact ⟨_, builders_rest.mpr ⟨eval', hm', (buildersRest_rename A he hN).1 dis h⟩⟩
  · rintro ⟨dis', h'⟩
    obtain ⟨eval', hm', h'⟩ := builders_rest.mp h'
    obtain ⟨eval, hm⟩ := (hM _ _ hu' hfs hp).mpr ⟨eval', hm'⟩
    have he := A.values _ _ hu' hfs hp eval eval' hm hm'
    obtain ⟨dis, h⟩ := (buildersRest_rename A he hN).2 dis' h'
    exact ⟨dis, builders_rest.mpr ⟨eval, hm, h⟩⟩

end Patsy.Build
