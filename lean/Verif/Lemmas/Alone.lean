import Verif.Lemmas.ChunkedDesign
import Verif.Lemmas.RenameBuild

/-!
# A design depends only on its own factors
-/

set_option linter.unusedSectionVars false

namespace Patsy.Build

open Patsy.Spec Patsy.Desc Patsy.Cat Patsy.Redundancy

variable {F D K : Type} [DecidableEq F]

theorem mapM_same {A B : Type} {f g : A → Except Err B} {l : List A} (h : ∀ a ∈ l, f a = g a) : l.mapM f = l.mapM g := by
  induction l with
  | nil => rfl
  | cons a l ih => rw [List.mapM_cons, List.mapM_cons, h a (by simp), ih fun b hb => h b (by simp [hb])]

theorem makeSubtermInfos_local {H : Type} [DecidableEq H] {hash : Subterm F → H} {nums nums' : List (F × Nat)}
    {coder coder' : F → Bool → Except Err (ContrastMatrix K)} {ts : List (Term F)}
    (hn : ∀ t ∈ ts, ∀ f ∈ t.factors, dictGet nums' f = dictGet nums f)
    (hc : ∀ t ∈ ts, ∀ f ∈ t.factors, dictGet nums f = none → coder' f = coder f) :
    makeSubtermInfos hash nums' coder' ts = makeSubtermInfos hash nums coder ts := by
  have hnum : ∀ t ∈ ts, ∀ f ∈ t.factors, isNumeric nums' f = isNumeric nums f := fun t ht f hf => by
    simp only [isNumeric, hn t ht f hf]
  have hb : buckets nums' ts = buckets nums ts := by
    refine List.foldl_ext _ _ _ fun s t ht => ?_
    have : bucketOf nums' t = bucketOf nums t := by
      unfold bucketOf
      rw [List.filter_congr (hnum t ht)]
    unfold bucketStep
    rw [this]
  have hl : ∀ (coding : Subterm F) (fs : List F), (∀ f ∈ fs, ∃ t ∈ ts, f ∈ t.factors) →
      subtermLoop nums' coder' coding fs = subtermLoop nums coder coding fs := by
    intro coding fs
    induction fs with
    | nil => intro _; rfl
    | cons f fs ih =>
      intro hfs
      obtain ⟨t, ht, hf⟩ := hfs f (by simp)
      simp only [subtermLoop, hn t ht f hf, ih fun g hg => hfs g (by simp [hg])]
      cases hd : dictGet nums f with
      | some n => rfl
      | none => simp only [hc t ht f hf hd]
  have hm : ∀ t ∈ ts, makeSubterm nums' coder' t = makeSubterm nums coder t := by
    intro t ht
    funext c
    simp only [makeSubterm, hl c t.factors fun f hf => ⟨t, ht, hf⟩]
  have hp : ∀ t ∈ ts, ∀ used : List H, pickContrasts hash (isNumeric nums') t.factors used =
      pickContrasts hash (isNumeric nums) t.factors used := by
    intro t ht used
    unfold pickContrasts
    rw [List.filter_congr fun f hf => by rw [hnum t ht f hf]]
  have hcb : ∀ (l : List (Term F)) (used : List H), (∀ t ∈ l, t ∈ ts) →
      codeBucket hash nums' coder' l used = codeBucket hash nums coder l used := by
    intro l
    induction l with
    | nil => intro _ _; rfl
    | cons t l ih =>
      intro used hl
      simp only [codeBucket, hp t (hl t (by simp)), hm t (hl t (by simp))]
      congr 1
      funext c
      congr 1
      funext sts
      rw [ih _ fun u hu => hl u (by simp [hu])]
  simp only [makeSubtermInfos, hb]
  rw [mapM_same fun b hb' => hcb _ _ fun t ht => ?_]
  have h3 := (order_spec nums ts).2.2 b hb'
  rw [h3] at ht
  exact List.mem_of_mem_filter ((List.perm_insertionSort _ _).mem_iff.mp ht)

theorem columnsPerFactor_local {fis fis' : List (F × FactorInfo F D K)} (cms : List (F × ContrastMatrix K)) {fs : List F}
    (h : ∀ f ∈ fs, dictGet fis' f = dictGet fis f) : columnsPerFactor fis' cms fs = columnsPerFactor fis cms fs := by
  induction fs with
  | nil => rfl
  | cons f fs ih => simp only [columnsPerFactor, h f (by simp), ih fun g hg => h g (by simp [hg])]

theorem namePieces_local {name : F → String} {fis fis' : List (F × FactorInfo F D K)} (cms : List (F × ContrastMatrix K))
    {fs : List F} (h : ∀ f ∈ fs, dictGet fis' f = dictGet fis f) :
    ∀ js, namePieces name fis' cms fs js = namePieces name fis cms fs js := by
  induction fs with
  | nil => intro js; cases js <;> rfl
  | cons f fs ih =>
    intro js
    cases js with
    | nil => rfl
    | cons j js => simp only [namePieces, namePiece, h f (by simp), ih fun g hg => h g (by simp [hg])]

theorem subtermColumnNames_local {name : F → String} {fis fis' : List (F × FactorInfo F D K)} {st : SubtermInfo F K}
    (h : ∀ f ∈ st.factors, dictGet fis' f = dictGet fis f) : subtermColumnNames name fis' st = subtermColumnNames name fis st := by
  simp only [subtermColumnNames, subtermCombinations, columnsPerFactor_local st.contrasts h, namePieces_local st.contrasts h]

theorem designFactors_local {fis fis' : List (F × FactorInfo F D K)} {ts : List (Term F)}
    (h : ∀ t ∈ ts, ∀ f ∈ t.factors, dictGet fis' f = dictGet fis f) : designFactors fis' ts = designFactors fis ts := by
  unfold designFactors
  have h' : ∀ f ∈ ts.flatMap (·.factors), dictGet fis' f = dictGet fis f := by
    intro f hf
    obtain ⟨t, ht, hf⟩ := List.mem_flatMap.mp hf
    exact h t ht f hf
  generalize ts.flatMap (·.factors) = fs at h'
  generalize ([] : List (F × FactorInfo F D K)) = acc
  induction fs generalizing acc with
  | nil => rfl
  | cons f fs ih =>
    rw [List.foldlM_cons, List.foldlM_cons, h' f (by simp)]
    congr 1
    funext acc'
    exact ih (fun g hg => h' g (by simp [hg])) acc'

/-- What is known about other factors does not matter for a design. -/
theorem makeDesign_local {H : Type} [DecidableEq H] {name : F → String} {hash : Subterm F → H} {nums nums' : List (F × Nat)}
    {coder coder' : F → Bool → Except Err (ContrastMatrix K)} {fis fis' : List (F × FactorInfo F D K)} {ts : List (Term F)}
    (hn : ∀ t ∈ ts, ∀ f ∈ t.factors, dictGet nums' f = dictGet nums f)
    (hc : ∀ t ∈ ts, ∀ f ∈ t.factors, dictGet nums f = none → coder' f = coder f)
    (hf : ∀ t ∈ ts, ∀ f ∈ t.factors, dictGet fis' f = dictGet fis f) {d : DesignInfo F D K}
    (h : makeDesign name hash nums coder fis ts = .ok d) : makeDesign name hash nums' coder' fis' ts = .ok d := by
  have h0 := h
  simp only [makeDesign, bind_ok] at h
  obtain ⟨infos, hi, h⟩ := h
  split at h
  · rename_i hcond
    simp only [bind_ok] at h
    obtain ⟨own, ho, names, hnm, h⟩ := h
    have hval := (make_good.mp h).valid
    rw [← h0]
    simp only [makeDesign, makeSubtermInfos_local hn hc, designFactors_local hf, hi, ok_bind, if_pos hcond]
    congr 1
    funext own'
    rw [mapM_same fun st hst => subtermColumnNames_local fun f hf' => ?_]
    obtain ⟨p, hp, hst⟩ := List.mem_flatMap.mp hst
    have hfp := hval.sub p hp st hst f hf'
    simp only [Bool.and_eq_true, List.all_eq_true, List.any_eq_true] at hcond
    obtain ⟨t, ht, hpt⟩ := hcond.1 p hp
    exact hf t ht f ((Term.eqv_iff.mp hpt f).mp hfp)
  · cases h

theorem dictGet_filter {A B : Type} [DecidableEq A] (l : List (A × B)) (S : List A) (a : A) :
    dictGet (l.filter fun p => decide (p.1 ∈ S)) a = if a ∈ S then dictGet l a else none := by
  simp only [dictGet]
  induction l with
  | nil => simp
  | cons p l ih =>
    by_cases hp : p.1 ∈ S
    · rw [List.filter_cons_of_pos (by simpa using hp), List.find?_cons, List.find?_cons]
      by_cases ha : p.1 = a
      · subst ha; simp [hp]
      · simp only [ha, decide_false]; exact ih
    · rw [List.filter_cons_of_neg (by simpa using hp), ih]
      by_cases ha : p.1 = a
      · subst ha; simp [hp]
      · rw [List.find?_cons]; simp only [ha, decide_false]

theorem renameTerm_id (t : Term F) : renameTerm id t = t := by simp [renameTerm]

theorem renameSet_id (s : Subterm F) : renameSet id s = s := by
  have : renameFactor (id : F → F) = id := by funext e; rfl
  rw [renameSet, this, Finset.image_id]

theorem makeDesign_alone {H : Type} [DecidableEq H] {name : F → String} {hash : Subterm F → H} {nums nums' : List (F × Nat)}
    {coder coder' : F → Bool → Except Err (ContrastMatrix K)} {fis fis' : List (F × FactorInfo F D K)} {ts : List (Term F)}
    {σ : Nat → Nat} (hn : ∀ t ∈ ts, ∀ f ∈ t.factors, dictGet nums' f = dictGet nums f)
    (hc : ∀ t ∈ ts, ∀ f ∈ t.factors, dictGet nums f = none → coder' f = coder f)
    (hf : ∀ t ∈ ts, ∀ f ∈ t.factors, dictGet fis' f = (dictGet fis f).map (renameInfo id σ)) {d' : DesignInfo F D K}
    (h : makeDesign name hash nums' coder' fis' ts = .ok d') :
    ∃ d, makeDesign name hash nums coder fis ts = .ok d ∧ d' = renameDesign id σ d := by
  let S := ts.flatMap (·.factors)
  have hS : ∀ t ∈ ts, ∀ f ∈ t.factors, f ∈ S := fun t ht f hf => List.mem_flatMap.mpr ⟨t, ht, hf⟩
  have h1 : makeDesign name hash nums coder (fis'.filter fun p => decide (p.1 ∈ S)) ts = .ok d' :=
    makeDesign_local (fun t ht f hf => (hn t ht f hf).symm)
      (fun t ht f hf hnone => (hc t ht f hf ((hn t ht f hf).symm.trans hnone)).symm)
      (fun t ht f hf => by rw [dictGet_filter, if_pos (hS t ht f hf)]) h
  have h2 := makeDesign_rename (φ := (id : F → F)) (σ := σ) (name := name) (name' := name) (hash := hash) (hash' := hash)
    (nums := nums) (nums' := nums) (coder := coder) (coder' := coder) (fis := fis.filter fun p => decide (p.1 ∈ S))
    (fis' := fis'.filter fun p => decide (p.1 ∈ S)) Function.injective_id (fun _ => rfl)
    (fun s t => by rw [renameSet_id, renameSet_id]) (fun _ => rfl) (fun _ _ _ => rfl)
    (fun f => by
      simp only [id, dictGet_filter]
      split
      · rename_i h
        obtain ⟨t, ht, hf'⟩ := List.mem_flatMap.mp h
        exact hf t ht f hf'
      · rfl) ts
  rw [show ts.map (renameTerm id) = ts by
    rw [List.map_congr_left (g := id) fun t _ => renameTerm_id t, List.map_id], h1] at h2
  cases hd : makeDesign name hash nums coder (fis.filter fun p => decide (p.1 ∈ S)) ts with
  | error e => rw [hd] at h2; cases h2
  | ok d =>
    rw [hd] at h2
    refine ⟨d, makeDesign_local (fun _ _ _ _ => rfl) (fun _ _ _ _ _ => rfl)
      (fun t ht f hf => by rw [dictGet_filter, if_pos (hS t ht f hf)]) hd, ?_⟩
    exact Except.ok.inj h2

theorem makeDesign_company {H : Type} [DecidableEq H] {name : F → String} {hash : Subterm F → H} {nums nums' : List (F × Nat)}
    {coder coder' : F → Bool → Except Err (ContrastMatrix K)} {fis fis' : List (F × FactorInfo F D K)} {ts : List (Term F)}
    {σ : Nat → Nat} (hn : ∀ t ∈ ts, ∀ f ∈ t.factors, dictGet nums' f = dictGet nums f)
    (hc : ∀ t ∈ ts, ∀ f ∈ t.factors, dictGet nums f = none → coder' f = coder f)
    (hf : ∀ t ∈ ts, ∀ f ∈ t.factors, dictGet fis' f = (dictGet fis f).map (renameInfo id σ)) {d : DesignInfo F D K}
    (h : makeDesign name hash nums coder fis ts = .ok d) :
    makeDesign name hash nums' coder' fis' ts = .ok (renameDesign id σ d) := by
  let S := ts.flatMap (·.factors)
  have hS : ∀ t ∈ ts, ∀ f ∈ t.factors, f ∈ S := fun t ht f hf => List.mem_flatMap.mpr ⟨t, ht, hf⟩
  have h1 : makeDesign name hash nums coder (fis.filter fun p => decide (p.1 ∈ S)) ts = .ok d :=
    makeDesign_local (fun _ _ _ _ => rfl) (fun _ _ _ _ _ => rfl)
      (fun t ht f hf => by rw [dictGet_filter, if_pos (hS t ht f hf)]) h
  have h2 := makeDesign_rename (φ := (id : F → F)) (σ := σ) (name := name) (name' := name) (hash := hash) (hash' := hash)
    (nums := nums) (nums' := nums) (coder := coder) (coder' := coder) (fis := fis.filter fun p => decide (p.1 ∈ S))
    (fis' := fis'.filter fun p => decide (p.1 ∈ S)) Function.injective_id (fun _ => rfl)
    (fun s t => by rw [renameSet_id, renameSet_id]) (fun _ => rfl) (fun _ _ _ => rfl)
    (fun f => by
      simp only [id, dictGet_filter]
      split
      · rename_i h
        obtain ⟨t, ht, hf'⟩ := List.mem_flatMap.mp h
        exact hf t ht f hf'
      · rfl) ts
  rw [show ts.map (renameTerm id) = ts by
    rw [List.map_congr_left (g := id) fun t _ => renameTerm_id t, List.map_id], h1] at h2
  exact makeDesign_local hn hc (fun t ht f hf => by rw [dictGet_filter, if_pos (hS t ht f hf)]) h2

/-- The numbers that the factors `fs` have in a longer list; numbers that do not occur go behind it. -/
def among (fs gs : List F) (n : Nat) : Nat := if h : n < fs.length then gs.idxOf fs[n] else gs.length + n

theorem among_injective {fs gs : List F} (hfs : fs.Nodup) (hsub : ∀ f ∈ fs, f ∈ gs) : Function.Injective (among fs gs) := by
  intro a b hab
  simp only [among] at hab
  by_cases ha : a < fs.length <;> by_cases hb : b < fs.length
  · simp only [ha, hb, dif_pos] at hab
    have := (List.idxOf_inj (hsub _ (List.getElem_mem ha))).mp hab
    exact (List.Nodup.getElem_inj_iff hfs).mp this
  · simp only [ha, hb, dif_pos] at hab
    have := List.idxOf_lt_length_of_mem (hsub _ (List.getElem_mem ha))
    simp only [dif_neg, not_false_eq_true] at hab
    omega
  · simp only [ha, hb, dif_pos] at hab
    have := List.idxOf_lt_length_of_mem (hsub _ (List.getElem_mem hb))
    simp only [dif_neg, not_false_eq_true] at hab
    omega
  · simp only [ha, hb, dif_neg, not_false_eq_true] at hab
    omega

theorem among_idxOf {fs gs : List F} {f : F} (hf : f ∈ fs) : among fs gs (fs.idxOf f) = gs.idxOf f := by
  have h := List.idxOf_lt_length_of_mem hf
  simp only [among, h, dif_pos, List.getElem_idxOf]

end Patsy.Build
