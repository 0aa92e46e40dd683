import Verif.Lemmas.Outcome

/-!
# The errors of `_make_subterm_infos` and of the constructor of `DesignInfo`
-/

namespace Patsy.Outcome

open Patsy.Spec Patsy.Build Patsy.Desc Patsy.Cat Patsy.Props Patsy.Redundancy Patsy.Names

variable {F D K : Type} [DecidableEq F]

/-! ### `_make_subterm_infos` -/

theorem subtermLoop_error {nums : List (F × Nat)} {coder : F → Bool → Except Err (ContrastMatrix K)}
    {coding : Subterm F} {fs : List F} {e : Err} (h : subtermLoop nums coder coding fs = .error e) :
    ∃ f ∈ fs, dictGet nums f = none ∧ ∃ full, coder f full = .error e := by
  induction fs with
  | nil => cases h
  | cons f fs ih =>
    have ih' : subtermLoop nums coder coding fs = .error e →
        ∃ g ∈ f :: fs, dictGet nums g = none ∧ ∃ full, coder g full = .error e := fun h => by
      obtain ⟨g, hg, h'⟩ := ih h
      exact ⟨g, List.mem_cons_of_mem _ hg, h'⟩
    simp only [subtermLoop] at h
    split at h
    · simp only [bind_error] at h
      rcases h with h' | ⟨_, _, h'⟩
      · exact ih' h'
      · cases h'
    · rename_i hn
      split at h
      · rename_i full _
        simp only [bind_error] at h
        rcases h with h' | ⟨_, _, h' | ⟨_, _, h'⟩⟩
        · exact ⟨f, by simp, hn, full, h'⟩
        · exact ih' h'
        · cases h'
      · exact ih' h

theorem makeSubterm_error {nums : List (F × Nat)} {coder : F → Bool → Except Err (ContrastMatrix K)}
    {coding : Subterm F} {t : Term F} {e : Err} (h : makeSubterm nums coder t coding = .error e) :
    ∃ f ∈ t.factors, dictGet nums f = none ∧ ∃ full, coder f full = .error e := by
  simp only [makeSubterm, bind_error] at h
  rcases h with h' | ⟨out, ho, h'⟩
  · exact subtermLoop_error h'
  · exfalso
    obtain ⟨h1, h2, _⟩ := subtermLoop_spec ho
    have hk := keys_of_forall₂ h2 fun f p h => h.1
    simp only [SubtermInfo.make] at h'
    rw [if_neg] at h'
    · cases h'
    · simp only [List.any_eq_true, decide_eq_true_eq, not_exists, not_and, not_not]
      intro p hp
      have : p.1 ∈ out.2.1.map Prod.fst := List.mem_map_of_mem hp
      rw [hk, List.mem_filter] at this
      rw [h1, List.mem_filter]
      have h3 := this.2
      simp only [Bool.and_eq_true] at h3
      exact ⟨this.1, by simp [h3.2]⟩

theorem codeBucket_error {H : Type} [DecidableEq H] {hash : Subterm F → H} {nums : List (F × Nat)}
    {coder : F → Bool → Except Err (ContrastMatrix K)} {ts : List (Term F)} {used : List H}
    (hnd : ∀ t ∈ ts, t.factors.Nodup) {e : Err} (h : codeBucket hash nums coder ts used = .error e) :
    ∃ t ∈ ts, ∃ f ∈ t.factors, dictGet nums f = none ∧ ∃ full, coder f full = .error e := by
  induction ts generalizing used with
  | nil => cases h
  | cons t ts ih =>
    obtain ⟨cs, used', h1, _⟩ := coding_never_fails hash (isNumeric nums) t.factors (hnd t (by simp)) used
    simp only [codeBucket, h1, ok_bind, bind_error] at h
    rcases h with h' | ⟨_, _, h' | ⟨_, _, h'⟩⟩
    · obtain ⟨c, _, hc⟩ := mapM_error h'
      exact ⟨t, by simp, makeSubterm_error hc⟩
    · obtain ⟨t', ht', h2⟩ := ih (fun t ht => hnd t (List.mem_cons_of_mem _ ht)) h'
      exact ⟨t', List.mem_cons_of_mem _ ht', h2⟩
    · cases h'

theorem makeSubtermInfos_error {H : Type} [DecidableEq H] {hash : Subterm F → H} {nums : List (F × Nat)}
    {coder : F → Bool → Except Err (ContrastMatrix K)} {ts : List (Term F)} (hnd : ∀ t ∈ ts, t.factors.Nodup)
    (hdis : ts.Pairwise fun s t => Term.eqv s t = false) {e : Err}
    (h : makeSubtermInfos hash nums coder ts = .error e) :
    ∃ t ∈ ts, ∃ f ∈ t.factors, dictGet nums f = none ∧ ∃ full, coder f full = .error e := by
  have hin := newTermOrder_inOrder nums hnd
  have hperm := inOrder_perm hin
  have hmem : ∀ b ∈ moveEmptyFirst (buckets nums ts).1 (buckets nums ts).2, ∀ t ∈ sortByDegree
      ((dictGet (buckets nums ts).2 b).getD []), t ∈ ts := by
    intro b hb t ht
    exact hperm.mem_iff.mp (List.mem_flatMap.mpr ⟨b, hb, ht⟩)
  simp only [makeSubtermInfos, bind_error] at h
  rcases h with h' | ⟨assigned, ha, h'⟩
  · obtain ⟨b, hb, h1⟩ := mapM_error h'
    obtain ⟨t, ht, h2⟩ := codeBucket_error (fun t ht => hnd t (hmem b hb t ht)) h1
    exact ⟨t, hmem b hb t ht, h2⟩
  · exfalso
    have hkeys : assigned.flatten.map Prod.fst =
        (moveEmptyFirst (buckets nums ts).1 (buckets nums ts).2).flatMap fun b =>
          sortByDegree ((dictGet (buckets nums ts).2 b).getD []) := by
      have ha' := mapM_ok.mp ha
      clear hmem hperm hin ha h'
      generalize moveEmptyFirst (buckets nums ts).1 (buckets nums ts).2 = order at ha'
      induction ha' with
      | nil => rfl
      | cons h1 _ ih =>
        rw [List.flatten_cons, List.map_append, ih, (codeBucket_spec h1).1, List.flatMap_cons]
    have hp2 : assigned.flatten.Pairwise fun p q => Term.eqv p.1 q.1 = false := by
      rw [← List.pairwise_map (f := Prod.fst) (R := fun s t => Term.eqv s t = false), hkeys]
      exact (hperm.pairwise_iff fun {s t} h => by rw [eqv_comm]; exact h).mpr hdis
    simp only [(dictOf_terms assigned.flatten).2.2 hp2, hkeys, sameTerms_refl, if_true] at h'
    cases h'

/-! ### The names of the columns -/

/-- What the names of the columns of a factor are made from is there. -/
def Named (fis : List (F × FactorInfo F D K)) (cms : List (F × ContrastMatrix K)) (f : F) : Prop :=
  ∃ fi, dictGet fis f = some fi ∧ ((∃ n, fi.type = .numerical n ∧ dictGet cms f = none) ∨
    ∃ k cm, fi.type = .categorical k ∧ dictGet cms f = some cm ∧ cm.suffixes.length = cm.ncols)

theorem columnsPerFactor_congr {fis : List (F × FactorInfo F D K)} {cms cms' : List (F × ContrastMatrix K)} {fs : List F}
    (h : ∀ f ∈ fs, dictGet cms f = dictGet cms' f) : columnsPerFactor fis cms fs = columnsPerFactor fis cms' fs := by
  induction fs with
  | nil => rfl
  | cons f fs ih =>
    simp only [columnsPerFactor, ih fun g hg => h g (List.mem_cons_of_mem _ hg), h f (by simp)]

theorem subtermLoop_named {nums : List (F × Nat)} {coder : F → Bool → Except Err (ContrastMatrix K)}
    {coding : Subterm F} {fis : List (F × FactorInfo F D K)} {fs : List F} (hnd : fs.Nodup)
    {out : List F × List (F × ContrastMatrix K) × Nat} (h : subtermLoop nums coder coding fs = .ok out)
    (hnum : ∀ f ∈ fs, ∀ n, dictGet nums f = some n → ∃ fi, dictGet fis f = some fi ∧ fi.type = .numerical n)
    (hcat : ∀ f ∈ fs, dictGet nums f = none → (∃ fi k, dictGet fis f = some fi ∧ fi.type = .categorical k) ∧
      ∀ full cm, coder f full = .ok cm → cm.suffixes.length = cm.ncols) :
    (∀ f ∈ out.1, Named fis out.2.1 f) ∧ ∃ ns, columnsPerFactor fis out.2.1 out.1 = .ok ns ∧ ns.prod = out.2.2 := by
  induction fs generalizing out with
  | nil =>
    simp only [subtermLoop, Except.ok.injEq] at h
    subst h
    exact ⟨by simp, [], rfl, rfl⟩
  | cons f fs ih =>
    rw [List.nodup_cons] at hnd
    have ih := fun {out} (h : subtermLoop nums coder coding fs = .ok out) => ih hnd.2 h
      (fun g hg => hnum g (List.mem_cons_of_mem _ hg)) (fun g hg => hcat g (List.mem_cons_of_mem _ hg))
    have hsub : ∀ {r}, subtermLoop nums coder coding fs = .ok r → ∀ g ∈ r.1, g ∈ fs := by
      intro r hr g hg
      rw [(subtermLoop_spec hr).1, List.mem_filter] at hg
      exact hg.1
    have hkeys : ∀ {r}, subtermLoop nums coder coding fs = .ok r → dictGet r.2.1 f = none := by
      intro r hr
      have hk := keys_of_forall₂ (subtermLoop_spec hr).2.1 fun f p h => h.1
      by_contra hne
      obtain ⟨cm, hcm⟩ := Option.ne_none_iff_exists'.mp hne
      have : f ∈ r.2.1.map Prod.fst := List.mem_map_of_mem (f := Prod.fst) (dictGet_mem hcm)
      rw [hk, List.mem_filter] at this
      exact hnd.1 this.1
    simp only [subtermLoop] at h
    split at h
    · rename_i n hn
      simp only [bind_ok, Except.ok.injEq] at h
      obtain ⟨r, hr, rfl⟩ := h
      obtain ⟨fi, h1, h2⟩ := hnum f (by simp) n hn
      obtain ⟨i1, ns, i2, i3⟩ := ih hr
      have hk0 : dictGet r.2.1 f = none := hkeys (r := r) hr
      refine ⟨?_, n :: ns, ?_, by simp [i3]⟩
      · intro g hg
        rcases List.mem_cons.mp hg with rfl | hg
        · exact ⟨fi, h1, .inl ⟨n, h2, hk0⟩⟩
        · exact i1 g hg
      · simp only [columnsPerFactor, hk0, h1, h2, i2, ok_bind]
    · rename_i hn
      split at h
      · rename_i full hfull
        simp only [bind_ok, Except.ok.injEq] at h
        obtain ⟨cm, hcm, r, hr, rfl⟩ := h
        obtain ⟨⟨fi, k, h1, h2⟩, h3⟩ := hcat f (by simp) hn
        obtain ⟨i1, ns, i2, i3⟩ := ih hr
        have hself : dictGet ((f, cm) :: r.2.1) f = some cm := by simp [dictGet]
        have hother : ∀ g ∈ r.1, dictGet ((f, cm) :: r.2.1) g = dictGet r.2.1 g := by
          intro g hg
          have : f ≠ g := by rintro rfl; exact hnd.1 (hsub hr _ hg)
          simp [dictGet, this]
        refine ⟨?_, cm.ncols :: ns, ?_, by simp [i3]⟩
        · intro g hg
          rcases List.mem_cons.mp hg with rfl | hg
          · exact ⟨fi, h1, .inr ⟨k, cm, h2, hself, h3 full cm hcm⟩⟩
          · obtain ⟨fi', j1, j2⟩ := i1 g hg
            refine ⟨fi', j1, ?_⟩
            rw [hother g hg]
            exact j2
        · simp only [columnsPerFactor, hself, ok_bind]
          rw [columnsPerFactor_congr hother, i2]
          rfl
      · exact ih h

theorem namePieces_total {name : F → String} {fis : List (F × FactorInfo F D K)} {cms : List (F × ContrastMatrix K)}
    {fs : List F} (h : ∀ f ∈ fs, Named fis cms f) {ns : List Nat} (hn : columnsPerFactor fis cms fs = .ok ns) {js : List Nat}
    (hjs : Choice ns js) : ∃ ps, namePieces name fis cms fs js = .ok ps := by
  induction fs generalizing ns js with
  | nil => exact ⟨[], by simp [namePieces]⟩
  | cons f fs ih =>
    obtain ⟨fi, hfi, hcase⟩ := h f (by simp)
    have ih := fun {ns js} => ih (ns := ns) (js := js) fun g hg => h g (List.mem_cons_of_mem _ hg)
    rcases hcase with ⟨m, hm, hnone⟩ | ⟨k, cm, hk, hcm, hl⟩
    · simp only [columnsPerFactor, hnone, hfi, hm, ok_bind, bind_ok, Except.ok.injEq] at hn
      obtain ⟨ns', h2, rfl⟩ := hn
      cases js with
      | nil => exact hjs.elim
      | cons j js =>
        obtain ⟨hj, hjs⟩ := hjs
        obtain ⟨ps, hps⟩ := ih h2 hjs
        have : ∃ p, namePiece name fis cms f j = .ok p := by
          simp only [namePiece, hfi, hm]
          split
          · exact ⟨_, rfl⟩
          · rw [if_pos (by omega)]
            exact ⟨_, rfl⟩
        obtain ⟨p, hp⟩ := this
        exact ⟨p :: ps, by simp only [namePieces, hp, hps, ok_bind]⟩
    · simp only [columnsPerFactor, hcm, ok_bind, bind_ok, Except.ok.injEq] at hn
      obtain ⟨ns', h2, rfl⟩ := hn
      cases js with
      | nil => exact hjs.elim
      | cons j js =>
        obtain ⟨hj, hjs⟩ := hjs
        obtain ⟨ps, hps⟩ := ih h2 hjs
        have hjl : j < cm.suffixes.length := by omega
        have : ∃ p, namePiece name fis cms f j = .ok p := by
          simp only [namePiece, hfi, hk, hcm, List.getElem?_eq_getElem hjl]
          exact ⟨_, rfl⟩
        obtain ⟨p, hp⟩ := this
        exact ⟨p :: ps, by simp only [namePieces, hp, hps, ok_bind]⟩

theorem subtermColumnNames_total {name : F → String} {fis : List (F × FactorInfo F D K)} {st : SubtermInfo F K}
    (h : ∀ f ∈ st.factors, Named fis st.contrasts f) {ns : List Nat}
    (hn : columnsPerFactor fis st.contrasts st.factors = .ok ns) (hp : ns.prod = st.numColumns) :
    ∃ l, subtermColumnNames name fis st = .ok l := by
  have hch : ∀ js ∈ columnCombinations ns, Choice ns js := by
    intro js hjs
    rw [columnCombinations_eq, List.mem_map] at hjs
    obtain ⟨i, hi, rfl⟩ := hjs
    exact choice_digits (List.mem_range.mp hi)
  obtain ⟨l, hl⟩ := mapM_total (l := columnCombinations ns) (f := fun combo => do
    let ps ← namePieces name fis st.contrasts st.factors combo
    if ps.isEmpty then Except.ok "Intercept" else .ok (":".intercalate ps)) fun js hjs => by
      obtain ⟨ps, hps⟩ := namePieces_total (name := name) h hn (hch js hjs)
      rw [hps, ok_bind]
      split <;> exact ⟨_, rfl⟩
  have hlen : l.length = st.numColumns := by
    rw [← (mapM_ok.mp hl).length_eq, columnCombinations_eq, List.length_map, List.length_range, hp]
  refine ⟨l, ?_⟩
  simp only [subtermColumnNames, subtermCombinations, hn, ok_bind]
  rw [hl, ok_bind, if_pos hlen]

/-! ### The constructor of `DesignInfo` -/

theorem expectedColumns_error {fis : List (F × FactorInfo F D K)} {cms : List (F × ContrastMatrix K)} {fs : List F}
    (h : ∀ f ∈ fs, Named fis cms f) {e : Err} (he : expectedColumns fis cms fs = .error e) : e = .valueError := by
  induction fs with
  | nil => cases he
  | cons f fs ih =>
    have ih := ih fun g hg => h g (List.mem_cons_of_mem _ hg)
    obtain ⟨fi, hfi, hcase⟩ := h f (by simp)
    rcases hcase with ⟨m, hm, _⟩ | ⟨k, cm, hk, hcm, _⟩
    · simp only [expectedColumns, hfi, hm, bind_error] at he
      rcases he with h' | ⟨_, _, h'⟩
      · exact ih h'
      · cases h'
    · simp only [expectedColumns, hfi, hk, hcm] at he
      split at he
      · cases he; rfl
      · simp only [bind_error] at he
        rcases he with h' | ⟨_, _, h'⟩
        · exact ih h'
        · cases h'

theorem checkSubterm_error {fis : List (F × FactorInfo F D K)} {st : SubtermInfo F K}
    (h : ∀ f ∈ st.factors, Named fis st.contrasts f) {e : Err} (he : checkSubterm fis st = .error e) : e = .valueError := by
  simp only [checkSubterm, bind_error] at he
  rcases he with h' | ⟨_, _, h'⟩
  · exact expectedColumns_error h h'
  · split at h'
    · cases h'; rfl
    · split at h' <;> cases h'
      rfl

theorem checkCoding_error {c : Coding F D K}
    (h : ∀ p ∈ c.termCodings, ∀ st ∈ p.2, ∀ f ∈ st.factors, Named c.factorInfos st.contrasts f) {e : Err}
    (he : checkCoding c = .error e) : e = .valueError := by
  simp only [checkCoding, bind_error] at he
  rcases he with h' | ⟨_, _, h'⟩
  · obtain ⟨p, _, h'⟩ := forAll_error h'
    obtain ⟨st, _, h'⟩ := forAll_error h'
    split at h' <;> cases h'
    rfl
  · split at h'
    · cases h'; rfl
    · simp only [bind_error] at h'
      rcases h' with h' | ⟨_, _, h'⟩
      · obtain ⟨p, _, h'⟩ := forAll_error h'
        split at h' <;> cases h'
        rfl
      · obtain ⟨p, hp, h'⟩ := forAll_error h'
        obtain ⟨st, hst, h'⟩ := forAll_error h'
        exact checkSubterm_error (h p hp st hst) h'

theorem checkCovered_error {n k : Nat} {l : List Slice} {e : Err} (h : checkCovered n k l = .error e) :
    e = .assertionError := by
  induction l generalizing k with
  | nil =>
    simp only [checkCovered] at h
    split at h <;> cases h
    rfl
  | cons s l ih =>
    simp only [checkCovered] at h
    split at h
    · cases h; rfl
    · exact ih h

theorem make_error {name : F → String} {names : List String} {c : Coding F D K}
    (hn : ∀ p ∈ c.termCodings, ∀ st ∈ p.2, ∀ f ∈ st.factors, Named c.factorInfos st.contrasts f) {e : Err}
    (h : DesignInfo.make name names (some c) = .error e) : e = .valueError ∨ e = .assertionError := by
  simp only [DesignInfo.make, bind_error] at h
  rcases h with h' | ⟨_, _, h'⟩
  · exact .inl (checkCoding_error hn h')
  · split at h'
    · cases h'; exact .inl rfl
    · split at h'
      · cases h'; exact .inr rfl
      · simp only [bind_error] at h'
        rcases h' with h' | ⟨_, _, h'⟩
        · exact .inr (checkCovered_error h')
        · left
          simp only [DesignInfo.make.finish, bind_error] at h'
          rcases h' with h' | ⟨_, _, h'⟩
          · obtain ⟨p, _, h'⟩ := forAll_error h'
            split at h'
            · cases h'
            · split at h' <;> cases h'
              rfl
          · cases h'

/-! ### One design -/

/-- What is known about the factors when a design is made. -/
structure Examined (nums : List (F × Nat)) (coder : F → Bool → Except Err (ContrastMatrix K))
    (fis : List (F × FactorInfo F D K)) (f : F) : Prop where
  numerical : ∀ n, dictGet nums f = some n → ∃ fi, dictGet fis f = some fi ∧ fi.factor = f ∧ fi.type = .numerical n
  categorical : dictGet nums f = none → ∃ fi k, dictGet fis f = some fi ∧ fi.factor = f ∧ fi.type = .categorical k
  suffixes : dictGet nums f = none → ∀ full cm, coder f full = .ok cm → cm.suffixes.length = cm.ncols

/-- Another coder that gives the same matrices where they are good. -/
theorem subtermLoop_other {nums : List (F × Nat)} {coder coder' : F → Bool → Except Err (ContrastMatrix K)}
    {coding : Subterm F} {good : F → ContrastMatrix K → Prop}
    (hgood : ∀ f full cm, coder f full = .ok cm → good f cm → coder' f full = .ok cm) {fs : List F}
    {out : List F × List (F × ContrastMatrix K) × Nat} (h : subtermLoop nums coder coding fs = .ok out)
    (hout : ∀ q ∈ out.2.1, good q.1 q.2) : subtermLoop nums coder' coding fs = .ok out := by
  induction fs generalizing out with
  | nil => exact h
  | cons f fs ih =>
    simp only [subtermLoop] at h ⊢
    split at h
    · simp only [bind_ok, Except.ok.injEq] at h
      obtain ⟨r, hr, rfl⟩ := h
      simp only [ih hr hout, ok_bind]
    · split at h
      · simp only [bind_ok, Except.ok.injEq] at h
        obtain ⟨cm, hcm, r, hr, rfl⟩ := h
        simp only [hgood _ _ _ hcm (hout (f, cm) (by simp)), ih hr (fun q hq => hout q (List.mem_cons_of_mem _ hq)), ok_bind]
      · exact ih h hout

theorem makeSubterm_other {nums : List (F × Nat)} {coder coder' : F → Bool → Except Err (ContrastMatrix K)}
    {coding : Subterm F} {good : F → ContrastMatrix K → Prop}
    (hgood : ∀ f full cm, coder f full = .ok cm → good f cm → coder' f full = .ok cm) {t : Term F}
    {st : SubtermInfo F K} (h : makeSubterm nums coder t coding = .ok st) (hout : ∀ q ∈ st.contrasts, good q.1 q.2) :
    makeSubterm nums coder' t coding = .ok st := by
  simp only [makeSubterm, bind_ok] at h ⊢
  obtain ⟨r, hr, h⟩ := h
  refine ⟨r, subtermLoop_other hgood hr ?_, h⟩
  simp only [SubtermInfo.make] at h
  split at h
  · cases h
  · cases h; exact hout

theorem codeBucket_other {H : Type} [DecidableEq H] {hash : Subterm F → H} {nums : List (F × Nat)}
    {coder coder' : F → Bool → Except Err (ContrastMatrix K)} {good : F → ContrastMatrix K → Prop}
    (hgood : ∀ f full cm, coder f full = .ok cm → good f cm → coder' f full = .ok cm) {ts : List (Term F)} {used : List H}
    {out : List (Term F × List (SubtermInfo F K))} (h : codeBucket hash nums coder ts used = .ok out)
    (hout : ∀ p ∈ out, ∀ st ∈ p.2, ∀ q ∈ st.contrasts, good q.1 q.2) : codeBucket hash nums coder' ts used = .ok out := by
  induction ts generalizing used out with
  | nil => exact h
  | cons t ts ih =>
    simp only [codeBucket, bind_ok, Except.ok.injEq] at h
    obtain ⟨c, hc, sts, hsts, rest, hrest, rfl⟩ := h
    have h1 : c.1.mapM (makeSubterm nums coder' t) = .ok sts := by
      have hall := mapM_ok.mp hsts
      rw [mapM_ok]
      rw [List.forall₂_iff_get] at hall ⊢
      refine ⟨hall.1, fun i hi hi' => makeSubterm_other hgood (hall.2 i hi hi') ?_⟩
      exact hout (t, sts) (by simp) _ (List.get_mem _ _)
    simp only [codeBucket, hc, ok_bind, h1, ih hrest fun p hp => hout p (List.mem_cons_of_mem _ hp)]

theorem makeSubtermInfos_other {H : Type} [DecidableEq H] {hash : Subterm F → H} {nums : List (F × Nat)}
    {coder coder' : F → Bool → Except Err (ContrastMatrix K)} {good : F → ContrastMatrix K → Prop}
    (hgood : ∀ f full cm, coder f full = .ok cm → good f cm → coder' f full = .ok cm) {ts : List (Term F)}
    {infos : List (Term F × List (SubtermInfo F K))} (h : makeSubtermInfos hash nums coder ts = .ok infos)
    (hout : ∀ p ∈ infos, ∀ st ∈ p.2, ∀ q ∈ st.contrasts, good q.1 q.2) :
    makeSubtermInfos hash nums coder' ts = .ok infos := by
  have h' := h
  simp only [makeSubtermInfos, bind_ok] at h
  obtain ⟨assigned, ha, h⟩ := h
  obtain ⟨assigned', ha', hinf, _⟩ := makeSubtermInfos_spec h'
  have hsame : assigned = assigned' := by
    have := mapM_ok.mpr ha'
    exact Except.ok.inj (ha.symm.trans this)
  subst hsame
  have h1 : (moveEmptyFirst (buckets nums ts).1 (buckets nums ts).2).mapM (fun b => codeBucket hash nums coder'
      (sortByDegree ((dictGet (buckets nums ts).2 b).getD [])) []) = .ok assigned := by
    rw [mapM_ok]
    rw [List.forall₂_iff_get] at ha' ⊢
    refine ⟨ha'.1, fun i hi hi' => codeBucket_other hgood (ha'.2 i hi hi') ?_⟩
    intro p hp
    refine hout p ?_
    rw [hinf]
    exact List.mem_flatten.mpr ⟨_, List.get_mem _ _, hp⟩
  simp only [makeSubtermInfos, h1, ok_bind]
  exact h

/-- The number of categories of a factor. -/
def categoriesOf (fis : List (F × FactorInfo F D K)) (f : F) : Nat :=
  match dictGet fis f with
  | some ⟨_, _, .categorical k, _⟩ => k
  | _ => 0

/-- The matrices with as many rows as the factor has categories; instead of the others, matrices without columns. -/
def patched (fis : List (F × FactorInfo F D K)) (coder : F → Bool → Except Err (ContrastMatrix K)) (f : F) (full : Bool) :
    Except Err (ContrastMatrix K) :=
  match coder f full with
  | .ok cm => if cm.matrix.length = categoriesOf fis f then .ok cm else .ok ⟨List.replicate (categoriesOf fis f) [], 0, []⟩
  | .error _ => .ok ⟨List.replicate (categoriesOf fis f) [], 0, []⟩

theorem patched_label {fis : List (F × FactorInfo F D K)} {name : F → String} {nums : List (F × Nat)}
    {coder : F → Bool → Except Err (ContrastMatrix K)} {f : F} {full : Bool} {j : Nat} {s : String}
    (h : Spec.Label name nums (patched fis coder) f full j s) : Spec.Label name nums coder f full j s := by
  cases h with
  | single h => exact .single h
  | multi h1 h2 h3 => exact .multi h1 h2 h3
  | level h1 h2 h3 =>
    simp only [patched] at h2
    split at h2
    · rename_i cm hcm
      split at h2
      · cases h2
        exact .level h1 hcm h3
      · cases h2
        simp at h3
    · cases h2
      simp at h3

theorem patched_readable {fis : List (F × FactorInfo F D K)} {name : F → String} {nums : List (F × Nat)}
    {coder : F → Bool → Except Err (ContrastMatrix K)} {fs : List F} (h : Readable name nums coder fs) :
    Readable name nums (patched fis coder) fs where
  closed := h.closed
  closedLabel := fun f hf full j s hs => h.closedLabel f hf full j s (patched_label hs)
  names := h.names
  apart := fun f hf g hg full full' j j' s h1 h2 => h.apart f hf g hg full full' j j' s (patched_label h1) (patched_label h2)
  bare := fun f hf g hg full j hs => h.bare f hf g hg full j (patched_label hs)
  intercept := fun f hf => ⟨(h.intercept f hf).1, fun full j hs => (h.intercept f hf).2 full j (patched_label hs)⟩

/-- The contrast matrices of a piece of a term come from the coder. -/
theorem makeSubterm_contrasts {nums : List (F × Nat)} {coder : F → Bool → Except Err (ContrastMatrix K)}
    {coding : Subterm F} {t : Term F} {st : SubtermInfo F K} (h : makeSubterm nums coder t coding = .ok st) :
    ∀ q ∈ st.contrasts, q.1 ∈ t.factors ∧ dictGet nums q.1 = none ∧ ∃ full, coder q.1 full = .ok q.2 := by
  have hr := (makeSubterm_realizes h).contrasts
  intro q hq
  obtain ⟨i, hi, rfl⟩ := List.getElem_of_mem hq
  have hl : i < (t.factors.filter fun f => (dictGet nums f).isNone && (codingLookup coding f).isSome).length := by
    rw [hr.length_eq]; exact hi
  obtain ⟨h1, full, _, h2⟩ := hr.get hl hi
  simp only [List.get_eq_getElem] at h1 h2
  have hm := List.getElem_mem hl
  rw [← h1, List.mem_filter] at hm
  rw [← h1] at h2
  simp only [Bool.and_eq_true, Option.isNone_iff_eq_none] at hm
  exact ⟨hm.1, hm.2.1, full, h2⟩

/-- The contrast matrices of a piece that is accepted have the right numbers of rows. -/
theorem expectedColumns_rows {fis : List (F × FactorInfo F D K)} {cms : List (F × ContrastMatrix K)} {fs : List F}
    {r : Nat × List F} (h : expectedColumns fis cms fs = .ok r) {f : F} (hf : f ∈ fs) {fi : FactorInfo F D K} {k : Nat}
    (hfi : dictGet fis f = some fi) (hk : fi.type = .categorical k) :
    ∃ cm, dictGet cms f = some cm ∧ cm.matrix.length = k := by
  induction fs generalizing r with
  | nil => simp at hf
  | cons g fs ih =>
    simp only [expectedColumns] at h
    rcases List.mem_cons.mp hf with rfl | hf
    · simp only [hfi, hk] at h
      split at h
      · cases h
      · rename_i cm hcm
        split at h
        · cases h
        · rename_i hl
          exact ⟨cm, hcm, not_not.mp hl⟩
    · split at h
      · cases h
      · split at h
        · simp only [bind_ok] at h
          obtain ⟨r', hr', _⟩ := h
          exact ih hr' hf
        · split at h
          · cases h
          · split at h
            · cases h
            · simp only [bind_ok] at h
              obtain ⟨r', hr', _⟩ := h
              exact ih hr' hf

theorem makeDesign_error {H : Type} [DecidableEq H] {name : F → String} {hash : Subterm F → H}
    {nums : List (F × Nat)} {coder : F → Bool → Except Err (ContrastMatrix K)}
    {fis : List (F × FactorInfo F D K)} {ts : List (Term F)} (hnd : ∀ t ∈ ts, t.factors.Nodup)
    (hdis : ts.Pairwise fun s t => Term.eqv s t = false)
    (hsep : Separates hash (fun f => (dictGet nums f).isSome) (ts.map (·.factors)))
    (hex : ∀ t ∈ ts, ∀ f ∈ t.factors, Examined nums coder fis f) {e : Err}
    (h : makeDesign name hash nums coder fis ts = .error e) :
    (∃ t ∈ ts, ∃ f ∈ t.factors, dictGet nums f = none ∧ ∃ full, coder f full = .error e) ∨
      (e = .valueError ∧ ∃ t ∈ ts, ∃ f ∈ t.factors, dictGet nums f = none ∧
        ∃ fi k, dictGet fis f = some fi ∧ fi.type = .categorical k ∧
          ∃ full cm, coder f full = .ok cm ∧ cm.matrix.length ≠ k) ∨
      ((e = .valueError ∨ e = .assertionError) ∧ ¬ Readable name nums coder (ts.flatMap (·.factors))) := by
  have hbad := h
  simp only [makeDesign, bind_error] at h
  rcases h with h' | ⟨infos, hi, h⟩
  · exact .inl (makeSubtermInfos_error hnd hdis h')
  right
  have hperm := inOrder_perm (term_order hnd hi)
  have hterm : ∀ p ∈ infos, p.1 ∈ ts := fun p hp => hperm.mem_iff.mp (List.mem_map_of_mem hp)
  have hcond : ((infos.all fun p => ts.any (Term.eqv p.1)) &&
      (ts.all fun t => infos.any fun p => Term.eqv p.1 t)) = true := by
    simp only [Bool.and_eq_true, List.all_eq_true, List.any_eq_true]
    refine ⟨fun p hp => ⟨p.1, hterm p hp, Term.eqv_iff.mpr fun _ => Iff.rfl⟩, fun t ht => ?_⟩
    obtain ⟨p, hp, rfl⟩ := List.mem_map.mp (hperm.mem_iff.mpr ht)
    exact ⟨p, hp, Term.eqv_iff.mpr fun _ => Iff.rfl⟩
  have hfi : ∀ t ∈ ts, ∀ f ∈ t.factors, ∃ fi, dictGet fis f = some fi := by
    intro t ht f hf
    cases hn : dictGet nums f with
    | some n => obtain ⟨fi, h1, _⟩ := (hex t ht f hf).numerical n hn; exact ⟨fi, h1⟩
    | none => obtain ⟨fi, _, h1, _⟩ := (hex t ht f hf).categorical hn; exact ⟨fi, h1⟩
  obtain ⟨own, ho⟩ := designFactors_total hfi
  obtain ⟨ho1, ho2⟩ := designFactors_fold (by simp) ho
  have hown : ∀ t ∈ ts, ∀ f ∈ t.factors, dictGet own f = dictGet fis f := by
    intro t ht f hf
    have : f ∈ own.map Prod.fst := (ho2 f).mpr (.inr (List.mem_flatMap.mpr ⟨t, ht, hf⟩))
    obtain ⟨fi, hfi⟩ := Option.isSome_iff_exists.mp (dictGet_isSome.mpr this)
    rw [hfi]
    exact (ho1 _ (dictGet_mem hfi)).symm
  have hnamed : ∀ fis' : List (F × FactorInfo F D K), (∀ t ∈ ts, ∀ f ∈ t.factors, dictGet fis' f = dictGet fis f) →
      ∀ p ∈ infos, ∀ st ∈ p.2, (∀ f ∈ st.factors, Named fis' st.contrasts f) ∧
        ∃ ns, columnsPerFactor fis' st.contrasts st.factors = .ok ns ∧ ns.prod = st.numColumns := by
    intro fis' heq p hp st hst
    obtain ⟨c, hc⟩ := infos_made hi p hp st hst
    have ht := hterm p hp
    simp only [makeSubterm, bind_ok] at hc
    obtain ⟨r, hr, hc⟩ := hc
    have := subtermLoop_named (fis := fis') (hnd _ ht) hr
      (fun f hf n hn => by
        obtain ⟨fi, h1, _, h2⟩ := (hex _ ht f hf).numerical n hn
        exact ⟨fi, (heq _ ht f hf).trans h1, h2⟩)
      (fun f hf hn => by
        obtain ⟨fi, k, h1, _, h2⟩ := (hex _ ht f hf).categorical hn
        exact ⟨⟨fi, k, (heq _ ht f hf).trans h1, h2⟩, (hex _ ht f hf).suffixes hn⟩)
    simp only [SubtermInfo.make] at hc
    split at hc
    · cases hc
    · cases hc; exact this
  rw [if_pos hcond] at h
  simp only [ho, ok_bind, bind_error] at h
  rcases h with h' | ⟨names, _, hmake⟩
  · exfalso
    obtain ⟨st, hst, h1⟩ := mapM_error h'
    obtain ⟨p, hp, hst⟩ := List.mem_flatMap.mp hst
    obtain ⟨h2, ns, h3, h4⟩ := hnamed fis (fun _ _ _ _ => rfl) p hp st hst
    obtain ⟨l, hl⟩ := subtermColumnNames_total (name := name) h2 h3 h4
    rw [hl] at h1
    cases h1
  have hnamedOwn := fun p hp st hst => (hnamed own hown p hp st hst).1
  by_cases hgood : ∀ p ∈ infos, ∀ st ∈ p.2, ∀ q ∈ st.contrasts,
      ∃ fi, dictGet fis q.1 = some fi ∧ fi.type = .categorical q.2.matrix.length
  · right
    refine ⟨make_error hnamedOwn hmake, fun hread => ?_⟩
    have hi' := makeSubtermInfos_other (coder' := patched fis coder)
      (good := fun f cm => ∃ fi, dictGet fis f = some fi ∧ fi.type = .categorical cm.matrix.length)
      (by
        rintro f full cm hcm ⟨⟨u, f', ty, ev⟩, h1, h2⟩
        simp only at h2
        subst h2
        simp only [patched, categoriesOf, hcm, h1, if_true]) hi hgood
    have hsame : makeDesign name hash nums (patched fis coder) fis ts = makeDesign name hash nums coder fis ts := by
      simp only [makeDesign, hi, hi']
    obtain ⟨d, hd⟩ := design_accepted hnd hdis hsep (fis := fis) (coder := patched fis coder)
      ⟨fun t ht f hf => (hex t ht f hf).numerical, fun t ht f hf hn => by
        obtain ⟨⟨u, f', ty, ev⟩, k, h1, h2, h3⟩ := (hex t ht f hf).categorical hn
        simp only at h3
        subst h3
        refine ⟨_, k, h1, h2, rfl, fun full => ?_⟩
        simp only [patched, categoriesOf, h1]
        split
        · rename_i cm hcm
          split
          · rename_i hk
            exact ⟨cm, rfl, hk, (hex t ht f hf).suffixes hn full cm hcm⟩
          · exact ⟨_, rfl, by simp, rfl⟩
        · exact ⟨_, rfl, by simp, rfl⟩⟩ (patched_readable hread)
    rw [hsame, hbad] at hd
    cases hd
  · left
    push Not at hgood
    obtain ⟨p, hp, st, hst, q, hq, hno⟩ := hgood
    obtain ⟨c, hc⟩ := infos_made hi p hp st hst
    obtain ⟨hqf, hqn, full, hqc⟩ := makeSubterm_contrasts hc q hq
    obtain ⟨fi, k, h1, _, h3⟩ := (hex _ (hterm p hp) _ hqf).categorical hqn
    have hlen : q.2.matrix.length ≠ k := fun he => hno fi h1 (by rw [h3, he])
    refine ⟨?_, p.1, hterm p hp, q.1, hqf, hqn, fi, k, h1, h3, full, q.2, hqc, hlen⟩
    have hcheck : ∀ u, checkCoding (⟨own, infos⟩ : Coding F D K) ≠ .ok u := by
      intro u hok
      have hv := checkCoding_valid.mp hok
      have hsub := hv.subterms p hp st hst
      simp only [checkSubterm, bind_ok] at hsub
      obtain ⟨r, hr, _⟩ := hsub
      have hr' := makeSubterm_realizes hc
      have hin : q.1 ∈ st.factors := by
        have hk : st.contrasts.map Prod.fst = _ := keys_of_forall₂ hr'.contrasts fun f p h => h.1
        have : q.1 ∈ st.contrasts.map Prod.fst := List.mem_map_of_mem hq
        rw [hk, List.mem_filter] at this
        rw [hr'.factors, List.mem_filter]
        have h5 := this.2
        simp only [Bool.and_eq_true] at h5
        exact ⟨this.1, by simp [h5.2]⟩
      obtain ⟨cm, h4, h5⟩ := expectedColumns_rows hr hin ((hown _ (hterm p hp) _ hqf).trans h1) h3
      have hkeys : (st.contrasts.map Prod.fst).Nodup := by
        rw [keys_of_forall₂ hr'.contrasts fun f p h => h.1]
        exact (hnd _ (hterm p hp)).filter _
      have : dictGet st.contrasts q.1 = some q.2 := by
        obtain ⟨i, hi, he⟩ := List.getElem_of_mem hq
        exact dictGet_of_nodup hkeys (by rw [List.getElem?_eq_getElem hi, he])
      rw [this] at h4
      cases h4
      exact hlen h5
    simp only [DesignInfo.make, bind_error] at hmake
    rcases hmake with h' | ⟨u, hu, _⟩
    · exact checkCoding_error hnamedOwn h'
    · exact absurd hu (hcheck u)

end Patsy.Outcome
