import Verif.Lemmas.ColumnNames

/-!
# C52: models with unambiguous names are accepted
-/

set_option linter.unusedSectionVars false

namespace Patsy.Props

open Patsy.Spec Patsy.Build Patsy.Desc Patsy.Redundancy Patsy.Rank Patsy.Names

variable {F D K : Type} [DecidableEq F]

theorem designFactors_total {fis : List (F × FactorInfo F D K)} {ts : List (Term F)}
    (h : ∀ t ∈ ts, ∀ f ∈ t.factors, ∃ fi, dictGet fis f = some fi) : ∃ own, designFactors fis ts = .ok own := by
  have key : ∀ (fs : List F) (acc : List (F × FactorInfo F D K)), (∀ f ∈ fs, ∃ fi, dictGet fis f = some fi) →
      ∃ out, fs.foldlM (fun acc f => do
        let fi ← match dictGet fis f with
          | some fi => Except.ok fi
          | none => .error .keyError
        .ok (dictSet (fun a b => decide (a = b)) acc f fi)) acc = (.ok out : Except Err _) := by
    intro fs
    induction fs with
    | nil => intro acc _; exact ⟨acc, rfl⟩
    | cons f fs ih =>
      intro acc h
      obtain ⟨fi, hfi⟩ := h f (by simp)
      obtain ⟨out, ho⟩ := ih (dictSet (fun a b => decide (a = b)) acc f fi) fun g hg => h g (List.mem_cons_of_mem _ hg)
      refine ⟨out, ?_⟩
      rw [List.foldlM_cons, hfi]
      exact ho
  refine key _ [] fun f hf => ?_
  obtain ⟨t, ht, hf⟩ := List.mem_flatMap.mp hf
  exact h t ht f hf

theorem sound_known {nums : List (F × Nat)} {coder : F → Bool → Except Err (ContrastMatrix K)}
    {fis : List (F × FactorInfo F D K)} {ts : List (Term F)} (hs : KnownFactors nums coder fis ts) :
    ∀ t ∈ ts, ∀ f ∈ t.factors, ∃ fi, dictGet fis f = some fi ∧ fi.factor = f := by
  intro t ht f hf
  cases hn : dictGet nums f with
  | some n => obtain ⟨fi, h1, h2, _⟩ := hs.numerical t ht f hf n hn; exact ⟨fi, h1, h2⟩
  | none => obtain ⟨fi, _, h1, h2, _⟩ := hs.categorical t ht f hf hn; exact ⟨fi, h1, h2⟩

/-- The names of the columns of a subterm. -/
def namesOf (name : F → String) (fis : List (F × FactorInfo F D K)) (st : SubtermInfo F K) : List String :=
  match subtermColumnNames name fis st with
  | .ok l => l
  | .error _ => []

/-- The names of the columns, and what they are made of. -/
theorem names_nodup {H : Type} [DecidableEq H] {name : F → String} {hash : Subterm F → H}
    {nums : List (F × Nat)} {coder : F → Bool → Except Err (ContrastMatrix K)}
    {fis : List (F × FactorInfo F D K)} {ts : List (Term F)} (hnd : ∀ t ∈ ts, t.factors.Nodup)
    (hsep : Separates hash (fun f => (dictGet nums f).isSome) (ts.map (·.factors)))
    (hs : KnownFactors nums coder fis ts) (hread : Readable name nums coder (ts.flatMap (·.factors)))
    {infos : List (Term F × List (SubtermInfo F K))} (h : makeSubtermInfos hash nums coder ts = .ok infos) :
    (∀ p ∈ infos, ∀ st ∈ p.2, subtermColumnNames name fis st = .ok (namesOf name fis st) ∧
      (namesOf name fis st).length = st.numColumns ∧ ∀ n ∈ namesOf name fis st, ∃ (b : F → Bool) (q : List (F × Nat)) (ps : List String),
        (∀ r ∈ q, r.1 ∈ ts.flatMap (·.factors)) ∧
        List.Forall₂ (fun q s => Label name nums coder q.1 (b q.1) q.2 s) q ps ∧
        n = if q = [] then "Intercept" else ":".intercalate ps) ∧
    ((infos.flatMap (·.2)).flatMap (namesOf name fis)).Nodup := by
  obtain ⟨L, hL1, hL2, hL3, _⟩ := exists_pieces hnd hsep h
  have hterms : ∀ p ∈ infos, p.1 ∈ ts := by
    intro p hp
    exact (inOrder_perm (term_order hnd h)).mem_iff.mp (List.mem_map_of_mem hp)
  have hchk : ∀ x ∈ L, checkSubterm fis x.st = .ok () ∧ ∀ p ∈ x.st.contrasts, p.2.suffixes.length = p.2.ncols := by
    intro x hx
    have : x.st ∈ infos.flatMap (·.2) := by rw [← hL1]; exact List.mem_map_of_mem hx
    obtain ⟨p, hp, hst⟩ := List.mem_flatMap.mp this
    obtain ⟨e, he⟩ := infos_made h p hp _ hst
    exact makeSubterm_checked hs (hterms p hp) (hnd _ (hterms p hp)) he
  have hnames : ∀ x ∈ L, subtermColumnNames name fis x.st = .ok (namesOf name fis x.st) ∧
      (namesOf name fis x.st).length = x.st.numColumns ∧
      ∀ i, i < x.st.numColumns → ∃ ps, (namesOf name fis x.st)[i]? =
          some (if x.st.factors.zip (digits (widths fis x.st) i) = [] then "Intercept" else ":".intercalate ps) ∧
        List.Forall₂ (fun q s => Label name nums coder q.1 (isFull x.coding q.1) q.2 s)
          (x.st.factors.zip (digits (widths fis x.st) i)) ps := by
    intro x hx
    obtain ⟨h1, h2, h3⟩ := hL2 x hx
    obtain ⟨names, h4, h5, h6⟩ := piece_names (name := name) hs h1 (hnd _ h1) h2 h3 (hchk x hx).1 (hchk x hx).2
    have : namesOf name fis x.st = names := by simp [namesOf, h4]
    rw [this]
    refine ⟨h4, h5, fun i hi => ?_⟩
    obtain ⟨ps, h7, h8⟩ := h6 i hi
    refine ⟨ps, ?_, h8⟩
    rw [h7]
    have : (x.st.factors = []) ↔ (x.st.factors.zip (digits (widths fis x.st) i) = []) := by
      rw [← List.length_eq_zero_iff, ← List.length_eq_zero_iff, List.length_zip, digits_length]
      simp [widths]
    simp only [this]
  have hzip : ∀ x ∈ L, ∀ i, (x.st.factors.zip (digits (widths fis x.st) i)).map Prod.fst = x.st.factors ∧
      ∀ r ∈ x.st.factors.zip (digits (widths fis x.st) i), r.1 ∈ ts.flatMap (·.factors) := by
    intro x hx i
    refine ⟨List.map_fst_zip (by rw [digits_length]; simp [widths]), fun r hr => ?_⟩
    have := (List.of_mem_zip hr).1
    rw [(hL2 x hx).2.1.factors, List.mem_filter] at this
    exact List.mem_flatMap.mpr ⟨_, (hL2 x hx).1, this.1⟩
  -- the entries of the list of names
  have hentry : ∀ x ∈ L, ∀ n ∈ namesOf name fis x.st, ∃ i, ∃ ps, i < x.st.numColumns ∧
      (namesOf name fis x.st)[i]? = some n ∧
      n = (if x.st.factors.zip (digits (widths fis x.st) i) = [] then "Intercept" else ":".intercalate ps) ∧
      List.Forall₂ (fun q s => Label name nums coder q.1 (isFull x.coding q.1) q.2 s)
        (x.st.factors.zip (digits (widths fis x.st) i)) ps := by
    intro x hx n hn
    obtain ⟨_, h2, h3⟩ := hnames x hx
    obtain ⟨i, hi, rfl⟩ := List.getElem_of_mem hn
    obtain ⟨ps, h4, h5⟩ := h3 i (by rw [← h2]; exact hi)
    refine ⟨i, ps, by rw [← h2]; exact hi, List.getElem?_eq_getElem hi, ?_, h5⟩
    rw [List.getElem?_eq_getElem hi] at h4
    exact Option.some.inj h4
  refine ⟨?_, ?_⟩
  · intro p hp st hst
    have : st ∈ L.map (·.st) := by rw [hL1]; exact List.mem_flatMap.mpr ⟨p, hp, hst⟩
    obtain ⟨x, hx, rfl⟩ := List.mem_map.mp this
    refine ⟨(hnames x hx).1, (hnames x hx).2.1, fun n hn => ?_⟩
    obtain ⟨i, ps, _, _, h1, h2⟩ := hentry x hx n hn
    exact ⟨_, _, ps, (hzip x hx i).2, h2, h1⟩
  · rw [← hL1, List.flatMap_map, List.nodup_flatMap]
    refine ⟨?_, ?_⟩
    · intro x hx
      rw [List.nodup_iff_getElem?_ne_getElem?]
      intro i j hij hj heq
      obtain ⟨_, h2, h3⟩ := hnames x hx
      rw [h2] at hj
      obtain ⟨ps, h4, h5⟩ := h3 i (by omega)
      obtain ⟨ps', h6, h7⟩ := h3 j hj
      rw [h4, h6] at heq
      have he := labels_of_name hread (hzip x hx i).2 (hzip x hx j).2 h5 h7 (Option.some.inj heq)
      subst he
      have := (factors_of_labels hread (hzip x hx i).2 (hzip x hx j).2 h5 h7).2 fun _ => rfl
      have hd : digits (widths fis x.st) i = digits (widths fis x.st) j := by
        have := congrArg (List.map Prod.snd) this
        rwa [List.map_snd_zip (by rw [digits_length]; simp [widths]),
          List.map_snd_zip (by rw [digits_length]; simp [widths])] at this
      have hp := (checkSubterm_good (hchk x hx).1).2.1
      have := congrArg (place (widths fis x.st)) hd
      rw [place_digits (by rw [hp]; omega), place_digits (by rw [hp]; exact hj)] at this
      omega
    · refine hL3.imp_of_mem ?_
      intro x y hx hy hdis n hn hn'
      obtain ⟨i, ps, hi, _, h1, h2⟩ := hentry x hx n hn
      obtain ⟨j, ps', hj, _, h3, h4⟩ := hentry y hy n hn'
      have he := labels_of_name hread (hzip x hx i).2 (hzip y hy j).2 h2 h4 (by rw [← h1, ← h3])
      subst he
      have hf := (factors_of_labels hread (hzip x hx i).2 (hzip y hy j).2 h2 h4).1
      rw [(hzip x hx i).1, (hzip y hy j).1] at hf
      -- the factors of a piece
      have hmem : ∀ z ∈ L, ∀ f, f ∈ z.st.factors ↔ f ∈ z.term.factors ∧ ((dictGet nums f).isSome ∨ z.coding f ≠ none) := by
        intro z hz f
        rw [(hL2 z hz).2.1.factors, List.mem_filter]
        cases z.coding f <;> simp
      have hgrp : ∀ z ∈ L, groupOf nums z.term = (z.st.factors.filter fun f => (dictGet nums f).isSome).toFinset := by
        intro z hz
        ext f
        simp only [groupOf, List.mem_toFinset, List.mem_filter, hmem z hz]
        tauto
      have hspan : ∀ z ∈ L, Spans z.coding (z.st.factors.filter fun f => (dictGet nums f).isNone).toFinset := by
        intro z hz
        refine ⟨fun f hf => ?_, fun f hf => ?_⟩
        · obtain ⟨h5, h6⟩ := (hL2 z hz).2.2 f (by simp [hf])
          simp only [List.mem_toFinset, List.mem_filter, hmem z hz]
          exact ⟨⟨h5, .inr (by simp [hf])⟩, by simp [h6]⟩
        · simp only [List.mem_toFinset, List.mem_filter, hmem z hz] at hf
          exact hf.1.2.resolve_left (by have := hf.2; simp only [Option.isNone_iff_eq_none] at this; simp [this])
      refine hdis (by rw [hgrp x hx, hgrp y hy, hf]) _ ⟨hspan x hx, ?_⟩
      rw [hf]
      exact hspan y hy

/-- **C52**.  A model with different terms, about whose factors everything is known, and whose labels are unambiguous, is
never refused: the design is made. -/
theorem design_accepted {H : Type} [DecidableEq H] {name : F → String} {hash : Subterm F → H}
    {nums : List (F × Nat)} {coder : F → Bool → Except Err (ContrastMatrix K)}
    {fis : List (F × FactorInfo F D K)} {ts : List (Term F)} (hnd : ∀ t ∈ ts, t.factors.Nodup)
    (hdis : ts.Pairwise fun s t => Term.eqv s t = false)
    (hsep : Separates hash (fun f => (dictGet nums f).isSome) (ts.map (·.factors)))
    (hs : KnownFactors nums coder fis ts) (hread : Readable name nums coder (ts.flatMap (·.factors))) :
    ∃ d, makeDesign name hash nums coder fis ts = .ok d := by
  obtain ⟨infos, hi⟩ := makeSubtermInfos_total (hash := hash) hnd hdis fun t ht f hf hn full => by
    obtain ⟨_, _, _, _, _, h⟩ := hs.categorical t ht f hf hn
    obtain ⟨cm, h, _⟩ := h full
    exact ⟨cm, h⟩
  have hperm := inOrder_perm (term_order hnd hi)
  obtain ⟨own, ho⟩ := designFactors_total fun t ht f hf => by
    obtain ⟨fi, h, _⟩ := sound_known hs t ht f hf
    exact ⟨fi, h⟩
  obtain ⟨ho1, ho2⟩ := designFactors_fold (by simp) ho
  have hown : ∀ t ∈ ts, ∀ f ∈ t.factors, dictGet own f = dictGet fis f := by
    intro t ht f hf
    have : f ∈ own.map Prod.fst := (ho2 f).mpr (.inr (List.mem_flatMap.mpr ⟨t, ht, hf⟩))
    obtain ⟨fi, hfi⟩ := Option.isSome_iff_exists.mp (dictGet_isSome.mpr this)
    rw [hfi]
    exact (ho1 _ (dictGet_mem hfi)).symm
  have hs' : KnownFactors nums coder own ts :=
    ⟨fun t ht f hf n hn => by rw [hown t ht f hf]; exact hs.numerical t ht f hf n hn,
      fun t ht f hf hn => by rw [hown t ht f hf]; exact hs.categorical t ht f hf hn⟩
  obtain ⟨hn1, hn2⟩ := names_nodup hnd hsep hs hread hi
  have hterm : ∀ p ∈ infos, p.1 ∈ ts := fun p hp => hperm.mem_iff.mp (List.mem_map_of_mem hp)
  have hfac : ∀ p ∈ infos, ∀ f ∈ p.1.factors, f ∈ ts.flatMap (·.factors) := fun p hp f hf =>
    List.mem_flatMap.mpr ⟨p.1, hterm p hp, hf⟩
  have hmap : (infos.flatMap (·.2)).mapM (subtermColumnNames name fis) =
      .ok ((infos.flatMap (·.2)).map (namesOf name fis)) := by
    rw [mapM_ok, List.forall₂_map_right_iff, List.forall₂_same]
    intro st hst
    obtain ⟨p, hp, hst⟩ := List.mem_flatMap.mp hst
    exact (hn1 p hp st hst).1
  have hpair : infos.Pairwise fun p q => Term.eqv p.1 q.1 = false := by
    obtain ⟨_, _, _, h, _⟩ := makeSubtermInfos_spec hi
    exact h
  have hcond : ((infos.all fun p => ts.any (Term.eqv p.1)) && (ts.all fun t => infos.any fun p => Term.eqv p.1 t)) = true := by
    simp only [Bool.and_eq_true, List.all_eq_true, List.any_eq_true]
    refine ⟨fun p hp => ⟨p.1, hterm p hp, Term.eqv_iff.mpr fun _ => Iff.rfl⟩, fun t ht => ?_⟩
    obtain ⟨p, hp, rfl⟩ := List.mem_map.mp (hperm.mem_iff.mpr ht)
    exact ⟨p, hp, Term.eqv_iff.mpr fun _ => Iff.rfl⟩
  -- the columns of a term
  have hlen : ∀ p ∈ infos, (p.2.flatMap (namesOf name fis)).length = termColumns p.2 := by
    intro p hp
    rw [List.length_flatMap, termColumns]
    congr 1
    exact List.map_congr_left fun st hst => (hn1 p hp st hst).2.1
  have hflat : (infos.flatMap (·.2)).flatMap (namesOf name fis) = infos.flatMap fun p => p.2.flatMap (namesOf name fis) := by
    rw [List.flatMap_assoc]
  have hvalid : ValidCoding (⟨own, infos⟩ : Coding F D K) := by
    refine ⟨?_, ?_, ?_, ?_⟩
    · intro p hp st hst f hf
      obtain ⟨e, he⟩ := infos_made hi p hp st hst
      rw [(makeSubterm_realizes he).factors, List.mem_filter] at hf
      exact hf.1
    · intro f
      rw [ho2 f]
      simp only [List.map_nil, List.not_mem_nil, false_or, List.mem_flatMap]
      constructor
      · rintro ⟨p, hp, hf⟩
        exact ⟨p.1, hterm p hp, hf⟩
      · rintro ⟨t, ht, hf⟩
        obtain ⟨p, hp, rfl⟩ := List.mem_map.mp (hperm.mem_iff.mpr ht)
        exact ⟨p, hp, hf⟩
    · intro p hp
      have h1 := ho1 p hp
      have : p.1 ∈ own.map Prod.fst := List.mem_map_of_mem hp
      rw [ho2] at this
      simp only [List.map_nil, List.not_mem_nil, false_or] at this
      obtain ⟨t, ht, hf⟩ := List.mem_flatMap.mp this
      obtain ⟨fi, h2, h3⟩ := sound_known hs t ht p.1 hf
      rw [h1] at h2
      cases h2
      exact h3.symm
    · intro p hp st hst
      obtain ⟨e, he⟩ := infos_made hi p hp st hst
      exact (makeSubterm_checked hs' (hterm p hp) (hnd _ (hterm p hp)) he).1
  have htn : (infos.map fun p => termName name p.1).Nodup := by
    rw [List.Nodup, List.pairwise_map]
    refine hpair.imp_of_mem ?_
    intro p q hp hq hne he
    have := termName_inj hread (hfac p hp) (hfac q hq) he
    rw [Term.eqv_iff.mpr fun f => by rw [this]] at hne
    cases hne
  simp only [makeDesign, hi, ok_bind, hcond, if_true, ho, hmap]
  have hgood : GoodDesign name ((infos.flatMap (·.2)).map (namesOf name fis)).flatten (⟨own, infos⟩ : Coding F D K)
      ⟨((infos.flatMap (·.2)).map (namesOf name fis)).flatten.zip
          (List.range ((infos.flatMap (·.2)).map (namesOf name fis)).flatten.length), some ⟨own, infos⟩,
        some (layout 0 (infos.map fun p => (p.1, termColumns p.2))),
        layout 0 (infos.map fun p => (termName name p.1, termColumns p.2))⟩ := by
    refine ⟨rfl, hvalid, rfl, ?_, rfl, rfl, htn, ?_, ?_⟩
    · rw [← List.flatMap_def]; exact hn2
    · rw [← List.flatMap_def, hflat, List.length_flatMap]
      congr 1
      exact (List.map_congr_left fun p hp => hlen p hp).symm
    · intro i n hin s hsl
      rw [← List.flatMap_def] at hin
      simp only at hsl
      obtain ⟨k, hk⟩ := List.getElem?_of_mem (dictGet_mem hsl)
      have hkl : k < infos.length := by
        by_contra hge
        rw [List.getElem?_eq_none (by rw [layout_length, List.length_map]; omega)] at hk
        cases hk
      have hp := List.getElem_mem hkl
      have hl := layout_getElem? (idx := 0) (l := infos.map fun p => (termName name p.1, termColumns p.2)) (k := k)
        (a := termName name infos[k].1) (n := termColumns infos[k].2) (by simp [hkl])
      rw [hk] at hl
      simp only [Option.some.injEq, Prod.mk.injEq, Nat.zero_add] at hl
      obtain ⟨rfl, rfl⟩ := hl
      -- the term consists of numerical factors with one column
      have hone : ∀ f ∈ infos[k].1.factors, dictGet nums f = some 1 := by
        obtain ⟨st, hst, hn⟩ := List.mem_flatMap.mp (List.mem_of_getElem? hin)
        obtain ⟨p', hp', hst⟩ := List.mem_flatMap.mp hst
        obtain ⟨b, q, ps, h1, h2, h3⟩ := (hn1 p' hp' st hst).2.2 _ hn
        exact column_named_like_term hread h1 h2 (hfac _ hp) h3.symm
      obtain ⟨st, hst, hmk⟩ := numeric_term hnd hdis hi (hterm _ hp) fun f hf => by rw [hone f hf]; rfl
      have hk2 : infos[k].2 = [st] := by
        by_contra hne
        have : Std.Symm fun p q : Term F × List (SubtermInfo F K) => Term.eqv p.1 q.1 = false :=
          ⟨fun p q h => by rw [eqv_comm]; exact h⟩
        have := hpair.forall hp hst (by intro he; exact hne (congrArg Prod.snd he))
        rw [Term.eqv_iff.mpr fun _ => Iff.rfl] at this
        cases this
      have hr := makeSubterm_realizes hmk
      have hnone : codingLookup (∅ : Subterm F) = fun _ => none := by funext f; simp [codingLookup]
      rw [hnone] at hr
      have hfs : st.factors = infos[k].1.factors := by
        rw [hr.factors, List.filter_eq_self]
        intro f hf
        simp [hone f hf]
      have hcs : st.contrasts = [] := by
        have := hr.contrasts.length_eq
        simp only [Option.isSome_none, Bool.and_false, List.filter_false, List.length_nil] at this
        exact List.length_eq_zero_iff.mp this.symm
      have hcol : st.numColumns = 1 := by
        rw [hr.columns, hcs]
        have : infos[k].1.factors.filterMap (dictGet nums) = infos[k].1.factors.map fun _ => 1 := by
          rw [← List.filterMap_eq_map]
          exact List.filterMap_congr fun f hf => hone f hf
        simp [this]
      have hck := makeSubterm_checked hs (hterm _ hp) (hnd _ (hterm _ hp)) hmk
      have hblock : namesOf name fis st = [termName name infos[k].1] := by
        obtain ⟨names, h1, h2, h3⟩ := piece_names (name := name) hs (hterm _ hp) (hnd _ (hterm _ hp)) hr
          (fun f hf => absurd rfl hf) hck.1 hck.2
        obtain ⟨ps, h4, h5⟩ := h3 0 (by omega)
        have hps : ps = st.factors.map name := by
          have h6 : (st.factors.zip (digits (widths fis st) 0)).map Prod.fst = st.factors :=
            List.map_fst_zip (by rw [digits_length]; simp [widths])
          have h7 : ∀ r ∈ st.factors.zip (digits (widths fis st) 0), dictGet nums r.1 = some 1 := fun r hr =>
            hone _ (by rw [← hfs]; exact (List.of_mem_zip hr).1)
          rw [← h6]
          generalize st.factors.zip (digits (widths fis st) 0) = q at h5 h7
          clear * - h5 h7
          induction h5 with
          | nil => rfl
          | cons h1 _ ih =>
            rw [List.map_cons, List.map_cons, label_single (h7 _ (by simp)) h1,
              ih fun r hr => h7 r (List.mem_cons_of_mem _ hr)]
        have hnm : namesOf name fis st = names := by simp [namesOf, h1]
        rw [hnm]
        rw [hcol] at h2
        obtain ⟨x, rfl⟩ := List.length_eq_one_iff.mp h2
        simp only [List.getElem?_cons_zero, Option.some.injEq] at h4
        rw [h4, termName_eq, hps, hfs]
      -- the place of the column
      have hblk := select_block (fun p : Term F × List (SubtermInfo F K) => p.2.flatMap (namesOf name fis))
        (l := infos) (k := k) (List.getElem?_eq_getElem hkl)
      have hstart : ((infos.take k).map fun p => (p.2.flatMap (namesOf name fis)).length).sum =
          ((List.map Prod.snd (List.take k (infos.map fun p => (termName name p.1, termColumns p.2)))).sum) := by
        rw [← List.map_take, List.map_map]
        congr 1
        exact List.map_congr_left fun p hp => hlen p (List.mem_of_mem_take hp)
      rw [hstart, hk2, List.flatMap_singleton, hblock, List.length_singleton, ← hflat] at hblk
      generalize (List.map Prod.snd (List.take k (infos.map fun p => (termName name p.1, termColumns p.2)))).sum = a at hblk
      have hat : ((infos.flatMap (·.2)).flatMap (namesOf name fis))[a]? = some (termName name infos[k].1) := by
        have := congrArg (fun l => l[0]?) hblk
        simp only [Slice.select, List.getElem?_drop, List.getElem?_take, List.getElem?_cons_zero] at this
        rw [if_pos (by omega)] at this
        simpa using this
      have hia : i = a := by
        have hlt : i < ((infos.flatMap (·.2)).flatMap (namesOf name fis)).length := by
          by_contra hge
          rw [List.getElem?_eq_none (by omega)] at hin
          cases hin
        exact (List.getElem?_inj hlt hn2).mp (by rw [hin, hat])
      rw [hia, hk2]
      simp [termColumns, hcol]
  exact ⟨_, make_good.mpr hgood⟩

end Patsy.Props
