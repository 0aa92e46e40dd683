import Verif.Lemmas.Names
import Verif.Lemmas.RankDesign
import Verif.Props.Columns

/-!
# Designs that are accepted
-/

namespace Patsy.Names

open Patsy.Spec Patsy.Build Patsy.Desc Patsy.Redundancy Patsy.Props

variable {F D K : Type} [DecidableEq F]

/-! ### `_make_subterm_infos` does not fail -/

theorem subtermLoop_total {nums : List (F × Nat)} {coder : F → Bool → Except Err (ContrastMatrix K)}
    {coding : Subterm F} {fs : List F} (h : ∀ f ∈ fs, dictGet nums f = none → ∀ full, ∃ cm, coder f full = .ok cm) :
    ∃ out, subtermLoop nums coder coding fs = .ok out := by
  induction fs with
  | nil => exact ⟨_, rfl⟩
  | cons f fs ih =>
    obtain ⟨out, ho⟩ := ih fun g hg => h g (List.mem_cons_of_mem _ hg)
    simp only [subtermLoop, ho]
    split
    · exact ⟨_, rfl⟩
    · rename_i hn
      split
      · rename_i full _
        obtain ⟨cm, hcm⟩ := h f (by simp) hn full
        rw [hcm]
        exact ⟨_, rfl⟩
      · exact ⟨_, rfl⟩

theorem keys_of_forall₂ {l : List F} {m : List (F × K)} {R : F → F × K → Prop} (h : List.Forall₂ R l m)
    (hR : ∀ f p, R f p → p.1 = f) : m.map Prod.fst = l := by
  induction h with
  | nil => rfl
  | cons h1 _ ih => rw [List.map_cons, ih, hR _ _ h1]

theorem makeSubterm_total {nums : List (F × Nat)} {coder : F → Bool → Except Err (ContrastMatrix K)}
    {coding : Subterm F} {t : Term F}
    (h : ∀ f ∈ t.factors, dictGet nums f = none → ∀ full, ∃ cm, coder f full = .ok cm) :
    ∃ st, makeSubterm nums coder t coding = .ok st := by
  obtain ⟨out, ho⟩ := subtermLoop_total (coding := coding) h
  obtain ⟨h1, h2, _⟩ := subtermLoop_spec ho
  have hk := keys_of_forall₂ h2 fun f p h => h.1
  simp only [makeSubterm, ho, ok_bind, SubtermInfo.make]
  rw [if_neg]
  · exact ⟨_, rfl⟩
  · simp only [List.any_eq_true, decide_eq_true_eq, not_exists, not_and, not_not]
    intro p hp
    have : p.1 ∈ out.2.1.map Prod.fst := List.mem_map_of_mem hp
    rw [hk, List.mem_filter] at this
    rw [h1, List.mem_filter]
    refine ⟨this.1, ?_⟩
    have h3 := this.2
    simp only [Bool.and_eq_true] at h3
    simp [h3.2]

theorem mapM_total {A B : Type} {f : A → Except Err B} {l : List A} (h : ∀ a ∈ l, ∃ b, f a = .ok b) :
    ∃ out, l.mapM f = .ok out := by
  induction l with
  | nil => exact ⟨[], rfl⟩
  | cons a l ih =>
    obtain ⟨b, hb⟩ := h a (by simp)
    obtain ⟨out, ho⟩ := ih fun a ha => h a (List.mem_cons_of_mem _ ha)
    exact ⟨b :: out, by rw [List.mapM_cons, hb, ho]; rfl⟩

theorem codeBucket_total {H : Type} [DecidableEq H] {hash : Subterm F → H} {nums : List (F × Nat)}
    {coder : F → Bool → Except Err (ContrastMatrix K)} {ts : List (Term F)} {used : List H}
    (hnd : ∀ t ∈ ts, t.factors.Nodup)
    (h : ∀ t ∈ ts, ∀ f ∈ t.factors, dictGet nums f = none → ∀ full, ∃ cm, coder f full = .ok cm) :
    ∃ out, codeBucket hash nums coder ts used = .ok out := by
  induction ts generalizing used with
  | nil => exact ⟨_, rfl⟩
  | cons t ts ih =>
    obtain ⟨cs, used', h1, _⟩ := coding_never_fails hash (isNumeric nums) t.factors (hnd t (by simp)) used
    obtain ⟨sts, h2⟩ := mapM_total (f := makeSubterm nums coder t) (l := cs)
      fun e _ => makeSubterm_total (h t (by simp))
    obtain ⟨out, h3⟩ := ih (used := used') (fun t ht => hnd t (List.mem_cons_of_mem _ ht))
      (fun t ht => h t (List.mem_cons_of_mem _ ht))
    exact ⟨(t, sts) :: out, by simp only [codeBucket, h1, h2, h3, ok_bind]⟩

theorem inOrder_perm {isNum : F → Bool} {ts out : List (Term F)} (h : InOrder isNum ts out) : out.Perm ts := by
  obtain ⟨ps, h1, _, rfl⟩ := h
  simpa using h1.map Prod.fst

theorem eqv_comm (s t : Term F) : Term.eqv s t = Term.eqv t s := by
  rw [Bool.eq_iff_iff, Term.eqv_iff, Term.eqv_iff]
  exact forall_congr' fun f => Iff.comm

theorem makeSubtermInfos_total {H : Type} [DecidableEq H] {hash : Subterm F → H} {nums : List (F × Nat)}
    {coder : F → Bool → Except Err (ContrastMatrix K)} {ts : List (Term F)} (hnd : ∀ t ∈ ts, t.factors.Nodup)
    (hdis : ts.Pairwise fun s t => Term.eqv s t = false)
    (h : ∀ t ∈ ts, ∀ f ∈ t.factors, dictGet nums f = none → ∀ full, ∃ cm, coder f full = .ok cm) :
    ∃ infos, makeSubtermInfos hash nums coder ts = .ok infos := by
  have hin := newTermOrder_inOrder nums hnd
  have hperm := inOrder_perm hin
  have hmem : ∀ b ∈ moveEmptyFirst (buckets nums ts).1 (buckets nums ts).2, ∀ t ∈ sortByDegree
      ((dictGet (buckets nums ts).2 b).getD []), t ∈ ts := by
    intro b hb t ht
    exact hperm.mem_iff.mp (List.mem_flatMap.mpr ⟨b, hb, ht⟩)
  obtain ⟨assigned, ha⟩ := mapM_total (l := moveEmptyFirst (buckets nums ts).1 (buckets nums ts).2)
    (f := fun b => codeBucket hash nums coder (sortByDegree ((dictGet (buckets nums ts).2 b).getD [])) [])
    fun b hb => codeBucket_total (fun t ht => hnd t (hmem b hb t ht)) (fun t ht => h t (hmem b hb t ht))
  have hkeys : assigned.flatten.map Prod.fst =
      (moveEmptyFirst (buckets nums ts).1 (buckets nums ts).2).flatMap fun b =>
        sortByDegree ((dictGet (buckets nums ts).2 b).getD []) := by
    have ha' := mapM_ok.mp ha
    clear hmem hperm hin ha
    generalize moveEmptyFirst (buckets nums ts).1 (buckets nums ts).2 = order at ha'
    induction ha' with
    | nil => rfl
    | cons h1 _ ih =>
      rw [List.flatten_cons, List.map_append, ih, (codeBucket_spec h1).1, List.flatMap_cons]
  have hp2 : assigned.flatten.Pairwise fun p q => Term.eqv p.1 q.1 = false := by
    rw [← List.pairwise_map (f := Prod.fst) (R := fun s t => Term.eqv s t = false), hkeys]
    exact (hperm.pairwise_iff fun {s t} h => by rw [eqv_comm]; exact h).mpr hdis
  simp only [makeSubtermInfos, ha, ok_bind, (dictOf_terms assigned.flatten).2.2 hp2, hkeys, sameTerms_refl, if_true]
  exact ⟨_, rfl⟩

/-! ### The checks of the subterms -/

theorem expectedColumns_congr {fis : List (F × FactorInfo F D K)} {cms cms' : List (F × ContrastMatrix K)} {fs : List F}
    (h : ∀ f ∈ fs, dictGet cms f = dictGet cms' f) : expectedColumns fis cms fs = expectedColumns fis cms' fs := by
  induction fs with
  | nil => rfl
  | cons f fs ih =>
    simp only [expectedColumns, ih fun g hg => h g (List.mem_cons_of_mem _ hg), h f (by simp)]

theorem subtermLoop_checked {nums : List (F × Nat)} {coder : F → Bool → Except Err (ContrastMatrix K)}
    {coding : Subterm F} {fis : List (F × FactorInfo F D K)} {fs : List F} (hnd : fs.Nodup)
    {out : List F × List (F × ContrastMatrix K) × Nat} (h : subtermLoop nums coder coding fs = .ok out)
    (hnum : ∀ f ∈ fs, ∀ n, dictGet nums f = some n → ∃ fi, dictGet fis f = some fi ∧ fi.type = .numerical n)
    (hcat : ∀ f ∈ fs, dictGet nums f = none → ∃ fi k, dictGet fis f = some fi ∧ fi.type = .categorical k ∧
      ∀ full, ∃ cm, coder f full = .ok cm ∧ cm.matrix.length = k ∧ cm.suffixes.length = cm.ncols) :
    expectedColumns fis out.2.1 out.1 = .ok (out.2.2, out.2.1.map Prod.fst) ∧
      ∀ p ∈ out.2.1, p.2.suffixes.length = p.2.ncols := by
  induction fs generalizing out with
  | nil =>
    simp only [subtermLoop, Except.ok.injEq] at h
    subst h
    exact ⟨rfl, by simp⟩
  | cons f fs ih =>
    rw [List.nodup_cons] at hnd
    have ih := fun {out} (h : subtermLoop nums coder coding fs = .ok out) => ih hnd.2 h
      (fun g hg => hnum g (List.mem_cons_of_mem _ hg)) (fun g hg => hcat g (List.mem_cons_of_mem _ hg))
    simp only [subtermLoop] at h
    split at h
    · rename_i n hn
      simp only [bind_ok, Except.ok.injEq] at h
      obtain ⟨r, hr, rfl⟩ := h
      obtain ⟨fi, h1, h2⟩ := hnum f (by simp) n hn
      simp only [expectedColumns, h1, h2, (ih hr).1, ok_bind]
      exact ⟨trivial, (ih hr).2⟩
    · rename_i hn
      split at h
      · rename_i full hfull
        simp only [bind_ok, Except.ok.injEq] at h
        obtain ⟨cm, hcm, r, hr, rfl⟩ := h
        obtain ⟨fi, k, h1, h2, h3⟩ := hcat f (by simp) hn
        obtain ⟨cm', h4, h5, h6⟩ := h3 full
        obtain rfl : cm = cm' := by rw [hcm] at h4; exact Except.ok.inj h4
        have hself : dictGet ((f, cm) :: r.2.1) f = some cm := by simp [dictGet]
        have hother : ∀ g ∈ r.1, dictGet ((f, cm) :: r.2.1) g = dictGet r.2.1 g := by
          intro g hg
          rw [(subtermLoop_spec hr).1, List.mem_filter] at hg
          have : f ≠ g := by rintro rfl; exact hnd.1 hg.1
          simp [dictGet, this]
        simp only [expectedColumns, h1, h2, hself, h5, ne_eq, not_true_eq_false, if_false]
        rw [expectedColumns_congr hother, (ih hr).1]
        refine ⟨rfl, ?_⟩
        intro p hp
        rcases List.mem_cons.mp hp with rfl | hp
        · exact h6
        · exact (ih hr).2 p hp
      · exact ih h

theorem makeSubterm_checked {nums : List (F × Nat)} {coder : F → Bool → Except Err (ContrastMatrix K)}
    {coding : Subterm F} {fis : List (F × FactorInfo F D K)} {ts : List (Term F)} (hs : KnownFactors nums coder fis ts)
    {t : Term F} (ht : t ∈ ts) (hnd : t.factors.Nodup) {st : SubtermInfo F K}
    (h : makeSubterm nums coder t coding = .ok st) :
    checkSubterm fis st = .ok () ∧ ∀ p ∈ st.contrasts, p.2.suffixes.length = p.2.ncols := by
  simp only [makeSubterm, bind_ok] at h
  obtain ⟨r, hr, h⟩ := h
  have h1 := subtermLoop_checked hnd hr
    (fun f hf n hn => by obtain ⟨fi, h1, _, h2⟩ := hs.numerical t ht f hf n hn; exact ⟨fi, h1, h2⟩)
    (fun f hf hn => by obtain ⟨fi, k, h1, _, h2⟩ := hs.categorical t ht f hf hn; exact ⟨fi, k, h1, h2⟩)
  simp only [SubtermInfo.make] at h
  split at h
  · simp at h
  · cases h
    refine ⟨?_, h1.2⟩
    have hss : sameSet (r.2.1.map Prod.fst) (r.2.1.map Prod.fst) = true := sameSet_iff.mpr fun _ => Iff.rfl
    simp [checkSubterm, h1.1, ok_bind, hss]

/-- Where the pieces come from. -/
theorem codeBucket_made {H : Type} [DecidableEq H] {hash : Subterm F → H} {nums : List (F × Nat)}
    {coder : F → Bool → Except Err (ContrastMatrix K)} {ts : List (Term F)} {used : List H}
    {out : List (Term F × List (SubtermInfo F K))} (h : codeBucket hash nums coder ts used = .ok out) :
    ∀ p ∈ out, ∀ st ∈ p.2, ∃ e, makeSubterm nums coder p.1 e = .ok st := by
  induction ts generalizing used out with
  | nil =>
    simp only [codeBucket, Except.ok.injEq] at h
    subst h
    simp
  | cons t ts ih =>
    simp only [codeBucket, bind_ok, Except.ok.injEq] at h
    obtain ⟨c, _, sts, hsts, rest, hrest, rfl⟩ := h
    intro p hp st hst
    rcases List.mem_cons.mp hp with rfl | hp
    · obtain ⟨i, hi, rfl⟩ := List.getElem_of_mem hst
      have hall := mapM_ok.mp hsts
      exact ⟨_, hall.get (by rw [hall.length_eq]; exact hi) hi⟩
    · exact ih hrest p hp st hst

theorem infos_made {H : Type} [DecidableEq H] {hash : Subterm F → H} {nums : List (F × Nat)}
    {coder : F → Bool → Except Err (ContrastMatrix K)} {ts : List (Term F)}
    {infos : List (Term F × List (SubtermInfo F K))} (h : makeSubtermInfos hash nums coder ts = .ok infos) :
    ∀ p ∈ infos, ∀ st ∈ p.2, ∃ e, makeSubterm nums coder p.1 e = .ok st := by
  obtain ⟨assigned, h1, rfl, _, _⟩ := makeSubtermInfos_spec h
  intro p hp st hst
  obtain ⟨out, ho, hp⟩ := List.mem_flatten.mp hp
  obtain ⟨i, hi, rfl⟩ := List.getElem_of_mem ho
  exact codeBucket_made (h1.get (by rw [h1.length_eq]; exact hi) hi) p hp st hst

/-! ### A term that consists of numerical factors -/

/-- The first term of its group is the one that consists of numerical factors. -/
theorem numeric_term {H : Type} [DecidableEq H] {hash : Subterm F → H} {nums : List (F × Nat)}
    {coder : F → Bool → Except Err (ContrastMatrix K)} {ts : List (Term F)} (hnd : ∀ t ∈ ts, t.factors.Nodup)
    (hdis : ts.Pairwise fun s t => Term.eqv s t = false)
    {infos : List (Term F × List (SubtermInfo F K))} (h : makeSubtermInfos hash nums coder ts = .ok infos)
    {t : Term F} (ht : t ∈ ts) (hn : ∀ f ∈ t.factors, (dictGet nums f).isSome) :
    ∃ st, (t, [st]) ∈ infos ∧ makeSubterm nums coder t ∅ = .ok st := by
  obtain ⟨assigned, h1, rfl, _, _⟩ := makeSubtermInfos_spec h
  obtain ⟨o1, _, o3⟩ := order_spec nums ts
  have hb := (o1 (bucketOf nums t)).mpr ⟨t, ht, rfl⟩
  obtain ⟨i, hi, he⟩ := List.getElem_of_mem hb
  have hi' : i < assigned.length := by rw [← h1.length_eq]; exact hi
  have hc := h1.get hi hi'
  simp only [List.get_eq_getElem, he, o3 _ hb] at hc
  have hmem : ∀ u, u ∈ sortByDegree (ts.filter fun u => decide (bucketOf nums u = bucketOf nums t)) ↔
      u ∈ ts ∧ bucketOf nums u = bucketOf nums t := by
    intro u
    unfold sortByDegree
    rw [(List.perm_insertionSort _ _).mem_iff, List.mem_filter, decide_eq_true_eq]
  have hsorted : (sortByDegree (ts.filter fun u => decide (bucketOf nums u = bucketOf nums t))).Pairwise
      fun s t => s.factors.length ≤ t.factors.length := by
    have : Std.Total fun s t : Term F => s.factors.length ≤ t.factors.length := ⟨fun s t => Nat.le_total _ _⟩
    have : IsTrans (Term F) fun s t : Term F => s.factors.length ≤ t.factors.length :=
      ⟨fun _ _ _ h1 h2 => Nat.le_trans h1 h2⟩
    exact List.pairwise_insertionSort _ _
  cases hl : sortByDegree (ts.filter fun u => decide (bucketOf nums u = bucketOf nums t)) with
  | nil =>
    have := (hmem t).mpr ⟨ht, rfl⟩
    rw [hl] at this
    simp at this
  | cons u l =>
    rw [hl] at hmem hsorted hc
    obtain ⟨hu, hbu⟩ := (hmem u).mp (by simp)
    have hle : u.factors.length ≤ t.factors.length := by
      rcases List.mem_cons.mp ((hmem t).mpr ⟨ht, rfl⟩) with rfl | h
      · exact Nat.le_refl _
      · exact (List.pairwise_cons.mp hsorted).1 t h
    have hsub : t.factors ⊆ u.factors := by
      intro f hf
      have : f ∈ bucketOf nums t := by
        simp only [bucketOf, List.mem_toFinset, List.mem_filter, isNumeric]
        exact ⟨hf, hn f hf⟩
      rw [← hbu] at this
      simp only [bucketOf, List.mem_toFinset, List.mem_filter] at this
      exact this.1
    have hperm := ((hnd t ht).subperm hsub).perm_of_length_le hle
    have heqv : Term.eqv u t = true := Term.eqv_iff.mpr fun f => hperm.symm.mem_iff
    have hut : u = t := by
      by_contra hne
      have : Std.Symm fun s t : Term F => Term.eqv s t = false := ⟨fun s t h => by rw [eqv_comm]; exact h⟩
      have := hdis.forall hu ht hne
      rw [heqv] at this
      cases this
    subst hut
    have hfilter : u.factors.filter (fun f => !isNumeric nums f) = [] := by
      rw [List.filter_eq_nil_iff]
      intro f hf
      simp [isNumeric, hn f hf]
    have hpick : pickContrasts hash (isNumeric nums) u.factors [] = .ok ([∅], [hash ∅]) := by
      have h2 : ((subsetsSorted ([] : List F)).map mkSubterm) = [∅] := rfl
      have h3 : simplify ([∅] : List (Subterm F)) = .ok [∅] := by
        rw [simplify]
        rfl
      simp [pickContrasts, hfilter, h2, h3]
    simp only [codeBucket, hpick, ok_bind, bind_ok, Except.ok.injEq] at hc
    obtain ⟨sts, hsts, rest, _, hc⟩ := hc
    have hall := mapM_ok.mp hsts
    cases hall with
    | cons h4 h5 =>
      cases h5
      refine ⟨_, ?_, h4⟩
      refine List.mem_flatten.mpr ⟨_, List.getElem_mem hi', ?_⟩
      rw [← hc]
      simp

end Patsy.Names
