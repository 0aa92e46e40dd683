import Verif.Lemmas.Setup
import Verif.Props.Redundancy

/-!
# Properties C18 and C38: order of the terms and structure of their codings
-/

set_option linter.unusedSectionVars false

namespace Patsy.Props

open Patsy.Build Patsy.Spec Patsy.Desc Patsy.Redundancy

variable {F D K : Type} [DecidableEq F]

/-- The documented order is determined by the terms. -/
theorem inOrder_unique {isNum : F → Bool} {ts out out' : List (Term F)}
    (h : InOrder isNum ts out) (h' : InOrder isNum ts out') : out = out' := by
  obtain ⟨ps, h1, h2, rfl⟩ := h
  obtain ⟨qs, h3, h4, rfl⟩ := h'
  congr 1
  refine List.Perm.eq_of_pairwise ?_ h2 h4 (h1.trans h3.symm)
  intro a b _ _ hab hba
  unfold Precedes at hab hba
  exfalso
  omega

/-- `st` is the piece of the term `t` for the choice `coding`: it has the numerical factors
of the term and the factors that take part in the coding, in the order of the term; each
of the latter with the contrast matrix for its rank; and as many columns as there are
combinations. -/
structure Realizes (nums : List (F × Nat)) (coder : F → Bool → Except Err (ContrastMatrix K))
    (t : Term F) (coding : F → Option Bool) (st : SubtermInfo F K) : Prop where
  factors : st.factors = t.factors.filter fun f => (dictGet nums f).isSome || (coding f).isSome
  contrasts : List.Forall₂ (fun f p => p.1 = f ∧ ∃ full, coding f = some full ∧ coder f full = .ok p.2)
    (t.factors.filter fun f => (dictGet nums f).isNone && (coding f).isSome) st.contrasts
  columns : st.numColumns =
    ((t.factors.filterMap (dictGet nums)).prod * (st.contrasts.map fun p => p.2.ncols).prod)

/-- A choice of ranks mentions only categorical factors of the term. -/
def Mentions (nums : List (F × Nat)) (t : Term F) (coding : F → Option Bool) : Prop :=
  ∀ f, coding f ≠ none → f ∈ t.factors ∧ dictGet nums f = none

theorem subtermLoop_spec {nums : List (F × Nat)} {coder : F → Bool → Except Err (ContrastMatrix K)}
    {coding : Subterm F} {fs : List F} {out : List F × List (F × ContrastMatrix K) × Nat}
    (h : subtermLoop nums coder coding fs = .ok out) :
    out.1 = fs.filter (fun f => (dictGet nums f).isSome || (codingLookup coding f).isSome) ∧
    List.Forall₂ (fun f p => p.1 = f ∧ ∃ full, codingLookup coding f = some full ∧ coder f full = .ok p.2)
      (fs.filter fun f => (dictGet nums f).isNone && (codingLookup coding f).isSome) out.2.1 ∧
    out.2.2 = ((fs.filterMap (dictGet nums)).prod * (out.2.1.map fun p => p.2.ncols).prod) := by
  induction fs generalizing out with
  | nil =>
    simp only [subtermLoop, Except.ok.injEq] at h
    subst h
    simp
  | cons f fs ih =>
    simp only [subtermLoop] at h
    split at h
    · rename_i n hn
      simp only [bind_ok, Except.ok.injEq] at h
      obtain ⟨r, hr, rfl⟩ := h
      obtain ⟨h1, h2, h3⟩ := ih hr
      refine ⟨?_, ?_, ?_⟩
      · simp [hn, h1]
      · simpa [hn] using h2
      · simp [hn, h3, Nat.mul_assoc]
    · rename_i hn
      split at h
      · rename_i full hfull
        simp only [bind_ok, Except.ok.injEq] at h
        obtain ⟨cm, hcm, r, hr, rfl⟩ := h
        obtain ⟨h1, h2, h3⟩ := ih hr
        refine ⟨?_, ?_, ?_⟩
        · simp [hn, hfull, h1]
        · simp only [List.filter_cons, hn, hfull, Option.isNone_none, Option.isSome_some, Bool.and_self, if_true]
          exact .cons ⟨rfl, full, hfull, hcm⟩ h2
        · simp [hn, h3, Nat.mul_left_comm]
      · rename_i hno
        obtain ⟨h1, h2, h3⟩ := ih h
        refine ⟨?_, ?_, ?_⟩
        · simp [hn, hno, h1]
        · simpa [hn, hno] using h2
        · simp [hn, h3]

theorem makeSubterm_realizes {nums : List (F × Nat)}
    {coder : F → Bool → Except Err (ContrastMatrix K)} {t : Term F} {coding : Subterm F}
    {st : SubtermInfo F K} (h : makeSubterm nums coder t coding = .ok st) :
    Realizes nums coder t (codingLookup coding) st := by
  simp only [makeSubterm, bind_ok] at h
  obtain ⟨r, hr, h⟩ := h
  obtain ⟨h1, h2, h3⟩ := subtermLoop_spec hr
  simp only [SubtermInfo.make] at h
  split at h
  · simp at h
  · simp only [Except.ok.injEq] at h
    subst h
    exact ⟨h1, h2, h3⟩

theorem codeBucket_spec {H : Type} [DecidableEq H] {hash : Subterm F → H} {nums : List (F × Nat)}
    {coder : F → Bool → Except Err (ContrastMatrix K)} {ts : List (Term F)} {used : List H}
    {out : List (Term F × List (SubtermInfo F K))} (h : codeBucket hash nums coder ts used = .ok out) :
    out.map Prod.fst = ts ∧
    ∃ cs, codeTerms hash (isNumeric nums) (ts.map (·.factors)) used = .ok cs ∧
      List.Forall₂ (fun p c => List.Forall₂ (fun st e => Realizes nums coder p.1 (codingLookup e) st ∧
        (p.1.factors.Nodup → Mentions nums p.1 (codingLookup e))) p.2 c) out cs := by
  induction ts generalizing used out with
  | nil =>
    simp only [codeBucket, Except.ok.injEq] at h
    subst h
    exact ⟨rfl, [], rfl, .nil⟩
  | cons t ts ih =>
    simp only [codeBucket, bind_ok, Except.ok.injEq] at h
    obtain ⟨c, hc, sts, hsts, rest, hrest, rfl⟩ := h
    obtain ⟨h1, cs, h2, h3⟩ := ih hrest
    refine ⟨by simp [h1], c.1 :: cs, ?_, .cons ?_ h3⟩
    · simp only [List.map_cons, codeTerms, hc]
      rw [h2]
    · have hment : ∀ e ∈ c.1, t.factors.Nodup → Mentions nums t (codingLookup e) := by
        intro e he hn f hf
        obtain ⟨cs, used', h4, h5⟩ := coding_never_fails hash (isNumeric nums) t.factors hn used
        rw [hc] at h4
        cases h4
        have : ∃ b, (⟨b, f⟩ : EFactor F) ∈ e := by
          by_contra hno
          push Not at hno
          exact hf (by simp [codingLookup, hno])
        obtain ⟨b, hb⟩ := this
        obtain ⟨h6, h7⟩ := (h5 e he).2 f b hb
        exact ⟨h6, by simpa [isNumeric] using h7⟩
      rw [List.forall₂_iff_get]
      have hall := mapM_ok.mp hsts
      refine ⟨hall.length_eq.symm, ?_⟩
      intro i hi hi'
      exact ⟨makeSubterm_realizes (hall.get hi' hi), hment _ (List.getElem_mem _)⟩

/-- What a successful `_make_subterm_infos` returns, bucket by bucket. -/
theorem makeSubtermInfos_spec {H : Type} [DecidableEq H] {hash : Subterm F → H}
    {nums : List (F × Nat)} {coder : F → Bool → Except Err (ContrastMatrix K)} {ts : List (Term F)}
    {infos : List (Term F × List (SubtermInfo F K))}
    (h : makeSubtermInfos hash nums coder ts = .ok infos) :
    ∃ assigned, List.Forall₂ (fun b out => codeBucket hash nums coder
        (sortByDegree ((dictGet (buckets nums ts).2 b).getD [])) [] = .ok out)
        (moveEmptyFirst (buckets nums ts).1 (buckets nums ts).2) assigned ∧
      infos = assigned.flatten ∧ (infos.Pairwise fun p q => Term.eqv p.1 q.1 = false) ∧
      infos.map Prod.fst = (moveEmptyFirst (buckets nums ts).1 (buckets nums ts).2).flatMap fun b =>
        sortByDegree ((dictGet (buckets nums ts).2 b).getD []) := by
  simp only [makeSubtermInfos, bind_ok] at h
  obtain ⟨assigned, ha', h⟩ := h
  have ha := mapM_ok.mp ha'
  clear ha'
  split at h
  · rename_i hs
    simp only [Except.ok.injEq] at h
    subst h
    have hkeys : assigned.flatten.map Prod.fst =
        (moveEmptyFirst (buckets nums ts).1 (buckets nums ts).2).flatMap fun b =>
          sortByDegree ((dictGet (buckets nums ts).2 b).getD []) := by
      clear hs
      generalize moveEmptyFirst (buckets nums ts).1 (buckets nums ts).2 = order at ha
      induction ha with
      | nil => rfl
      | cons h1 _ ih =>
        rw [List.flatten_cons, List.map_append, ih, (codeBucket_spec h1).1, List.flatMap_cons]
    have hlen := sameTerms_length hs
    rw [← hkeys] at hlen
    simp only [List.length_map] at hlen
    obtain ⟨_, h2, _⟩ := dictOf_terms assigned.flatten
    obtain ⟨h3, h4⟩ := h2 hlen.symm
    exact ⟨assigned, ha, h3, by rw [h3]; exact h4, by rw [h3]; exact hkeys⟩
  · simp at h

/-- **C18**.  The terms of the design are the requested terms in the documented order: the
group without numerical factors first, the other groups by first appearance, inside a group
by the number of categorical factors, otherwise as written.  (`InOrder` determines the
result, see `inOrder_unique`.)  The factors of each term are distinct, as the constructor of
`Term` guarantees. -/
theorem term_order {H : Type} [DecidableEq H] {hash : Subterm F → H}
    {nums : List (F × Nat)} {coder : F → Bool → Except Err (ContrastMatrix K)} {ts : List (Term F)}
    (hnd : ∀ t ∈ ts, t.factors.Nodup) {infos : List (Term F × List (SubtermInfo F K))}
    (h : makeSubtermInfos hash nums coder ts = .ok infos) :
    InOrder (fun f => (dictGet nums f).isSome) ts (infos.map Prod.fst) := by
  obtain ⟨_, _, _, _, h4⟩ := makeSubtermInfos_spec h
  rw [h4]
  exact newTermOrder_inOrder nums hnd

/-- **C18**, for the finished design: the order of its term codings, hence (C19) of its
columns. -/
theorem design_term_order {H : Type} [DecidableEq H] {name : F → String} {hash : Subterm F → H}
    {nums : List (F × Nat)} {coder : F → Bool → Except Err (ContrastMatrix K)}
    {fis : List (F × FactorInfo F D K)} {ts : List (Term F)}
    (hnd : ∀ t ∈ ts, t.factors.Nodup) {d : DesignInfo F D K}
    (h : makeDesign name hash nums coder fis ts = .ok d) :
    ∃ c, d.coding = some c ∧ c.termCodings.Pairwise (fun p q => Term.eqv p.1 q.1 = false) ∧
      InOrder (fun f => (dictGet nums f).isSome) ts (c.termCodings.map Prod.fst) := by
  simp only [makeDesign, bind_ok] at h
  obtain ⟨infos, hi, h⟩ := h
  split at h
  · simp only [bind_ok] at h
    obtain ⟨own, _, names, _, h⟩ := h
    obtain ⟨_, _, _, h3, _⟩ := makeSubtermInfos_spec hi
    exact ⟨_, (make_good.mp h).coding, h3, term_order hnd hi⟩
  · simp at h

theorem pairwise_flatten_filter {A B : Type} [DecidableEq B] {order : List B} {blocks : List (List A)}
    {key : A → B} (hb : List.Forall₂ (fun b l => ∀ a ∈ l, key a = b) order blocks) (hn : order.Nodup)
    {b : B} {i : Nat} (hi : order[i]? = some b) {l : List A} (hl : blocks[i]? = some l) :
    blocks.flatten.filter (fun a => decide (key a = b)) = l := by
  induction hb generalizing i with
  | nil => simp at hi
  | @cons b' l' order blocks h1 h2 ih =>
    rw [List.nodup_cons] at hn
    rw [List.flatten_cons, List.filter_append]
    have hother : ∀ c, c ∉ order → blocks.flatten.filter (fun a => decide (key a = c)) = [] := by
      intro c hc
      rw [List.filter_eq_nil_iff]
      intro a ha
      obtain ⟨m, hm, ham⟩ := List.mem_flatten.mp ha
      obtain ⟨j, hj, rfl⟩ := List.getElem_of_mem hm
      have := List.Forall₂.get h2 (i := j) (by rw [h2.length_eq]; exact hj) hj
      simp only [List.get_eq_getElem] at this
      rw [this a ham]
      simp only [decide_eq_true_eq]
      rintro rfl
      exact hc (List.getElem_mem _)
    cases i with
    | zero =>
      simp only [List.getElem?_cons_zero, Option.some.injEq] at hi hl
      subst hi hl
      rw [hother b' hn.1, List.append_nil, List.filter_eq_self]
      intro a ha
      simpa using h1 a ha
    | succ i =>
      simp only [List.getElem?_cons_succ] at hi hl
      rw [ih hn.2 hi hl]
      have hne : b' ≠ b := by
        rintro rfl
        exact hn.1 (List.mem_of_getElem? hi)
      have : l'.filter (fun a => decide (key a = b)) = [] := by
        rw [List.filter_eq_nil_iff]
        intro a ha
        rw [h1 a ha]
        simpa using hne
      rw [this, List.nil_append]

/-- **C38**.  In the finished coding of a design, every piece of every term is realised as
the choice of ranks says (`Realizes`) and mentions only categorical factors of the term, and group by group (terms with the same numerical
factors `N`), every effect of categorical factors contained in some term of the group is
spanned by exactly one piece of the terms of the group, every other effect by none. -/
theorem groups_covered_once {H : Type} [DecidableEq H] {hash : Subterm F → H}
    {nums : List (F × Nat)} {coder : F → Bool → Except Err (ContrastMatrix K)} {ts : List (Term F)}
    (hnd : ∀ t ∈ ts, t.factors.Nodup)
    (hsep : Separates hash (fun f => (dictGet nums f).isSome) (ts.map (·.factors)))
    {infos : List (Term F × List (SubtermInfo F K))}
    (h : makeSubtermInfos hash nums coder ts = .ok infos) :
    ∃ cs : List (List (Subterm F)),
      List.Forall₂ (fun p c => List.Forall₂
        (fun st e => Realizes nums coder p.1 (codingLookup e) st ∧ Mentions nums p.1 (codingLookup e)) p.2 c) infos cs ∧
      ∀ N S : Finset F,
        let group := fun t : Term F => (t.factors.filter fun f => (dictGet nums f).isSome).toFinset
        let pieces := ((infos.zip cs).filter fun q => decide (group q.1.1 = N)).flatMap Prod.snd
        ((∃ t ∈ ts, group t = N ∧ Contains (t.factors.filter fun f => (dictGet nums f).isNone) S) →
          spanCount pieces S = 1) ∧
        ((¬ ∃ t ∈ ts, group t = N ∧ Contains (t.factors.filter fun f => (dictGet nums f).isNone) S) →
          spanCount pieces S = 0) := by
  obtain ⟨assigned, h1, h2, _, hdrop⟩ := makeSubtermInfos_spec h
  clear hdrop
  obtain ⟨o1, o2, o3⟩ := order_spec nums ts
  generalize moveEmptyFirst (buckets nums ts).1 (buckets nums ts).2 = order at *
  have hcat : ∀ t : Term F, (t.factors.filter fun f => (dictGet nums f).isNone) =
      catPart (isNumeric nums) t.factors := by
    intro t
    unfold catPart isNumeric
    congr 1
    funext f
    cases dictGet nums f <;> rfl
  -- the terms of a bucket
  have hmemb : ∀ b ∈ order, ∀ t, t ∈ sortByDegree ((dictGet (buckets nums ts).2 b).getD []) ↔
      t ∈ ts ∧ bucketOf nums t = b := by
    intro b hb t
    rw [o3 b hb]
    unfold sortByDegree
    rw [(List.perm_insertionSort _ _).mem_iff, List.mem_filter, decide_eq_true_eq]
  -- the codings of each bucket
  have hall : ∃ css : List (List (List (Subterm F))),
      List.Forall₂ (fun b cs => codeTerms hash (isNumeric nums)
        ((sortByDegree ((dictGet (buckets nums ts).2 b).getD [])).map (·.factors)) [] = .ok cs) order css ∧
      List.Forall₂ (fun out cs => List.Forall₂ (fun p c => List.Forall₂
        (fun st e => Realizes nums coder p.1 (codingLookup e) st ∧ (p.1.factors.Nodup → Mentions nums p.1 (codingLookup e)))
        p.2 c) out cs) assigned css := by
    clear h2 o2 o1 hmemb o3
    induction h1 with
    | nil => exact ⟨[], .nil, .nil⟩
    | cons hb _ ih =>
      obtain ⟨css, h3, h4⟩ := ih
      obtain ⟨_, cs, h5, h6⟩ := codeBucket_spec hb
      exact ⟨cs :: css, .cons h5 h3, .cons h6 h4⟩
  obtain ⟨css, h3, h4⟩ := hall
  refine ⟨css.flatten, ?_, ?_⟩
  · have h5 := List.rel_flatten h4
    rw [← h2] at h5
    rw [List.forall₂_iff_get] at h5 ⊢
    refine ⟨h5.1, ?_⟩
    intro i hi hi'
    have hmem : infos[i].1 ∈ ts := by
      obtain ⟨ps, hp, _, hmap⟩ := term_order hnd h
      have : infos[i].1 ∈ infos.map Prod.fst := List.mem_map_of_mem (List.getElem_mem _)
      rw [hmap] at this
      obtain ⟨r, hr, he⟩ := List.mem_map.mp this
      rw [← he]
      exact List.fst_mem_of_mem_zipIdx (hp.mem_iff.mp hr)
    exact (h5.2 i hi hi').imp fun st e h6 => ⟨h6.1, h6.2 (hnd _ hmem)⟩
  · intro N S
    have hzip : infos.zip css.flatten = (List.zipWith List.zip assigned css).flatten := by
      rw [h2]
      clear h3 h1 h2
      induction h4 with
      | nil => rfl
      | cons hb _ ih =>
        rw [List.flatten_cons, List.flatten_cons, List.zipWith_cons_cons, List.flatten_cons,
          List.zip_append hb.length_eq, ih]
    have hndo : order.Nodup := o2.imp fun {a b} h e => by subst e; exact Nat.lt_irrefl _ h
    by_cases hN : N ∈ order
    · obtain ⟨i, hi, rfl⟩ := List.getElem_of_mem hN
      have hl1 := h1.length_eq
      have hl2 := h3.length_eq
      have hblk : List.Forall₂ (fun b l => ∀ a ∈ l, bucketOf nums (a : (Term F × List (SubtermInfo F K)) × List (Subterm F)).1.1 = b)
          order (List.zipWith List.zip assigned css) := by
        rw [List.forall₂_iff_get]
        refine ⟨by simp; omega, ?_⟩
        intro j hj1 hj2 a ha
        simp only [List.get_eq_getElem, List.getElem_zipWith] at ha ⊢
        have hcb := List.Forall₂.get h1 (i := j) hj1 (by omega)
        simp only [List.get_eq_getElem] at hcb
        have hmem := (List.of_mem_zip ha).1
        have : a.1.1 ∈ assigned[j].map Prod.fst := List.mem_map_of_mem hmem
        rw [(codeBucket_spec hcb).1] at this
        exact ((hmemb _ (List.getElem_mem hj1) _).mp this).2
      have hfil := pairwise_flatten_filter (key := fun a : (Term F × List (SubtermInfo F K)) × List (Subterm F) => bucketOf nums a.1.1)
        hblk hndo (List.getElem?_eq_getElem hi) (List.getElem?_eq_getElem (l := List.zipWith List.zip assigned css) (i := i) (by simp; omega))
      have hcode := List.Forall₂.get h3 (i := i) hi (by omega)
      have hreal := List.Forall₂.get h4 (i := i) (by omega) (by omega)
      simp only [List.get_eq_getElem] at hcode hreal
      have hfl : ((List.zipWith List.zip assigned css)[i]'(by simp; omega)).flatMap Prod.snd =
          css[i].flatten := by
        rw [List.getElem_zipWith, List.flatMap_def, List.map_snd_zip]
        rw [hreal.length_eq]
      obtain ⟨cs', hc1, _, hc2⟩ := coding_exact_cover hash (isNumeric nums)
        ((sortByDegree ((dictGet (buckets nums ts).2 order[i]).getD [])).map (·.factors))
        (by
          intro t ht
          obtain ⟨u, hu, rfl⟩ := List.mem_map.mp ht
          exact hnd u ((hmemb _ hN u).mp hu).1)
        (by
          intro A B hA hB
          have hup : ∀ A : Finset F, (∃ t ∈ (sortByDegree ((dictGet (buckets nums ts).2 order[i]).getD [])).map (·.factors),
              Contains (catPart (isNumeric nums) t) A) →
              ∃ t ∈ ts.map (·.factors), Contains (catPart (isNumeric nums) t) A := by
            rintro A ⟨t, ht, hA⟩
            obtain ⟨u, hu, rfl⟩ := List.mem_map.mp ht
            exact ⟨_, List.mem_map_of_mem ((hmemb _ hN u).mp hu).1, hA⟩
          exact hsep A B (hup A hA) (hup B hB))
      rw [hcode] at hc1
      simp only [Except.ok.injEq] at hc1
      subst hc1
      have hiff : (∃ t ∈ (sortByDegree ((dictGet (buckets nums ts).2 order[i]).getD [])).map (·.factors),
            Contains (catPart (isNumeric nums) t) S) ↔
          ∃ t ∈ ts, bucketOf nums t = order[i] ∧ Contains (catPart (isNumeric nums) t.factors) S := by
        constructor
        · rintro ⟨t, ht, hS⟩
          obtain ⟨u, hu, rfl⟩ := List.mem_map.mp ht
          obtain ⟨h5, h6⟩ := (hmemb _ hN u).mp hu
          exact ⟨u, h5, h6, hS⟩
        · rintro ⟨u, h5, h6, hS⟩
          exact ⟨_, List.mem_map_of_mem ((hmemb _ hN u).mpr ⟨h5, h6⟩), hS⟩
      have hc3 := hc2 S
      rw [hiff] at hc3
      simp only [hcat]
      rw [hzip]
      change (_ → spanCount (List.flatMap Prod.snd (List.filter (fun a => decide (bucketOf nums a.1.1 = order[i]))
        (List.zipWith List.zip assigned css).flatten)) S = 1) ∧ (_ → spanCount (List.flatMap Prod.snd
        (List.filter (fun a => decide (bucketOf nums a.1.1 = order[i])) (List.zipWith List.zip assigned css).flatten)) S = 0)
      rw [hfil, hfl]
      exact hc3
    · have hno : ∀ t ∈ ts, bucketOf nums t ≠ N := fun t ht he => hN ((o1 N).mpr ⟨t, ht, he⟩)
      refine ⟨?_, ?_⟩
      · rintro ⟨t, ht, he, _⟩
        exact absurd he (hno t ht)
      · intro _
        have hnil : ((infos.zip css.flatten).filter fun q => decide
            ((q.1.1.factors.filter fun f => (dictGet nums f).isSome).toFinset = N)) = [] := by
          rw [List.filter_eq_nil_iff]
          intro q hq
          simp only [decide_eq_true_eq]
          intro he
          have hmem := (List.of_mem_zip hq).1
          have hio : InOrder (fun f => (dictGet nums f).isSome) ts (infos.map Prod.fst) := term_order hnd h
          obtain ⟨ps, hp, _, hmap⟩ := hio
          have : q.1.1 ∈ infos.map Prod.fst := List.mem_map_of_mem hmem
          rw [hmap] at this
          obtain ⟨r, hr, he2⟩ := List.mem_map.mp this
          have hts := List.fst_mem_of_mem_zipIdx (hp.mem_iff.mp hr)
          rw [he2] at hts
          exact hno _ hts he
        simp only [hnil, List.flatMap_nil]
        rfl

/-- Coding always succeeds on distinct terms whose categorical factors can be coded. -/
theorem makeSubtermInfos_total {H : Type} [DecidableEq H] (hash : Subterm F → H)
    {nums : List (F × Nat)} {coder : F → Bool → Except Err (ContrastMatrix K)} {ts : List (Term F)}
    (hnd : ∀ t ∈ ts, t.factors.Nodup) (hdist : ts.Pairwise fun s t => Term.eqv s t = false)
    (hcoder : ∀ t ∈ ts, ∀ f ∈ t.factors, dictGet nums f = none → ∀ full, ∃ cm, coder f full = .ok cm) :
    ∃ infos, makeSubtermInfos hash nums coder ts = .ok infos := by
  obtain ⟨o1, _, o3⟩ := order_spec nums ts
  have hperm : InOrder (isNumeric nums) ts ((moveEmptyFirst (buckets nums ts).1 (buckets nums ts).2).flatMap fun b =>
      sortByDegree ((dictGet (buckets nums ts).2 b).getD [])) := newTermOrder_inOrder nums hnd
  have hmemb : ∀ b ∈ moveEmptyFirst (buckets nums ts).1 (buckets nums ts).2,
      ∀ t ∈ sortByDegree ((dictGet (buckets nums ts).2 b).getD []), t ∈ ts := by
    intro b hb t ht
    rw [o3 b hb] at ht
    unfold sortByDegree at ht
    rw [(List.perm_insertionSort _ _).mem_iff, List.mem_filter] at ht
    exact ht.1
  have hloop : ∀ (e : Subterm F) (fs : List F), (∀ f ∈ fs, dictGet nums f = none → ∀ full, ∃ cm, coder f full = .ok cm) →
      ∃ out, subtermLoop nums coder e fs = .ok out := by
    intro e fs
    induction fs with
    | nil => intro _; exact ⟨_, rfl⟩
    | cons f fs ih =>
      intro hf
      obtain ⟨r, hr⟩ := ih fun g hg => hf g (List.mem_cons_of_mem _ hg)
      simp only [subtermLoop]
      split
      · exact ⟨_, bind_ok.mpr ⟨r, hr, rfl⟩⟩
      · rename_i hn
        split
        · rename_i full _
          obtain ⟨cm, hcm⟩ := hf f (List.mem_cons_self ..) hn full
          exact ⟨_, bind_ok.mpr ⟨cm, hcm, bind_ok.mpr ⟨r, hr, rfl⟩⟩⟩
        · exact ⟨r, hr⟩
  have hsub : ∀ t ∈ ts, ∀ e : Subterm F, ∃ st, makeSubterm nums coder t e = .ok st := by
    intro t ht e
    obtain ⟨r, hr⟩ := hloop e t.factors (hcoder t ht)
    obtain ⟨h1, h2, _⟩ := subtermLoop_spec hr
    refine ⟨⟨r.1, r.2.1, r.2.2⟩, bind_ok.mpr ⟨r, hr, ?_⟩⟩
    unfold SubtermInfo.make
    rw [if_neg]
    simp only [List.any_eq_true, decide_eq_true_eq, not_exists, not_and, not_not]
    intro p hp
    rw [h1]
    obtain ⟨i, hi, rfl⟩ := List.getElem_of_mem hp
    have hg := List.Forall₂.get h2 (i := i) (by rw [h2.length_eq]; exact hi) hi
    simp only [List.get_eq_getElem] at hg
    rw [hg.1]
    have hm := List.getElem_mem (l := t.factors.filter fun f => (dictGet nums f).isNone && (codingLookup e f).isSome)
      (n := i) (by rw [h2.length_eq]; exact hi)
    rw [List.mem_filter] at hm ⊢
    refine ⟨hm.1, ?_⟩
    have h3 := hm.2
    rw [Bool.and_eq_true] at h3
    rw [h3.2, Bool.or_true]
  have hbucket : ∀ (us : List (Term F)) (used : List H), (∀ t ∈ us, t ∈ ts) →
      ∃ out, codeBucket hash nums coder us used = .ok out := by
    intro us
    induction us with
    | nil => intro _ _; exact ⟨[], rfl⟩
    | cons t us ih =>
      intro used hus
      obtain ⟨cs, used', hpc, hdrop⟩ := coding_never_fails hash (isNumeric nums) t.factors
        (hnd t (hus t (List.mem_cons_self ..))) used
      have hm : ∃ sts, cs.mapM (makeSubterm nums coder t) = .ok sts := by
        clear hpc hdrop
        induction cs with
        | nil => exact ⟨[], rfl⟩
        | cons e cs ihc =>
          obtain ⟨sts, hs⟩ := ihc
          obtain ⟨st, h1⟩ := hsub t (hus t (List.mem_cons_self ..)) e
          exact ⟨st :: sts, mapM_ok.mpr (.cons h1 (mapM_ok.mp hs))⟩
      obtain ⟨sts, hs⟩ := hm
      obtain ⟨rest, hr⟩ := ih used' fun t ht => hus t (List.mem_cons_of_mem _ ht)
      exact ⟨(t, sts) :: rest, by simp only [codeBucket, bind_ok]; exact ⟨_, hpc, sts, hs, rest, hr, rfl⟩⟩
  have hass : ∃ assigned, List.Forall₂ (fun b out => codeBucket hash nums coder
        (sortByDegree ((dictGet (buckets nums ts).2 b).getD [])) [] = .ok out)
        (moveEmptyFirst (buckets nums ts).1 (buckets nums ts).2) assigned := by
    clear hperm o1 o3
    generalize moveEmptyFirst (buckets nums ts).1 (buckets nums ts).2 = order at hmemb
    induction order with
    | nil => exact ⟨[], .nil⟩
    | cons b order ih =>
      obtain ⟨a, ha⟩ := ih fun b' hb' => hmemb b' (List.mem_cons_of_mem _ hb')
      obtain ⟨out, ho⟩ := hbucket _ [] (hmemb b (List.mem_cons_self ..))
      exact ⟨out :: a, .cons ho ha⟩
  obtain ⟨assigned, ha⟩ := hass
  have hkeys : assigned.flatten.map Prod.fst =
      (moveEmptyFirst (buckets nums ts).1 (buckets nums ts).2).flatMap fun b =>
        sortByDegree ((dictGet (buckets nums ts).2 b).getD []) := by
    clear hperm o1 o3 hmemb
    generalize moveEmptyFirst (buckets nums ts).1 (buckets nums ts).2 = order at ha
    induction ha with
    | nil => rfl
    | cons h1 _ ih =>
      rw [List.flatten_cons, List.map_append, ih, (codeBucket_spec h1).1, List.flatMap_cons]
  obtain ⟨ps, hp, _, hmap⟩ := hperm
  have hpw : assigned.flatten.Pairwise fun p q => Term.eqv p.1 q.1 = false := by
    rw [← List.pairwise_map (f := Prod.fst) (R := fun s t => Term.eqv s t = false), hkeys, hmap]
    have hp2 : (ps.map Prod.fst).Perm ts := by
      have := hp.map Prod.fst
      rwa [show ts.zipIdx.map Prod.fst = ts by simp] at this
    refine (hp2.pairwise_iff ?_).mpr hdist
    intro s t h
    rw [Bool.eq_false_iff] at h ⊢
    intro h2
    apply h
    rw [Term.eqv_iff] at h2 ⊢
    exact fun f => (h2 f).symm
  refine ⟨assigned.flatten, ?_⟩
  simp only [makeSubtermInfos, bind_ok]
  refine ⟨assigned, mapM_ok.mpr ha, ?_⟩
  rw [(dictOf_terms assigned.flatten).2.2 hpw, hkeys, sameTerms_refl, if_pos rfl]

/-- Sample: `x` numerical with two columns, `a` and `b` categorical with two levels. -/
def orderSample : List (Term String) :=
  [⟨["x", "a"]⟩, ⟨["a", "b"]⟩, ⟨["x"]⟩, ⟨["b"]⟩, ⟨[]⟩, ⟨["a"]⟩]

def orderCoder (_ : String) (full : Bool) : Except Err (ContrastMatrix Int) :=
  .ok (if full then ⟨[[1, 0], [0, 1]], 2, ["[0]", "[1]"]⟩ else ⟨[[0], [1]], 1, ["[T.1]"]⟩)

/-- Example: the hypotheses hold and the order is `1, b, a, a:b, x, x:a`; a repeated term is
an error. -/
example : (∀ t ∈ orderSample, t.factors.Nodup) ∧
    (orderSample.Pairwise fun s t => Term.eqv s t = false) ∧
    (∃ infos, makeSubtermInfos (fun s => s) [("x", 2)] orderCoder orderSample = .ok infos ∧
      infos.map Prod.fst = [⟨[]⟩, ⟨["b"]⟩, ⟨["a"]⟩, ⟨["a", "b"]⟩, ⟨["x"]⟩, ⟨["x", "a"]⟩] ∧
      infos.map (fun p => p.2.map (·.numColumns)) = [[1], [1], [1], [1], [2], [2]]) ∧
    isOk (makeSubtermInfos (fun s => s) [("x", 2)] orderCoder (⟨["a", "x"]⟩ :: orderSample)) = false := by
  have hs : isOk (makeSubtermInfos (fun s => s) [("x", 2)] orderCoder orderSample) = true := by
    decide +kernel
  refine ⟨by decide, by decide +kernel, ⟨getOk (makeSubtermInfos (fun s => s) [("x", 2)] orderCoder orderSample) (by decide +kernel),
    getOk_eq hs, by decide +kernel, by decide +kernel⟩, by decide +kernel⟩

/-- Example: the identity as hash separates all pieces. -/
example : Separates (fun s : Subterm String => s) (fun f => (dictGet [("x", 2)] f).isSome)
    (orderSample.map (·.factors)) := fun _ _ _ _ h => minusPiece_injective h

/-- Example: without `x`, the term `x:a` (the only one of its group) is coded with full
rank. -/
example : ∃ infos, makeSubtermInfos (fun s => s) [("x", 2)] orderCoder [⟨["x", "a"]⟩, ⟨["a"]⟩, ⟨[]⟩] = .ok infos ∧
    infos.map (fun p => (p.1.factors, p.2.map (·.numColumns))) = [([], [1]), (["a"], [1]), (["x", "a"], [4])] := by
  have hs : isOk (makeSubtermInfos (fun s => s) [("x", 2)] orderCoder [⟨["x", "a"]⟩, ⟨["a"]⟩, ⟨[]⟩]) = true := by
    decide +kernel
  exact ⟨getOk (makeSubtermInfos (fun s => s) [("x", 2)] orderCoder [⟨["x", "a"]⟩, ⟨["a"]⟩, ⟨[]⟩]) (by decide +kernel),
    getOk_eq hs, by decide +kernel⟩

end Patsy.Props
