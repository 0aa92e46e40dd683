import Verif.Lemmas.Accept
import Verif.Lemmas.BuildMatrices
import Verif.Props.TermOrder

/-!
# `_make_subterm_infos` on a longer list of terms
-/

set_option linter.unusedSectionVars false

namespace Patsy.Build

open Patsy.Spec Patsy.Desc Patsy.Redundancy Patsy.Props

variable {F D K : Type} [DecidableEq F]

theorem orderedInsert_append_of_le {A : Type} (key : A → Nat) (a : A) (l m : List A) (h : ∀ b ∈ m, key a ≤ key b) :
    (l ++ m).orderedInsert (fun x y => key x ≤ key y) a = l.orderedInsert (fun x y => key x ≤ key y) a ++ m := by
  induction l with
  | nil =>
    cases m with
    | nil => rfl
    | cons b m => simp [List.orderedInsert_cons, h b (by simp)]
  | cons b l ih =>
    simp only [List.cons_append, List.orderedInsert_cons]
    split
    · rfl
    · rw [ih]; rfl

theorem insertionSort_append_of_le {A : Type} (key : A → Nat) (l m : List A) (h : ∀ a ∈ l, ∀ b ∈ m, key a ≤ key b) :
    (l ++ m).insertionSort (fun x y => key x ≤ key y) =
      l.insertionSort (fun x y => key x ≤ key y) ++ m.insertionSort (fun x y => key x ≤ key y) := by
  induction l with
  | nil => rfl
  | cons a l ih =>
    rw [List.cons_append, List.insertionSort_cons, ih fun a ha => h a (List.mem_cons_of_mem _ ha),
      List.insertionSort_cons]
    apply orderedInsert_append_of_le key
    intro b hb
    exact h a (by simp) b ((List.perm_insertionSort _ m).mem_iff.mp hb)

theorem codeBucket_append {H : Type} [DecidableEq H] {hash : Subterm F → H} {nums : List (F × Nat)}
    {coder : F → Bool → Except Err (ContrastMatrix K)} {ts us : List (Term F)} {used : List H}
    {out : List (Term F × List (SubtermInfo F K))} (h : codeBucket hash nums coder (ts ++ us) used = .ok out) :
    ∃ o1 o2, codeBucket hash nums coder ts used = .ok o1 ∧ out = o1 ++ o2 ∧ o1.map Prod.fst = ts ∧
      o2.map Prod.fst = us := by
  induction ts generalizing used out with
  | nil => exact ⟨[], out, rfl, rfl, rfl, (codeBucket_spec h).1⟩
  | cons t ts ih =>
    simp only [List.cons_append, codeBucket, bind_ok, Except.ok.injEq] at h
    obtain ⟨c, hc, sts, hsts, rest, hrest, rfl⟩ := h
    obtain ⟨o1, o2, h1, rfl, h3, h4⟩ := ih hrest
    refine ⟨(t, sts) :: o1, o2, ?_, rfl, by simp [h3], h4⟩
    simp only [codeBucket, bind_ok, Except.ok.injEq]
    exact ⟨c, hc, sts, hsts, o1, h1, rfl⟩

/-- The groups of the old terms, in the order that they have among all groups. -/
theorem order_append (nums : List (F × Nat)) (ts us : List (Term F)) :
    (moveEmptyFirst (buckets nums (ts ++ us)).1 (buckets nums (ts ++ us)).2).filter
        (fun b => ts.any fun t => decide (bucketOf nums t = b)) =
      moveEmptyFirst (buckets nums ts).1 (buckets nums ts).2 := by
  obtain ⟨a1, a2, _⟩ := order_spec nums ts
  obtain ⟨b1, b2, _⟩ := order_spec nums (ts ++ us)
  generalize moveEmptyFirst (buckets nums (ts ++ us)).1 (buckets nums (ts ++ us)).2 = L at b1 b2
  generalize moveEmptyFirst (buckets nums ts).1 (buckets nums ts).2 = M at a1 a2
  have hrank : ∀ b, (∃ t ∈ ts, bucketOf nums t = b) → bucketRank nums (ts ++ us) b = bucketRank nums ts b := by
    rintro b ⟨t, ht, hb⟩
    unfold bucketRank
    split
    · rfl
    · rw [List.findIdx_append, if_pos]
      exact List.findIdx_lt_length_of_exists ⟨t, ht, by simp [hb]⟩
  have hmem : ∀ b, b ∈ L.filter (fun b => ts.any fun t => decide (bucketOf nums t = b)) ↔ b ∈ M := by
    intro b
    rw [List.mem_filter, a1, b1]
    simp only [List.any_eq_true, decide_eq_true_eq, List.mem_append]
    constructor
    · rintro ⟨_, h⟩; exact h
    · rintro ⟨t, ht, h⟩; exact ⟨⟨t, .inl ht, h⟩, t, ht, h⟩
  have hpw : (L.filter (fun b => ts.any fun t => decide (bucketOf nums t = b))).Pairwise
      fun a b => bucketRank nums ts a < bucketRank nums ts b := by
    refine List.Pairwise.imp_of_mem ?_ (b2.filter _)
    intro a b ha hb h
    rwa [hrank a ((a1 a).mp ((hmem a).mp ha)), hrank b ((a1 b).mp ((hmem b).mp hb))] at h
  have nd : ∀ l : List (Finset F), (l.Pairwise fun a b => bucketRank nums ts a < bucketRank nums ts b) → l.Nodup :=
    fun l h => h.imp fun {a b} h e => by subst e; exact Nat.lt_irrefl _ h
  refine List.Perm.eq_of_pairwise ?_ hpw a2 ((List.perm_ext_iff_of_nodup (nd _ hpw) (nd _ a2)).mpr hmem)
  intro a b _ _ h1 h2
  omega

/-- The loop over the groups, seen from the old terms. -/
theorem assigned_append {H : Type} [DecidableEq H] {hash : Subterm F → H} {nums : List (F × Nat)}
    {coder : F → Bool → Except Err (ContrastMatrix K)} {old new : Finset F → List (Term F)} {isOld : Term F → Bool}
    {keep : Finset F → Bool} {order : List (Finset F)}
    {assigned : List (List (Term F × List (SubtermInfo F K)))}
    (ho : ∀ b ∈ order, ∀ t ∈ old b, isOld t = true) (hn : ∀ b ∈ order, ∀ t ∈ new b, isOld t = false)
    (hk : ∀ b ∈ order, keep b = false → old b = [])
    (h : List.Forall₂ (fun b out => codeBucket hash nums coder (old b ++ new b) [] = .ok out) order assigned) :
    ∃ assigned', List.Forall₂ (fun b out => codeBucket hash nums coder (old b) [] = .ok out) (order.filter keep) assigned' ∧
      assigned'.flatten = assigned.flatten.filter fun p => isOld p.1 := by
  induction h with
  | nil => exact ⟨[], .nil, rfl⟩
  | @cons b out order assigned h1 _ ih =>
    obtain ⟨as, h2, h3⟩ := ih (fun c hc => ho c (List.mem_cons_of_mem _ hc)) (fun c hc => hn c (List.mem_cons_of_mem _ hc))
      fun c hc => hk c (List.mem_cons_of_mem _ hc)
    obtain ⟨o1, o2, h4, rfl, h5, h6⟩ := codeBucket_append h1
    have e1 : o1.filter (fun p => isOld p.1) = o1 := by
      rw [List.filter_eq_self]
      intro p hp
      exact ho b (by simp) p.1 (by rw [← h5]; exact List.mem_map_of_mem hp)
    have e2 : o2.filter (fun p => isOld p.1) = [] := by
      rw [List.filter_eq_nil_iff]
      intro p hp
      simp [hn b (by simp) p.1 (by rw [← h6]; exact List.mem_map_of_mem hp)]
    rw [List.flatten_cons, List.filter_append, List.filter_append, e1, e2, List.append_nil, ← h3]
    cases hb : keep b with
    | true =>
      rw [List.filter_cons_of_pos hb]
      exact ⟨o1 :: as, .cons h4 h2, rfl⟩
    | false =>
      rw [List.filter_cons_of_neg (by simp [hb])]
      have : o1 = [] := by
        have := hk b (by simp) hb
        rw [this] at h5
        simpa using h5
      exact ⟨as, h2, by rw [this]; rfl⟩

/-- If no new term comes before an old term of the same group, the old terms get the codings that they would get without
the new ones. -/
theorem makeSubtermInfos_append {H : Type} [DecidableEq H] {hash : Subterm F → H} {nums : List (F × Nat)}
    {coder : F → Bool → Except Err (ContrastMatrix K)} {ts new : List (Term F)}
    (hnd : ∀ t ∈ ts ++ new, t.factors.Nodup)
    (hlate : ∀ u ∈ new, ∀ t ∈ ts, sameGroup (fun f => (dictGet nums f).isSome) t u = true →
      t.factors.length ≤ u.factors.length)
    {infos : List (Term F × List (SubtermInfo F K))} (h : makeSubtermInfos hash nums coder (ts ++ new) = .ok infos) :
    makeSubtermInfos hash nums coder ts = .ok (infos.filter fun p => ts.any (Term.eqv p.1)) := by
  obtain ⟨assigned, h1, rfl, h3, h4⟩ := makeSubtermInfos_spec h
  obtain ⟨a1, _, a3⟩ := order_spec nums ts
  obtain ⟨b1, _, b3⟩ := order_spec nums (ts ++ new)
  have hperm := Patsy.Names.inOrder_perm (term_order hnd h)
  have hdist : (ts ++ new).Pairwise fun s t => Term.eqv s t = false := by
    have hp : (assigned.flatten.map Prod.fst).Pairwise fun s t => Term.eqv s t = false := by
      rw [List.pairwise_map]; exact h3
    refine (hperm.pairwise_iff ?_).mp hp
    intro s t hst
    rw [Bool.eq_false_iff] at hst ⊢
    intro e; apply hst
    rw [Term.eqv_iff] at e ⊢
    intro f; exact (e f).symm
  have hnew : ∀ t ∈ new, (ts.any (Term.eqv t)) = false := by
    intro t ht
    rw [List.any_eq_false]
    intro s hs
    have := (List.pairwise_append.mp hdist).2.2 s hs t ht
    rw [Bool.eq_false_iff] at this
    intro e; apply this
    rw [Term.eqv_iff] at e ⊢
    intro f; exact (e f).symm
  have hold : ∀ t ∈ ts, (ts.any (Term.eqv t)) = true := by
    intro t ht
    rw [List.any_eq_true]
    exact ⟨t, ht, by rw [Term.eqv_iff]; simp⟩
  have hsplit : ∀ b, sortByDegree ((ts ++ new).filter fun t => decide (bucketOf nums t = b)) =
      sortByDegree (ts.filter fun t => decide (bucketOf nums t = b)) ++
        sortByDegree (new.filter fun t => decide (bucketOf nums t = b)) := by
    intro b
    unfold sortByDegree
    rw [List.filter_append]
    apply insertionSort_append_of_le (fun t : Term F => t.factors.length)
    intro s hs t ht
    rw [List.mem_filter, decide_eq_true_eq] at hs ht
    refine hlate t ht.1 s hs.1 ?_
    have : sameGroup (isNumeric nums) s t = true := sameGroup_iff.mpr (by rw [hs.2, ht.2])
    exact this
  have hmemS : ∀ (l : List (Term F)) t, t ∈ sortByDegree l ↔ t ∈ l := by
    intro l t
    unfold sortByDegree
    exact (List.perm_insertionSort _ l).mem_iff
  have h1' : List.Forall₂ (fun b out => codeBucket hash nums coder
      (sortByDegree (ts.filter fun t => decide (bucketOf nums t = b)) ++
        sortByDegree (new.filter fun t => decide (bucketOf nums t = b))) [] = .ok out)
      (moveEmptyFirst (buckets nums (ts ++ new)).1 (buckets nums (ts ++ new)).2) assigned := by
    refine (forall₂_congr_mem ?_).mp h1
    intro b hb out
    rw [b3 b hb, hsplit b]
  obtain ⟨as, h5, h6⟩ := assigned_append (isOld := fun t => ts.any (Term.eqv t))
    (keep := fun b => ts.any fun t => decide (bucketOf nums t = b))
    (fun b _ t ht => hold t (List.mem_of_mem_filter ((hmemS _ _).mp ht)))
    (fun b _ t ht => hnew t (List.mem_of_mem_filter ((hmemS _ _).mp ht)))
    (by
      intro b _ hb
      have : (ts.filter fun t => decide (bucketOf nums t = b)) = [] := by
        rw [List.filter_eq_nil_iff]
        rw [List.any_eq_false] at hb
        exact hb
      rw [this]; rfl) h1'
  rw [order_append] at h5
  have h7 : List.Forall₂ (fun b out => codeBucket hash nums coder
      (sortByDegree ((dictGet (buckets nums ts).2 b).getD [])) [] = .ok out)
      (moveEmptyFirst (buckets nums ts).1 (buckets nums ts).2) as := by
    refine (forall₂_congr_mem ?_).mp h5
    intro b hb out
    rw [a3 b hb]
  rw [← h6]
  have hpw : as.flatten.Pairwise fun p q => Term.eqv p.1 q.1 = false := by
    rw [h6]; exact h3.filter _
  have hkeys : as.flatten.map Prod.fst =
      (moveEmptyFirst (buckets nums ts).1 (buckets nums ts).2).flatMap fun b =>
        sortByDegree ((dictGet (buckets nums ts).2 b).getD []) := by
    clear h5 h6 hpw a1 a3
    generalize moveEmptyFirst (buckets nums ts).1 (buckets nums ts).2 = order at h7
    induction h7 with
    | nil => rfl
    | cons h1 _ ih => rw [List.flatten_cons, List.map_append, ih, (codeBucket_spec h1).1, List.flatMap_cons]
  simp only [makeSubtermInfos, bind_ok]
  refine ⟨as, mapM_ok.mpr h7, ?_⟩
  rw [(dictOf_terms as.flatten).2.2 hpw, hkeys, sameTerms_refl, if_pos rfl]

end Patsy.Build
