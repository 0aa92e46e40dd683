import Mathlib.Data.List.Perm.Lattice
import Mathlib.Data.List.Nodup
import Verif.Model.Setup
import Verif.Spec.TermOrder
import Verif.Lemmas.Subset
import Verif.Lemmas.RedundancyTerms

/-!
# Helper lemmas for `_make_subterm_infos`
-/

set_option linter.unusedSectionVars false

namespace Patsy.Build

open Patsy.Desc Patsy.Redundancy Patsy.Spec

variable {F D K : Type} [DecidableEq F]

/-! ### Dictionaries with `Term` keys -/

theorem dictSet_cases {B : Type} (d : List (Term F × B)) (t : Term F) (b : B) :
    ((∃ p ∈ d, Term.eqv p.1 t = true) ∧ (dictSet Term.eqv d t b).map Prod.fst = d.map Prod.fst) ∨
    ((∀ p ∈ d, Term.eqv p.1 t = false) ∧ dictSet Term.eqv d t b = d ++ [(t, b)]) := by
  induction d with
  | nil => right; simp [dictSet]
  | cons q d ih =>
    simp only [dictSet]
    cases hq : Term.eqv q.1 t with
    | true => left; exact ⟨⟨q, List.mem_cons_self .., hq⟩, by simp⟩
    | false =>
      simp only [Bool.false_eq_true, if_false]
      rcases ih with ⟨⟨p, h1, h2⟩, h3⟩ | ⟨h1, h2⟩
      · left; exact ⟨⟨p, List.mem_cons_of_mem _ h1, h2⟩, by simp [h3]⟩
      · right
        refine ⟨?_, by simp [h2]⟩
        intro p hp
        rcases List.mem_cons.mp hp with rfl | hp
        · exact hq
        · exact h1 p hp

theorem dictOf_terms {B : Type} (l : List (Term F × B)) :
    (dictOf Term.eqv l).length ≤ l.length ∧
    ((dictOf Term.eqv l).length = l.length → dictOf Term.eqv l = l ∧
      l.Pairwise fun p q => Term.eqv p.1 q.1 = false) ∧
    ((l.Pairwise fun p q => Term.eqv p.1 q.1 = false) → dictOf Term.eqv l = l) := by
  induction l using List.reverseRecOn with
  | nil => simp [dictOf]
  | append_singleton l q ih =>
    obtain ⟨h1, h2, h3⟩ := ih
    have hstep : dictOf Term.eqv (l ++ [q]) = dictSet Term.eqv (dictOf Term.eqv l) q.1 q.2 := by
      simp [dictOf]
    rw [hstep]
    rcases dictSet_cases (dictOf Term.eqv l) q.1 q.2 with ⟨⟨p, h4, h5⟩, h6⟩ | ⟨h4, h5⟩
    · have hl := congrArg List.length h6
      simp only [List.length_map] at hl
      refine ⟨by simp; omega, ?_, ?_⟩
      · intro h; simp at h; omega
      · intro h
        rw [List.pairwise_append] at h
        rw [h3 h.1] at h4
        rw [h.2.2 p h4 q (by simp)] at h5
        simp at h5
    · rw [h5]
      refine ⟨by simp; omega, ?_, ?_⟩
      · intro h
        simp only [List.length_append, List.length_singleton, Nat.add_right_cancel_iff] at h
        obtain ⟨h6, h7⟩ := h2 h
        refine ⟨by rw [h6], ?_⟩
        rw [List.pairwise_append]
        refine ⟨h7, List.pairwise_singleton .., ?_⟩
        intro p hp r hr
        simp only [List.mem_singleton] at hr
        subst hr
        exact h4 p (by rw [h6]; exact hp)
      · intro h
        rw [List.pairwise_append] at h
        rw [h3 h.1]

theorem sameTerms_length {l m : List (Term F)} (h : sameTerms l m = true) : l.length = m.length := by
  induction l generalizing m with
  | nil => cases m <;> simp_all [sameTerms]
  | cons s l ih =>
    cases m with
    | nil => simp [sameTerms] at h
    | cons t m => simp only [sameTerms, Bool.and_eq_true] at h; simp [ih h.2]

theorem sameTerms_refl (l : List (Term F)) : sameTerms l l = true := by
  induction l with
  | nil => rfl
  | cons s l ih =>
    simp only [sameTerms, Bool.and_eq_true]
    exact ⟨by rw [Term.eqv_iff]; simp, ih⟩

/-! ### Buckets -/

theorem dictSet_get {A B : Type} [DecidableEq A] (d : List (A × B)) (a a' : A) (b : B) :
    dictGet (dictSet (fun a b => decide (a = b)) d a b) a' =
      if a = a' then some b else dictGet d a' := by
  induction d with
  | nil => by_cases h : a = a' <;> simp [dictSet, dictGet, h]
  | cons q d ih =>
    obtain ⟨x, y⟩ := q
    simp only [dictSet]
    by_cases hx : x = a
    · subst hx
      by_cases h : x = a' <;> simp [dictGet, h]
    · simp only [hx, decide_false, Bool.false_eq_true, if_false]
      by_cases h : x = a'
      · subst h
        have hax : a ≠ x := fun e => hx e.symm
        simp [dictGet, hax]
      · have h1 : ∀ l : List (A × B), dictGet ((x, y) :: l) a' = dictGet l a' := by
          intro l; simp [dictGet, h]
        rw [h1, h1, ih]

/-- The state of the loop after the terms `ts`. -/
structure BucketInv (nums : List (F × Nat)) (ts : List (Term F))
    (s : List (Finset F) × List (Finset F × List (Term F))) : Prop where
  mem : ∀ b, b ∈ s.1 ↔ ∃ t ∈ ts, bucketOf nums t = b
  get : ∀ b, dictGet s.2 b = if b ∈ s.1 then some (ts.filter fun t => decide (bucketOf nums t = b)) else none
  order : s.1.Pairwise fun a b => (ts.findIdx fun t => decide (bucketOf nums t = a)) <
    (ts.findIdx fun t => decide (bucketOf nums t = b))

theorem buckets_inv (nums : List (F × Nat)) (ts : List (Term F)) :
    BucketInv nums ts (buckets nums ts) := by
  induction ts using List.reverseRecOn with
  | nil => exact ⟨by simp [buckets], by simp [buckets, dictGet], by simp [buckets]⟩
  | append_singleton ts t ih =>
    have hstep : buckets nums (ts ++ [t]) = bucketStep nums (buckets nums ts) t := by
      simp [buckets]
    rw [hstep]
    generalize buckets nums ts = s at ih
    obtain ⟨h1, h2, h3⟩ := ih
    have hold : ∀ a ∈ s.1, ((ts ++ [t]).findIdx fun u => decide (bucketOf nums u = a)) =
        ts.findIdx fun u => decide (bucketOf nums u = a) := by
      intro a ha
      obtain ⟨u, hu, rfl⟩ := (h1 a).mp ha
      rw [List.findIdx_append, if_pos]
      rw [List.findIdx_lt_length]
      exact ⟨u, hu, by simp⟩
    have hlt : ∀ a ∈ s.1, (ts.findIdx fun u => decide (bucketOf nums u = a)) < ts.length := by
      intro a ha
      obtain ⟨u, hu, rfl⟩ := (h1 a).mp ha
      rw [List.findIdx_lt_length]
      exact ⟨u, hu, by simp⟩
    by_cases hb : bucketOf nums t ∈ s.1
    · have hsome : dictGet s.2 (bucketOf nums t) = some (ts.filter fun u => decide (bucketOf nums u = bucketOf nums t)) := by
        rw [h2, if_pos hb]
      simp only [bucketStep, hsome, Option.isSome_some, if_true, Option.getD_some]
      refine ⟨?_, ?_, ?_⟩
      · intro b
        simp only [h1 b, List.mem_append, List.mem_singleton]
        constructor
        · rintro ⟨u, hu, rfl⟩; exact ⟨u, .inl hu, rfl⟩
        · rintro ⟨u, hu | rfl, rfl⟩
          · exact ⟨u, hu, rfl⟩
          · exact (h1 _).mp hb
      · intro b
        simp only [dictSet_get, List.filter_append]
        by_cases hbb : bucketOf nums t = b
        · subst hbb; simp [hb]
        · simp only [hbb, if_false, h2]
          split
          · simp [hbb]
          · rfl
      · refine List.Pairwise.imp_of_mem ?_ h3
        intro a b ha hb hab
        rw [hold a ha, hold b hb]; exact hab
    · have hnone : dictGet s.2 (bucketOf nums t) = none := by rw [h2, if_neg hb]
      simp only [bucketStep, hnone, Option.isSome_none, Bool.false_eq_true, if_false, Option.getD_none,
        List.nil_append]
      have hno : ∀ u ∈ ts, bucketOf nums u ≠ bucketOf nums t := by
        intro u hu he
        exact hb ((h1 _).mpr ⟨u, hu, he⟩)
      refine ⟨?_, ?_, ?_⟩
      · intro b
        simp only [List.mem_append, List.mem_singleton, h1 b]
        constructor
        · rintro (⟨u, hu, rfl⟩ | rfl)
          · exact ⟨u, .inl hu, rfl⟩
          · exact ⟨t, .inr rfl, rfl⟩
        · rintro ⟨u, hu | rfl, rfl⟩
          · exact .inl ⟨u, hu, rfl⟩
          · exact .inr rfl
      · intro b
        simp only [dictSet_get, List.filter_append, List.mem_append, List.mem_singleton]
        by_cases hbb : bucketOf nums t = b
        · subst hbb
          have : (ts.filter fun u => decide (bucketOf nums u = bucketOf nums t)) = [] := by
            rw [List.filter_eq_nil_iff]
            intro u hu; simpa using hno u hu
          simp [this]
        · have hbb' : ¬ b = bucketOf nums t := fun e => hbb e.symm
          simp only [hbb, if_false, h2, hbb', or_false]
          split
          · simp [hbb]
          · rfl
      · rw [List.pairwise_append]
        refine ⟨?_, List.pairwise_singleton .., ?_⟩
        · refine List.Pairwise.imp_of_mem ?_ h3
          intro a b ha hb hab
          rw [hold a ha, hold b hb]; exact hab
        · intro a ha b hb'
          simp only [List.mem_singleton] at hb'
          subst hb'
          rw [hold a ha]
          have : ((ts ++ [t]).findIdx fun u => decide (bucketOf nums u = bucketOf nums t)) = ts.length := by
            rw [List.findIdx_append, if_neg]
            · simp
            · rw [List.findIdx_lt_length]
              rintro ⟨u, hu, he⟩
              exact hno u hu (by simpa using he)
          rw [this]
          exact hlt a ha

/-- Rank of a bucket in the final order. -/
def bucketRank (nums : List (F × Nat)) (ts : List (Term F)) (b : Finset F) : Nat :=
  if b = ∅ then 0 else (ts.findIdx fun t => decide (bucketOf nums t = b)) + 1

/-- The final order of the buckets, and what is in them. -/
theorem order_spec (nums : List (F × Nat)) (ts : List (Term F)) :
    let order := moveEmptyFirst (buckets nums ts).1 (buckets nums ts).2
    (∀ b, b ∈ order ↔ ∃ t ∈ ts, bucketOf nums t = b) ∧
    (order.Pairwise fun a b => bucketRank nums ts a < bucketRank nums ts b) ∧
    ∀ b ∈ order, (dictGet (buckets nums ts).2 b).getD [] =
      ts.filter fun t => decide (bucketOf nums t = b) := by
  obtain ⟨h1, h2, h3⟩ := buckets_inv nums ts
  generalize buckets nums ts = s at h1 h2 h3
  have hnd : s.1.Nodup := h3.imp fun {a b} h e => by subst e; exact Nat.lt_irrefl _ h
  have hmem : ∀ b, b ∈ moveEmptyFirst s.1 s.2 ↔ b ∈ s.1 := by
    intro b
    unfold moveEmptyFirst
    split
    · rename_i h
      rw [h2] at h
      have hin : (∅ : Finset F) ∈ s.1 := by
        by_contra hn
        rw [if_neg hn] at h; simp at h
      rw [List.mem_cons]
      by_cases hb : b = ∅
      · subst hb; simp [hin]
      · simp [hb, List.mem_erase_of_ne hb]
    · rfl
  refine ⟨fun b => (hmem b).trans (h1 b), ?_, ?_⟩
  · unfold moveEmptyFirst
    split
    · rw [List.pairwise_cons]
      refine ⟨?_, ?_⟩
      · intro b hb
        have hne : b ≠ ∅ := by
          rintro rfl
          exact (List.Nodup.not_mem_erase hnd) hb
        simp [bucketRank, hne]
      · refine List.Pairwise.imp_of_mem ?_ (List.Pairwise.sublist (List.erase_sublist) h3)
        intro a b ha hb hab
        have hne : ∀ c ∈ s.1.erase ∅, c ≠ ∅ := by
          rintro c hc rfl
          exact (List.Nodup.not_mem_erase hnd) hc
        simp only [bucketRank, hne a ha, hne b hb, if_false]
        omega
    · rename_i h
      have hnin : (∅ : Finset F) ∉ s.1 := by
        intro hin
        rw [h2, if_pos hin] at h
        simp at h
      refine List.Pairwise.imp_of_mem ?_ h3
      intro a b ha hb hab
      have hne : ∀ c ∈ s.1, c ≠ ∅ := by
        rintro c hc rfl
        exact hnin hc
      simp only [bucketRank, hne a ha, hne b hb, if_false]
      omega
  · intro b hb
    rw [h2, if_pos ((hmem b).mp hb)]
    rfl

/-! ### Stable sorting -/

/-- Insertion sort by a key, on a list in which the second components increase, sorts by the
key and then by the second component. -/
theorem insertionSort_stable {A : Type} (key : A → Nat) {l : List (A × Nat)}
    (h : l.Pairwise fun p q => p.2 < q.2) :
    (l.insertionSort fun p q => key p.1 ≤ key q.1).Pairwise
      fun p q => key p.1 < key q.1 ∨ key p.1 = key q.1 ∧ p.2 < q.2 := by
  induction l with
  | nil => simp
  | cons a l ih =>
    rw [List.pairwise_cons] at h
    rw [List.insertionSort_cons]
    have h1 : ∀ q ∈ l.insertionSort fun p q => key p.1 ≤ key q.1, a.2 < q.2 := by
      intro q hq
      exact h.1 q ((List.perm_insertionSort _ l).mem_iff.mp hq)
    have h2 := ih h.2
    generalize (l.insertionSort fun p q => key p.1 ≤ key q.1) = m at h1 h2
    clear ih h
    induction m with
    | nil => simp
    | cons b m ih =>
      rw [List.pairwise_cons] at h2
      rw [List.orderedInsert_cons]
      split
      · rename_i hle
        rw [List.pairwise_cons]
        refine ⟨?_, List.pairwise_cons.mpr h2⟩
        intro q hq
        have hlt := h1 q hq
        rcases List.mem_cons.mp hq with rfl | hq
        · omega
        · have := h2.1 q hq; omega
      · rename_i hle
        rw [List.pairwise_cons]
        refine ⟨?_, ih (fun q hq => h1 q (List.mem_cons_of_mem _ hq)) h2.2⟩
        intro q hq
        rcases (List.mem_orderedInsert _).mp hq with rfl | hq
        · omega
        · exact h2.1 q hq

theorem map_insertionSort_fst {A : Type} (key : A → Nat) (l : List (A × Nat)) :
    (l.insertionSort fun p q => key p.1 ≤ key q.1).map Prod.fst =
      (l.map Prod.fst).insertionSort fun a b => key a ≤ key b := by
  induction l with
  | nil => rfl
  | cons a l ih =>
    rw [List.insertionSort_cons, List.map_cons, List.insertionSort_cons, ← ih]
    generalize (l.insertionSort fun p q => key p.1 ≤ key q.1) = m
    induction m with
    | nil => rfl
    | cons b m ih => 
      simp only [List.orderedInsert_cons, List.map_cons]
      split
      · simp
      · simp [ih]

theorem zipIdx_filter_fst {A : Type} (p : A → Bool) (l : List A) (n : Nat) :
    ((l.zipIdx n).filter fun q => p q.1).map Prod.fst = l.filter p := by
  induction l generalizing n with
  | nil => rfl
  | cons a l ih =>
    simp only [List.zipIdx_cons, List.filter_cons]
    split <;> simp [ih]

theorem zipIdx_increasing {A : Type} (l : List A) (n : Nat) :
    (l.zipIdx n).Pairwise fun p q => p.2 < q.2 := by
  induction l generalizing n with
  | nil => simp
  | cons a l ih =>
    rw [List.zipIdx_cons, List.pairwise_cons]
    refine ⟨?_, ih (n + 1)⟩
    intro q hq
    have := List.le_snd_of_mem_zipIdx hq
    simp only
    omega

/-! ### The order of the result -/

theorem sameGroup_iff {nums : List (F × Nat)} {s t : Term F} :
    sameGroup (isNumeric nums) s t = true ↔ bucketOf nums s = bucketOf nums t := by
  simp only [sameGroup, Bool.and_eq_true, List.all_eq_true, Bool.or_eq_true, Bool.not_eq_true',
    decide_eq_true_eq, bucketOf, Finset.ext_iff, List.mem_toFinset, List.mem_filter]
  constructor
  · rintro ⟨h1, h2⟩ f
    constructor
    · rintro ⟨h3, h4⟩
      rcases h1 f h3 with h | h
      · rw [h4] at h; simp at h
      · exact ⟨h, h4⟩
    · rintro ⟨h3, h4⟩
      rcases h2 f h3 with h | h
      · rw [h4] at h; simp at h
      · exact ⟨h, h4⟩
  · intro h
    constructor
    · intro f hf
      cases hn : isNumeric nums f with
      | false => exact .inl rfl
      | true => exact .inr ((h f).mp ⟨hf, hn⟩).1
    · intro f hf
      cases hn : isNumeric nums f with
      | false => exact .inl rfl
      | true => exact .inr ((h f).mpr ⟨hf, hn⟩).1

theorem groupRank_eq (nums : List (F × Nat)) (ts : List (Term F)) (t : Term F) :
    groupRank (isNumeric nums) ts t = bucketRank nums ts (bucketOf nums t) := by
  unfold groupRank bucketRank
  have h1 : (t.factors.any (isNumeric nums) = true) ↔ bucketOf nums t ≠ ∅ := by
    simp only [List.any_eq_true, bucketOf, ne_eq, Finset.ext_iff, List.mem_toFinset, List.mem_filter,
      Finset.notMem_empty, iff_false, not_and, not_forall, not_not]
    constructor
    · rintro ⟨f, h1, h2⟩; exact ⟨f, h1, h2⟩
    · rintro ⟨f, h1, h2⟩; exact ⟨f, h1, h2⟩
  by_cases h : bucketOf nums t = ∅
  · rw [if_neg (by rw [h1]; simpa using h), if_pos h]
  · rw [if_pos (h1.mpr h), if_neg h]
    congr 2
    funext u
    rw [Bool.eq_iff_iff, sameGroup_iff, decide_eq_true_eq]
    exact eq_comm

theorem degree_split {nums : List (F × Nat)} {t : Term F} (h : t.factors.Nodup) :
    t.factors.length = categoricals (isNumeric nums) t + (bucketOf nums t).card := by
  unfold categoricals bucketOf
  rw [List.toFinset_card_of_nodup (h.filter _)]
  generalize t.factors = fs
  clear h
  induction fs with
  | nil => rfl
  | cons f fs ih =>
    simp only [List.filter_cons]
    cases isNumeric nums f <;> simp <;> omega

/-- The concatenation of the sorted buckets is the documented order. -/
theorem newTermOrder_inOrder (nums : List (F × Nat)) {ts : List (Term F)}
    (hnd : ∀ t ∈ ts, t.factors.Nodup) :
    InOrder (isNumeric nums) ts
      ((moveEmptyFirst (buckets nums ts).1 (buckets nums ts).2).flatMap fun b =>
        sortByDegree ((dictGet (buckets nums ts).2 b).getD [])) := by
  obtain ⟨h1, h2, h3⟩ := order_spec nums ts
  generalize moveEmptyFirst (buckets nums ts).1 (buckets nums ts).2 = order at h1 h2 h3
  let grp := fun b => ts.zipIdx.filter fun q => decide (bucketOf nums q.1 = b)
  let srt := fun b => (grp b).insertionSort fun p q => p.1.factors.length ≤ q.1.factors.length
  have hperm : ∀ b, (srt b).Perm (grp b) := fun b => List.perm_insertionSort _ _
  have hin : ∀ b, ∀ p ∈ srt b, bucketOf nums p.1 = b ∧ p ∈ ts.zipIdx := by
    intro b p hp
    have := List.mem_filter.mp ((hperm b).mem_iff.mp hp)
    exact ⟨by simpa using this.2, this.1⟩
  refine ⟨order.flatMap srt, ?_, ?_, ?_⟩
  · -- permutation
    refine (List.Perm.flatMap_left order fun b _ => hperm b).trans ?_
    have hnd2 : ts.zipIdx.Nodup := (zipIdx_increasing ts 0).imp fun {a b} h e => by
      subst e; exact Nat.lt_irrefl _ h
    have hndo : order.Nodup := h2.imp fun {a b} h e => by subst e; exact Nat.lt_irrefl _ h
    refine (List.perm_ext_iff_of_nodup ?_ hnd2).mpr ?_
    · rw [List.nodup_flatMap]
      refine ⟨fun b _ => hnd2.filter _, ?_⟩
      refine hndo.imp ?_
      intro a b hab p hp hq
      have hp' := List.mem_filter.mp hp
      have hq' := List.mem_filter.mp hq
      simp only [decide_eq_true_eq] at hp' hq'
      exact hab (hp'.2.symm.trans hq'.2)
    · intro p
      rw [List.mem_flatMap]
      constructor
      · rintro ⟨b, _, hp⟩; exact (List.mem_filter.mp hp).1
      · intro hp
        refine ⟨bucketOf nums p.1, ?_, List.mem_filter.mpr ⟨hp, by simp⟩⟩
        rw [h1]
        exact ⟨p.1, List.fst_mem_of_mem_zipIdx hp, rfl⟩
  · rw [List.pairwise_flatMap]
    constructor
    · intro b _
      have hs := insertionSort_stable (fun t : Term F => t.factors.length)
        (l := grp b) ((zipIdx_increasing ts 0).sublist List.filter_sublist)
      refine List.Pairwise.imp_of_mem ?_ hs
      intro p q hp hq hpq
      obtain ⟨hp1, hp2⟩ := hin b p hp
      obtain ⟨hq1, hq2⟩ := hin b q hq
      have d1 := degree_split (nums := nums) (hnd p.1 (List.fst_mem_of_mem_zipIdx hp2))
      have d2 := degree_split (nums := nums) (hnd q.1 (List.fst_mem_of_mem_zipIdx hq2))
      right
      rw [groupRank_eq, groupRank_eq, hp1, hq1]
      rw [hp1] at d1; rw [hq1] at d2
      refine ⟨rfl, ?_⟩
      omega
    · refine h2.imp ?_
      intro a b hab p hp q hq
      left
      rw [groupRank_eq, groupRank_eq, (hin a p hp).1, (hin b q hq).1]
      exact hab
  · rw [List.map_flatMap]
    apply List.flatMap_congr
    intro b hb
    rw [h3 b hb]
    simp only [srt, grp, sortByDegree]
    rw [map_insertionSort_fst (fun t : Term F => t.factors.length), zipIdx_filter_fst (fun t => decide (bucketOf nums t = b))]

end Patsy.Build
