import Mathlib.Data.List.Sort
import Verif.Props.Redundancy
import Verif.Spec.PieceOrder

/-!
# Property C86: the pieces of one term come in a fixed order
-/

namespace Patsy.Props

open Patsy.Redundancy Patsy.Spec

universe u
variable {F : Type u}

theorem tupleLe_total {α : Type u} (s t : List (Nat × α)) : tupleLe s t = true ∨ tupleLe t s = true := by
  induction s generalizing t with
  | nil => simp [tupleLe]
  | cons a s ih =>
    cases t with
    | nil => simp [tupleLe]
    | cons b t =>
      simp only [tupleLe]
      by_cases h : a.1 = b.1
      · simpa [h] using ih t
      · have h' : ¬ b.1 = a.1 := fun e => h e.symm
        simp only [h, h', if_false, decide_eq_true_eq]
        omega

theorem tupleLe_trans {α : Type u} {s t w : List (Nat × α)} (h1 : tupleLe s t = true)
    (h2 : tupleLe t w = true) : tupleLe s w = true := by
  induction s generalizing t w with
  | nil => simp [tupleLe]
  | cons a s ih =>
    cases t with
    | nil => simp [tupleLe] at h1
    | cons b t =>
      cases w with
      | nil => simp [tupleLe] at h2
      | cons c w =>
        simp only [tupleLe] at h1 h2 ⊢
        by_cases hab : a.1 = b.1 <;> by_cases hbc : b.1 = c.1
        · rw [if_pos hab] at h1
          rw [if_pos hbc] at h2
          rw [if_pos (hab.trans hbc)]
          exact ih h1 h2
        · rw [if_neg hbc, decide_eq_true_eq] at h2
          rw [if_neg (by omega), decide_eq_true_eq]
          omega
        · rw [if_neg hab, decide_eq_true_eq] at h1
          rw [if_neg (by omega), decide_eq_true_eq]
          omega
        · rw [if_neg hab, decide_eq_true_eq] at h1
          rw [if_neg hbc, decide_eq_true_eq] at h2
          rw [if_neg (by omega), decide_eq_true_eq]
          omega

theorem tupleLe_lex {α : Type u} {s t : List (Nat × α)} (h : tupleLe s t = true)
    (hne : s.map Prod.fst ≠ t.map Prod.fst) :
    List.Lex (· < ·) (s.map Prod.fst) (t.map Prod.fst) := by
  induction s generalizing t with
  | nil =>
    cases t with
    | nil => simp at hne
    | cons b t => exact .nil
  | cons a s ih =>
    cases t with
    | nil => simp [tupleLe] at h
    | cons b t =>
      simp only [tupleLe] at h
      by_cases hab : a.1 = b.1
      · rw [if_pos hab] at h
        simp only [List.map_cons, hab]
        refine .cons (ih h ?_)
        intro he
        exact hne (by simp [hab, he])
      · rw [if_neg hab, decide_eq_true_eq] at h
        exact .rel h

theorem not_both_orders {A : Type u} {M : List A} (hn : M.Nodup) {a b : A} (hne : a ≠ b)
    (h1 : [a, b].Sublist M) : ¬ [b, a].Sublist M := by
  intro h2
  induction M with
  | nil => cases h1
  | cons x M ih =>
    rw [List.nodup_cons] at hn
    cases h1 with
    | cons _ h1 =>
      cases h2 with
      | cons _ h2 => exact ih hn.2 h1 h2
      | cons_cons _ h2 => exact hn.1 (h1.subset (by simp))
    | cons_cons _ h1 =>
      cases h2 with
      | cons _ h2 => exact hn.1 (h2.subset (by simp))
      | cons_cons _ h2 => exact hne rfl

/-- Two sorts one after the other: the second decides, and where it does not, the first. -/
theorem sorted_twice {α : Type u} (L : List (List (Nat × α))) (hn : L.Nodup) :
    ((L.insertionSort (fun s t => tupleLe s t = true)).insertionSort
      (fun s t => s.length ≤ t.length)).Pairwise
        fun s t => s.length < t.length ∨ s.length = t.length ∧ tupleLe s t = true := by
  haveI i1 : Std.Total (fun s t : List (Nat × α) => tupleLe s t = true) := ⟨tupleLe_total⟩
  haveI i2 : IsTrans (List (Nat × α)) (fun s t => tupleLe s t = true) := ⟨fun _ _ _ => tupleLe_trans⟩
  haveI i3 : Std.Total (fun s t : List (Nat × α) => s.length ≤ t.length) :=
    ⟨fun s t => Nat.le_total _ _⟩
  haveI i4 : IsTrans (List (Nat × α)) (fun s t => s.length ≤ t.length) :=
    ⟨fun _ _ _ => Nat.le_trans⟩
  generalize hN : L.insertionSort (fun s t => tupleLe s t = true) = N
  have hNs : N.Pairwise (fun s t => tupleLe s t = true) := hN ▸ List.pairwise_insertionSort _ L
  have hNn : N.Nodup := hN ▸ (List.perm_insertionSort _ L).nodup_iff.mpr hn
  have hM := List.pairwise_insertionSort (fun s t : List (Nat × α) => s.length ≤ t.length) N
  have hMn := (List.perm_insertionSort (fun s t : List (Nat × α) => s.length ≤ t.length) N).nodup_iff.mpr hNn
  rw [List.pairwise_iff_forall_sublist] at hM hNs ⊢
  intro a b hab
  have hle := hM hab
  rcases Nat.lt_or_eq_of_le hle with h | h
  · exact .inl h
  · refine .inr ⟨h, ?_⟩
    have ha : a ∈ N := (List.mem_insertionSort _).mp (hab.subset (by simp))
    have hb : b ∈ N := (List.mem_insertionSort _).mp (hab.subset (by simp))
    have hne : a ≠ b := by
      have := hMn.sublist hab
      simpa using this
    obtain ⟨l1, l2, rfl⟩ := List.append_of_mem ha
    rcases List.mem_append.mp hb with hb | hb
    · have ha' : [a].Sublist (a :: l2) := List.singleton_sublist.mpr (by simp)
      have hba : [b, a].Sublist (l1 ++ a :: l2) := (List.singleton_sublist.mpr hb).append ha'
      have h' := List.pair_sublist_insertionSort (r := fun s t : List (Nat × α) => s.length ≤ t.length)
        (Nat.le_of_eq h.symm) hba
      exact absurd h' (not_both_orders hMn hne hab)
    · rcases List.mem_cons.mp hb with rfl | hb
      · exact absurd rfl hne
      · exact hNs (((List.singleton_sublist.mpr hb).cons_cons a).trans (List.sublist_append_right _ _))

theorem mem_enumFrom {α : Type u} [DecidableEq α] {l : List α} (hn : l.Nodup) {i : Nat} {p : Nat × α}
    (h : p ∈ enumFrom i l) : p.2 ∈ l ∧ p.1 = i + l.idxOf p.2 := by
  induction l generalizing i with
  | nil => simp [enumFrom] at h
  | cons a l ih =>
    rw [List.nodup_cons] at hn
    simp only [enumFrom, List.mem_cons] at h
    rcases h with rfl | h
    · simp
    · obtain ⟨h1, h2⟩ := ih hn.2 h
      refine ⟨by simp [h1], ?_⟩
      rw [List.idxOf_cons_ne _ (fun e : a = p.2 => hn.1 (e ▸ h1)), h2]
      omega

/-- **C86**, the possible pieces: all lists of categorical factors of the term, the ones with
fewer factors first, and otherwise in the order of the factors in the term. -/
theorem subsets_in_order [DecidableEq F] (cat : List F) (hn : cat.Nodup) :
    (subsetsSorted cat).Perm cat.sublists' ∧ (subsetsSorted cat).Pairwise (PieceBefore cat) := by
  refine ⟨subsetsSorted_perm cat, ?_⟩
  have hnd : (subsetsSorted cat).Nodup :=
    (subsetsSorted_perm cat).nodup_iff.mpr (List.nodup_sublists'.mpr hn)
  cases cat with
  | nil => simp [subsetsSorted, subsetsSortedN, sortStrip]
  | cons a l =>
    simp only [subsetsSorted, List.length_cons, subsetsSortedN, enumFrom] at hnd ⊢
    generalize hL : ((subsetsSortedN l.length (enumFrom (0 + 1) l)).flatMap
      fun s => [s, ((0, a) : Nat × F) :: s]) = L at hnd ⊢
    have hp : L.Perm (enumFrom 0 (a :: l)).sublists' := by
      rw [← hL]
      refine ((subsetsSortedN_perm _ _ (enumFrom_length _ _)).flatMap_right _).trans ?_
      refine (flatMap_pair_perm _ _).trans ?_
      rw [enumFrom, List.sublists'_cons]
    have hLn : L.Nodup := by
      have := (sortStrip_perm L).nodup_iff.mp hnd
      exact List.Nodup.of_map _ this
    have h := sorted_twice L hLn
    unfold sortStrip at hnd ⊢
    have hmem : ∀ s ∈ (L.insertionSort (fun s t => tupleLe s t = true)).insertionSort
        (fun s t => s.length ≤ t.length), s.map Prod.fst = (s.map Prod.snd).map (List.idxOf · (a :: l)) := by
      intro s hs
      have hs' : s ∈ (enumFrom 0 (a :: l)).sublists' :=
        hp.subset ((List.mem_insertionSort _).mp ((List.mem_insertionSort _).mp hs))
      rw [List.mem_sublists'] at hs'
      rw [List.map_map]
      apply List.map_congr_left
      intro p hp'
      have := (mem_enumFrom hn (hs'.subset hp')).2
      simpa using this
    have hin : ∀ s ∈ (L.insertionSort (fun s t => tupleLe s t = true)).insertionSort
        (fun s t => s.length ≤ t.length), ∀ x ∈ s.map Prod.snd, x ∈ a :: l := by
      intro s hs x hx
      have hs' : s ∈ (enumFrom 0 (a :: l)).sublists' :=
        hp.subset ((List.mem_insertionSort _).mp ((List.mem_insertionSort _).mp hs))
      rw [List.mem_sublists'] at hs'
      obtain ⟨p, hp', rfl⟩ := List.mem_map.mp hx
      exact (mem_enumFrom hn (hs'.subset hp')).1
    rw [List.nodup_iff_pairwise_ne, List.pairwise_map] at hnd
    rw [List.pairwise_map]
    refine (h.and hnd).imp_of_mem ?_
    rintro s t hs ht ⟨h1, h2⟩
    simp only [PieceBefore, List.length_map]
    rcases h1 with h1 | ⟨h1, h3⟩
    · exact .inl h1
    · refine .inr ⟨h1, ?_⟩
      rw [← hmem s hs, ← hmem t ht]
      apply tupleLe_lex h3
      rw [hmem s hs, hmem t ht]
      intro he
      apply h2
      have key : ∀ u v : List F, (∀ x ∈ u, x ∈ a :: l) → (∀ x ∈ v, x ∈ a :: l) →
          u.map (List.idxOf · (a :: l)) = v.map (List.idxOf · (a :: l)) → u = v := by
        intro u
        induction u with
        | nil => intro v _ _ h; cases v <;> simp_all
        | cons x u ih =>
          intro v hu hv h
          cases v with
          | nil => simp at h
          | cons y v =>
            simp only [List.map_cons, List.cons.injEq] at h
            rw [ih v (fun z hz => hu z (by simp [hz])) (fun z hz => hv z (by simp [hz])) h.2,
              (List.idxOf_inj (hu x (by simp))).mp h.1]
      exact key _ _ (hin s hs) (hin t ht) he

/-- Example: the 16 subsets of four factors. -/
example : (subsetsSorted [0, 1, 2, 3]).take 8 = [[], [0], [1], [2], [3], [0, 1], [0, 2], [0, 3]] ∧
    [0, 1, 2, 3].Nodup := by decide +kernel

variable [DecidableEq F]

theorem absorb_factors {long short new : Subterm F} (hs : short ⊆ long) (h : absorb long short = .ok new) :
    factorsOf new = factorsOf long := by
  simp only [absorb] at h
  split at h
  · split at h
    · simp only [Except.ok.injEq] at h
      subst h
      ext f
      simp only [factorsOf, Finset.mem_image, Finset.mem_union, Finset.mem_sdiff]
      constructor
      · rintro ⟨e, h | ⟨e', h, rfl⟩, rfl⟩
        · exact ⟨e, hs h, rfl⟩
        · exact ⟨e', h.1, rfl⟩
      · rintro ⟨e, h, rfl⟩
        by_cases hm : e ∈ short
        · exact ⟨e, .inl hm, rfl⟩
        · exact ⟨⟨true, e.factor⟩, .inr ⟨e, ⟨h, hm⟩, rfl⟩, rfl⟩
    · cases h
  · cases h

theorem absorbInto_factors {short : Subterm F} {l l' : List (Subterm F)}
    (h : absorbInto short l = .ok (some l')) : l'.map factorsOf = l.map factorsOf := by
  induction l generalizing l' with
  | nil => simp [absorbInto] at h
  | cons long rest ih =>
    simp only [absorbInto] at h
    split at h
    · rename_i hc
      simp only [canAbsorb, Bool.and_eq_true, decide_eq_true_eq] at hc
      split at h
      · rename_i new hnew
        simp only [Except.ok.injEq, Option.some.injEq] at h
        subst h
        simp [absorb_factors hc.2 hnew]
      · cases h
    · split at h
      · rename_i r hr
        simp only [Except.ok.injEq, Option.some.injEq] at h
        subst h
        simp [ih hr]
      · cases h
      · cases h

theorem simplifyOne_factors {l l' : List (Subterm F)} (h : simplifyOne l = .ok (some l')) :
    (l'.map factorsOf).Sublist (l.map factorsOf) := by
  induction l generalizing l' with
  | nil => simp [simplifyOne] at h
  | cons short rest ih =>
    simp only [simplifyOne] at h
    split at h
    · cases h
    · rename_i r hr
      simp only [Except.ok.injEq, Option.some.injEq] at h
      subst h
      rw [absorbInto_factors hr]
      exact List.sublist_cons_self _ _
    · split at h
      · rename_i r hr
        simp only [Except.ok.injEq, Option.some.injEq] at h
        subst h
        exact (ih hr).cons_cons _
      · cases h
      · cases h

theorem simplify_factors (n : Nat) {l l' : List (Subterm F)} (hn : l.length ≤ n) (h : simplify l = .ok l') :
    (l'.map factorsOf).Sublist (l.map factorsOf) := by
  induction n generalizing l with
  | zero =>
    have : l = [] := List.length_eq_zero_iff.mp (by omega)
    subst this
    rw [simplify] at h
    simp [simplifyOne] at h
    simp [← h]
  | succ n ih =>
    rw [simplify] at h
    split at h
    · cases h
    · cases h; exact List.Sublist.refl _
    · rename_i m hm
      have := simplifyOne_length hm
      exact (ih (by omega) h).trans (simplifyOne_factors hm)

theorem factorsOf_mkSubterm (s : List F) : factorsOf (mkSubterm s) = s.toFinset := by
  ext f
  simp [factorsOf, mkSubterm]

/-- **C86.**  The pieces of a term are coded for different lists of its categorical factors, pieces
with fewer factors first, and pieces with equally many factors in the order of the factors in the
term; whatever was coded before. -/
theorem pieces_in_order {H : Type u} [DecidableEq H] {hash : Subterm F → H} {isNum : F → Bool}
    {term : List F} (hn : term.Nodup) {used used' : List H} {cs : List (Subterm F)}
    (h : pickContrasts hash isNum term used = .ok (cs, used')) :
    ∃ pieces : List (List F), cs.map (fun c => c.image EFactor.factor) = pieces.map List.toFinset ∧
      (∀ s ∈ pieces, s.Sublist (term.filter fun f => !isNum f)) ∧
      pieces.Pairwise (PieceBefore (term.filter fun f => !isNum f)) := by
  have hcat : (term.filter fun f => !isNum f).Nodup := hn.filter _
  obtain ⟨hperm, hord⟩ := subsets_in_order _ hcat
  have hsub : (cs.map factorsOf).Sublist
      ((subsetsSorted (term.filter fun f => !isNum f)).map List.toFinset) := by
    simp only [pickContrasts] at h
    split at h
    · rename_i l hl
      simp only [Except.ok.injEq, Prod.mk.injEq] at h
      rw [← h.1]
      refine (simplify_factors _ (Nat.le_refl _) hl).trans ?_
      have : List.toFinset (α := F) = factorsOf ∘ mkSubterm := by
        funext s; exact (factorsOf_mkSubterm s).symm
      rw [this, ← List.map_map]
      exact List.filter_sublist.map _
    · cases h
  obtain ⟨pieces, h1, h2⟩ := List.sublist_map_iff.mp hsub
  refine ⟨pieces, h2, ?_, hord.sublist h1⟩
  intro s hs
  exact List.mem_sublists'.mp (hperm.subset (h1.subset hs))

/-- **C86**, all terms of a group: the pieces of every term come in this order. -/
theorem all_pieces_in_order {H : Type u} [DecidableEq H] {hash : Subterm F → H} {isNum : F → Bool}
    {terms : List (List F)} (hn : ∀ t ∈ terms, t.Nodup) {used : List H} {css : List (List (Subterm F))}
    (h : codeTerms hash isNum terms used = .ok css) :
    List.Forall₂ (fun (t : List F) (cs : List (Subterm F)) =>
      ∃ pieces : List (List F), cs.map (fun c => c.image EFactor.factor) = pieces.map List.toFinset ∧
        (∀ s ∈ pieces, s.Sublist (t.filter fun f => !isNum f)) ∧
        pieces.Pairwise (PieceBefore (t.filter fun f => !isNum f))) terms css := by
  induction terms generalizing used css with
  | nil => simp only [codeTerms, Except.ok.injEq] at h; subst h; exact .nil
  | cons t ts ih =>
    simp only [codeTerms] at h
    split at h
    · cases h
    · rename_i c used' hc
      split at h
      · cases h
      · rename_i cs hcs
        simp only [Except.ok.injEq] at h
        subst h
        exact .cons (pieces_in_order (hn t (by simp)) hc) (ih (fun t ht => hn t (by simp [ht])) hcs)

/-- Example: in `a:b:c` after `1`, `a` and `b`, the pieces are those of `a:c`, `b:c` and `a:b:c`. -/
example : okIs (pickContrasts (fun s : Subterm Nat => s) (fun _ => false) [0, 1, 2] [∅, {⟨false, 0⟩}, {⟨false, 1⟩}])
      ([{⟨true, 0⟩, ⟨false, 2⟩}, {⟨false, 1⟩, ⟨false, 2⟩}, {⟨false, 0⟩, ⟨false, 1⟩, ⟨true, 2⟩}],
        [∅, {⟨false, 0⟩}, {⟨false, 1⟩}, {⟨false, 2⟩}, {⟨false, 0⟩, ⟨false, 1⟩}, {⟨false, 0⟩, ⟨false, 2⟩},
          {⟨false, 1⟩, ⟨false, 2⟩}, {⟨false, 0⟩, ⟨false, 1⟩, ⟨false, 2⟩}]) = true ∧ [0, 1, 2].Nodup := by
  decide +kernel

end Patsy.Props
