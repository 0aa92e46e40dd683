import Mathlib.Data.List.Sublists
import Mathlib.Data.List.Nodup
import Mathlib.Tactic.Tauto
import Verif.Model.Redundancy
import Verif.Spec.Redundancy

/-! Helper lemmas about the model of `redundancy.py`. -/

namespace Patsy.Redundancy

universe u

/-! ### `_subsets_sorted` enumerates all subsets -/

section Subsets
variable {α : Type u}

theorem enumFrom_map_snd (i : Nat) (l : List α) : (enumFrom i l).map Prod.snd = l := by
  induction l generalizing i with
  | nil => rfl
  | cons a l ih => simp [enumFrom, ih]

theorem enumFrom_length (i : Nat) (l : List α) : (enumFrom i l).length = l.length := by
  induction l generalizing i with
  | nil => rfl
  | cons a l ih => simp [enumFrom, ih]

theorem sortStrip_perm (l : List (List (Nat × α))) :
    (sortStrip l).Perm (l.map (·.map Prod.snd)) := by
  unfold sortStrip
  exact ((List.perm_insertionSort _ _).trans (List.perm_insertionSort _ _)).map _

theorem flatMap_pair_perm (a : α) (L : List (List α)) :
    (L.flatMap fun s => [s, a :: s]).Perm (L ++ L.map (List.cons a)) := by
  induction L with
  | nil => simp
  | cons s L ih =>
    simp only [List.flatMap_cons, List.map_cons, List.cons_append, List.nil_append]
    refine List.Perm.cons _ ?_
    refine (List.Perm.cons _ ih).trans ?_
    exact List.perm_middle.symm

theorem subsetsSortedN_perm (n : Nat) {α : Type u} (l : List α) (h : l.length = n) :
    (subsetsSortedN n l).Perm l.sublists' := by
  induction n generalizing α with
  | zero =>
    have : l = [] := List.length_eq_zero_iff.mp h
    subst this
    simpa [subsetsSortedN] using sortStrip_perm (α := α) [[]]
  | succ n ih =>
    match l, h with
    | a :: l, h =>
      simp only [subsetsSortedN, enumFrom]
      refine (sortStrip_perm _).trans ?_
      have hl : (enumFrom (0+1) l).length = n := by
        rw [enumFrom_length]; simpa using h
      have h1 := ih (enumFrom (0+1) l) hl
      have h2 : ((subsetsSortedN n (enumFrom (0+1) l)).flatMap
          fun s => [s, ((0, a) : Nat × α) :: s]).Perm
          ((enumFrom (0+1) l).sublists'.flatMap fun s => [s, ((0, a) : Nat × α) :: s]) :=
        h1.flatMap_right _
      have h3 := (h2.trans (flatMap_pair_perm _ _)).map (fun s => s.map Prod.snd)
      refine h3.trans ?_
      have h4 : (enumFrom (0+1) l).sublists'.map (fun s => s.map Prod.snd) = l.sublists' := by
        rw [← List.sublists'_map, enumFrom_map_snd]
      rw [List.map_append, List.map_map, List.sublists'_cons, ← h4, List.map_map]
      rfl

theorem subsetsSorted_perm (l : List α) : (subsetsSorted l).Perm l.sublists' :=
  subsetsSortedN_perm _ l rfl

variable [DecidableEq α]

theorem sublists'_toFinset_nodup (l : List α) (h : l.Nodup) :
    (l.sublists'.map List.toFinset).Nodup := by
  induction l with
  | nil => simp
  | cons a l ih =>
    rw [List.nodup_cons] at h
    have hns : ∀ s ∈ l.sublists', a ∉ s := by
      intro s hs ha
      rw [List.mem_sublists'] at hs
      exact h.1 (hs.subset ha)
    rw [List.sublists'_cons, List.map_append, List.map_map]
    have ih' := ih h.2
    refine List.nodup_append.mpr ⟨ih', ?_, ?_⟩
    · have : (l.sublists'.map (List.toFinset ∘ List.cons a))
          = (l.sublists'.map List.toFinset).map (insert a) := by
        rw [List.map_map]
        apply List.map_congr_left
        intro s _
        simp
      rw [this]
      refine List.Nodup.map_on ?_ ih'
      intro x hx y hy hxy
      rw [List.mem_map] at hx hy
      obtain ⟨s, hs, rfl⟩ := hx
      obtain ⟨t, ht, rfl⟩ := hy
      have h1 : a ∉ s.toFinset := by simpa using hns s hs
      have h2 : a ∉ t.toFinset := by simpa using hns t ht
      rw [← Finset.erase_insert h1, ← Finset.erase_insert h2, hxy]
    · intro x hx y hy hxy
      rw [List.mem_map] at hx hy
      obtain ⟨s, hs, rfl⟩ := hx
      obtain ⟨t, ht, rfl⟩ := hy
      have h1 : a ∉ s.toFinset := by simpa using hns s hs
      apply h1
      rw [hxy]; simp

theorem mem_sublists'_toFinset (l : List α) (S : Finset α) (_h : l.Nodup) :
    S ∈ l.sublists'.map List.toFinset ↔ S ⊆ l.toFinset := by
  rw [List.mem_map]
  constructor
  · rintro ⟨s, hs, rfl⟩
    rw [List.mem_sublists'] at hs
    intro x hx
    simp only [List.mem_toFinset] at *
    exact hs.subset hx
  · intro hS
    refine ⟨l.filter (· ∈ S), ?_, ?_⟩
    · rw [List.mem_sublists']; exact List.filter_sublist
    · ext x
      simp only [List.mem_toFinset, List.mem_filter, decide_eq_true_eq]
      constructor
      · exact fun h => h.2
      · intro h; exact ⟨by simpa using hS h, h⟩

theorem subsetsSorted_toFinset_nodup (l : List α) (h : l.Nodup) :
    ((subsetsSorted l).map List.toFinset).Nodup :=
  ((subsetsSorted_perm l).map _).nodup_iff.mpr (sublists'_toFinset_nodup l h)

theorem mem_subsetsSorted_toFinset (l : List α) (S : Finset α) (h : l.Nodup) :
    S ∈ (subsetsSorted l).map List.toFinset ↔ S ⊆ l.toFinset := by
  rw [((subsetsSorted_perm l).map _).mem_iff, mem_sublists'_toFinset l S h]

end Subsets

/-! ### Pieces as intervals of the subset lattice -/

variable {F : Type u} [DecidableEq F]

/-- The reduced-coded factors of a piece. -/
def minusOf (e : Subterm F) : Finset F := (e.filter (fun x => x.includesIntercept = false)).image (·.factor)

/-- All factors of a piece. -/
def factorsOf (e : Subterm F) : Finset F := e.image (·.factor)

/-- The piece `e` spans effect `S`. -/
def Sp (e : Subterm F) (S : Finset F) : Prop := minusOf e ⊆ S ∧ S ⊆ factorsOf e

instance (e : Subterm F) (S : Finset F) : Decidable (Sp e S) := by unfold Sp; infer_instance

/-- No factor occurs with both codings. -/
def Good (e : Subterm F) : Prop := ∀ f, ¬ (⟨true, f⟩ ∈ e ∧ ⟨false, f⟩ ∈ e)

theorem mem_minusOf {e : Subterm F} {f : F} : f ∈ minusOf e ↔ ⟨false, f⟩ ∈ e := by
  unfold minusOf
  simp only [Finset.mem_image, Finset.mem_filter]
  constructor
  · rintro ⟨⟨b, g⟩, ⟨h1, h2⟩, h3⟩
    simp only at h2 h3
    subst h2; subst h3; exact h1
  · intro h; exact ⟨_, ⟨h, rfl⟩, rfl⟩

theorem mem_factorsOf {e : Subterm F} {f : F} :
    f ∈ factorsOf e ↔ ⟨true, f⟩ ∈ e ∨ ⟨false, f⟩ ∈ e := by
  unfold factorsOf
  simp only [Finset.mem_image]
  constructor
  · rintro ⟨⟨b, g⟩, h1, h3⟩
    simp only at h3
    subst h3
    cases b <;> tauto
  · rintro (h | h)
    · exact ⟨_, h, rfl⟩
    · exact ⟨_, h, rfl⟩

theorem minusOf_subset_factorsOf (e : Subterm F) : minusOf e ⊆ factorsOf e := by
  intro f hf
  rw [mem_minusOf] at hf
  rw [mem_factorsOf]
  exact Or.inr hf

theorem spans_iff_Sp {e : Subterm F} (h : Good e) (S : Finset F) :
    Spec.Spans (codingLookup e) S ↔ Sp e S := by
  unfold Spec.Spans Sp
  have h1 : ∀ f, codingLookup e f = some false ↔ f ∈ minusOf e := by
    intro f
    rw [mem_minusOf]
    unfold codingLookup
    have := h f
    split
    · simp; tauto
    · split <;> simp_all
  have h2 : ∀ f, codingLookup e f ≠ none ↔ f ∈ factorsOf e := by
    intro f
    rw [mem_factorsOf]
    unfold codingLookup
    split
    · simp_all
    · split <;> simp_all
  constructor
  · rintro ⟨a, b⟩
    exact ⟨fun f hf => a f ((h1 f).mpr hf), fun f hf => (h2 f).mp (b f hf)⟩
  · rintro ⟨a, b⟩
    exact ⟨fun f hf => a ((h1 f).mp hf), fun f hf => (h2 f).mpr (b hf)⟩

/-- The key step: a legal merge of two disjoint pieces succeeds and spans the
union. -/
theorem absorb_ok {long short : Subterm F} (hg : Good long)
    (hdis : ∀ S, ¬ (Sp short S ∧ Sp long S)) (hc : canAbsorb long short = true) :
    ∃ new, absorb long short = .ok new ∧ Good new ∧
      (∀ S, Sp new S ↔ Sp short S ∨ Sp long S) ∧ factorsOf new = factorsOf long := by
  unfold canAbsorb at hc
  simp only [Bool.and_eq_true, decide_eq_true_eq] at hc
  obtain ⟨hcard, hsub⟩ := hc
  have hd : (long \ short).card = 1 := by
    rw [Finset.card_sdiff_of_subset hsub]; omega
  obtain ⟨e, he⟩ := Finset.card_eq_one.mp hd
  have heL : e ∈ long ∧ e ∉ short := by
    have : e ∈ long \ short := by rw [he]; simp
    simpa using this
  have hlong : ∀ x, x ∈ long ↔ x ∈ short ∨ x = e := by
    intro x
    constructor
    · intro hx
      by_cases hxs : x ∈ short
      · exact Or.inl hxs
      · right
        have : x ∈ long \ short := by simp [hx, hxs]
        rw [he] at this
        simpa using this
    · rintro (hx | hx)
      · exact hsub hx
      · rw [hx]; exact heL.1
  obtain ⟨b, f⟩ := e
  have hb : b = false := by
    cases b with
    | false => rfl
    | true =>
      exfalso
      apply hdis (minusOf short)
      refine ⟨⟨Finset.Subset.refl _, minusOf_subset_factorsOf _⟩, ?_, ?_⟩
      · intro g hg
        rw [mem_minusOf] at *
        rcases (hlong _).mp hg with h | h
        · exact h
        · simp at h
      · intro g hg
        rw [mem_minusOf] at hg
        rw [mem_factorsOf]
        exact Or.inr ((hlong _).mpr (Or.inl hg))
  subst hb
  have hf1 : (⟨true, f⟩ : EFactor F) ∉ short := by
    intro h
    exact hg f ⟨hsub h, heL.1⟩
  have hf2 : (⟨false, f⟩ : EFactor F) ∉ short := heL.2
  have hnew : ∀ x, x ∈ short ∪ (long \ short).image (fun e => (⟨true, e.factor⟩ : EFactor F))
      ↔ x ∈ short ∨ x = ⟨true, f⟩ := by
    intro x
    rw [he]
    simp only [Finset.image_singleton, Finset.mem_union, Finset.mem_singleton]
  refine ⟨short ∪ (long \ short).image (fun e => ⟨true, e.factor⟩), ?_, ?_, ?_, ?_⟩
  · unfold absorb
    simp only [hd, if_true]
    rw [if_pos]
    intro x hx
    rw [he] at hx
    simp at hx
    rw [hx]
  · intro g hgg
    rw [hnew, hnew] at hgg
    obtain ⟨h1, h2⟩ := hgg
    rcases h2 with h2 | h2
    · rcases h1 with h1 | h1
      · exact hg g ⟨hsub h1, hsub h2⟩
      · simp at h1
        subst h1
        exact hf2 h2
    · simp at h2
  · intro S
    have hm : ∀ g, g ∈ minusOf (short ∪ (long \ short).image (fun e => (⟨true, e.factor⟩ : EFactor F)))
        ↔ g ∈ minusOf short := by
      intro g; rw [mem_minusOf, mem_minusOf, hnew]; simp
    have hfa : ∀ g, g ∈ factorsOf (short ∪ (long \ short).image (fun e => (⟨true, e.factor⟩ : EFactor F)))
        ↔ g ∈ factorsOf short ∨ g = f := by
      intro g; rw [mem_factorsOf, mem_factorsOf, hnew, hnew]; simp; tauto
    have hml : ∀ g, g ∈ minusOf long ↔ g ∈ minusOf short ∨ g = f := by
      intro g; rw [mem_minusOf, mem_minusOf, hlong]; simp
    have hfl : ∀ g, g ∈ factorsOf long ↔ g ∈ factorsOf short ∨ g = f := by
      intro g; rw [mem_factorsOf, mem_factorsOf, hlong, hlong]; simp; tauto
    have hff : f ∉ factorsOf short := by
      rw [mem_factorsOf]; tauto
    unfold Sp
    simp only [Finset.subset_iff, hm, hfa, hml, hfl]
    constructor
    · rintro ⟨h1, h2⟩
      by_cases hfS : f ∈ S
      · right
        refine ⟨?_, h2⟩
        rintro x (hx | rfl)
        · exact h1 hx
        · exact hfS
      · left
        refine ⟨h1, ?_⟩
        intro x hx
        rcases h2 hx with h | h
        · exact h
        · subst h; exact absurd hx hfS
    · rintro (⟨h1, h2⟩ | ⟨h1, h2⟩)
      · exact ⟨h1, fun x hx => Or.inl (h2 hx)⟩
      · exact ⟨fun x hx => h1 (Or.inl hx), h2⟩
  · ext g
    rw [mem_factorsOf, mem_factorsOf, hnew, hnew, hlong, hlong]
    simp; tauto

/-- How many pieces of a list span `S`. -/
def cnt (L : List (Subterm F)) (S : Finset F) : Nat := L.countP (fun e => decide (Sp e S))

theorem cnt_cons (e : Subterm F) (L : List (Subterm F)) (S : Finset F) :
    cnt (e :: L) S = cnt L S + if Sp e S then 1 else 0 := by
  simp [cnt, List.countP_cons]

theorem cnt_pos_of_mem {e : Subterm F} {L : List (Subterm F)} {S : Finset F}
    (h : e ∈ L) (hs : Sp e S) : 0 < cnt L S := by
  unfold cnt
  rw [List.countP_pos_iff]
  exact ⟨e, h, by simpa using hs⟩

/-- Loop invariant of the simplification. -/
structure Inv (A : Finset F) (L : List (Subterm F)) : Prop where
  good : ∀ e ∈ L, Good e
  facs : ∀ e ∈ L, factorsOf e ⊆ A
  once : ∀ S, cnt L S ≤ 1

theorem absorbInto_spec {A : Finset F} {short : Subterm F} {L : List (Subterm F)}
    (hi : Inv A (short :: L)) :
    absorbInto short L = .ok none ∨
    ∃ L', absorbInto short L = .ok (some L') ∧ Inv A L' ∧ ∀ S, cnt L' S = cnt (short :: L) S := by
  induction L with
  | nil => left; rfl
  | cons long rest ih =>
    by_cases hc : canAbsorb long short = true
    · right
      have hgl : Good long := hi.good _ (by simp)
      have hdis : ∀ S, ¬ (Sp short S ∧ Sp long S) := by
        rintro S ⟨h1, h2⟩
        have := hi.once S
        rw [cnt_cons, cnt_cons] at this
        simp [h1, h2] at this
      obtain ⟨new, hn, hgood, hspan, hfac⟩ := absorb_ok hgl hdis hc
      have hcnt : ∀ S, cnt (new :: rest) S = cnt (short :: long :: rest) S := by
        intro S
        have := hdis S
        rw [cnt_cons, cnt_cons, cnt_cons]
        by_cases h1 : Sp short S <;> by_cases h2 : Sp long S <;> simp_all
      refine ⟨new :: rest, by simp [absorbInto, hc, hn], ⟨?_, ?_, ?_⟩, hcnt⟩
      · intro e he
        rcases List.mem_cons.mp he with h | h
        · rw [h]; exact hgood
        · exact hi.good _ (by simp [h])
      · intro e he
        rcases List.mem_cons.mp he with h | h
        · rw [h, hfac]; exact hi.facs _ (by simp)
        · exact hi.facs _ (by simp [h])
      · intro S; rw [hcnt]; exact hi.once S
    · have hi' : Inv A (short :: rest) := by
        refine ⟨?_, ?_, ?_⟩
        · intro e he
          apply hi.good
          rcases List.mem_cons.mp he with h | h <;> simp [h]
        · intro e he
          apply hi.facs
          rcases List.mem_cons.mp he with h | h <;> simp [h]
        · intro S
          have := hi.once S
          rw [cnt_cons, cnt_cons] at this
          rw [cnt_cons]; omega
      rcases ih hi' with h | ⟨L', h1, h2, h3⟩
      · left; simp [absorbInto, hc, h]
      · right
        have hcnt : ∀ S, cnt (long :: L') S = cnt (short :: long :: rest) S := by
          intro S
          have := h3 S
          rw [cnt_cons] at this
          rw [cnt_cons, cnt_cons, cnt_cons]; omega
        refine ⟨long :: L', by simp [absorbInto, hc, h1], ⟨?_, ?_, ?_⟩, hcnt⟩
        · intro e he
          rcases List.mem_cons.mp he with h | h
          · rw [h]; exact hi.good _ (by simp)
          · exact h2.good _ h
        · intro e he
          rcases List.mem_cons.mp he with h | h
          · rw [h]; exact hi.facs _ (by simp)
          · exact h2.facs _ h
        · intro S; rw [hcnt]; exact hi.once S

theorem Inv.tail {A : Finset F} {e : Subterm F} {L : List (Subterm F)} (h : Inv A (e :: L)) :
    Inv A L := by
  refine ⟨fun x hx => h.good _ (by simp [hx]), fun x hx => h.facs _ (by simp [hx]), fun S => ?_⟩
  have := h.once S
  rw [cnt_cons] at this; omega

theorem simplifyOne_spec {A : Finset F} {L : List (Subterm F)} (hi : Inv A L) :
    simplifyOne L = .ok none ∨
    ∃ L', simplifyOne L = .ok (some L') ∧ Inv A L' ∧ ∀ S, cnt L' S = cnt L S := by
  induction L with
  | nil => left; rfl
  | cons short rest ih =>
    rcases absorbInto_spec hi with h | ⟨L', h1, h2, h3⟩
    · rcases ih hi.tail with h' | ⟨L', h1, h2, h3⟩
      · left; simp [simplifyOne, h, h']
      · right
        have hcnt : ∀ S, cnt (short :: L') S = cnt (short :: rest) S := by
          intro S; rw [cnt_cons, cnt_cons, h3]
        refine ⟨short :: L', by simp [simplifyOne, h, h1], ⟨?_, ?_, ?_⟩, hcnt⟩
        · intro e he
          rcases List.mem_cons.mp he with h | h
          · rw [h]; exact hi.good _ (by simp)
          · exact h2.good _ h
        · intro e he
          rcases List.mem_cons.mp he with h | h
          · rw [h]; exact hi.facs _ (by simp)
          · exact h2.facs _ h
        · intro S; rw [hcnt]; exact hi.once S
    · right
      exact ⟨L', by simp [simplifyOne, h1], h2, h3⟩

theorem simplify_spec {A : Finset F} (n : Nat) {L : List (Subterm F)} (hn : L.length ≤ n)
    (hi : Inv A L) :
    ∃ L', simplify L = .ok L' ∧ Inv A L' ∧ (∀ S, cnt L' S = cnt L S) ∧
      simplifyOne L' = .ok none := by
  induction n generalizing L with
  | zero =>
    have : L = [] := List.length_eq_zero_iff.mp (by omega)
    subst this
    refine ⟨[], ?_, hi, fun _ => rfl, rfl⟩
    rw [simplify]; simp [simplifyOne]
  | succ n ih =>
    rcases simplifyOne_spec hi with h | ⟨L', h1, h2, h3⟩
    · refine ⟨L, ?_, hi, fun _ => rfl, h⟩
      rw [simplify]
      split <;> simp_all
    · have hlen := simplifyOne_length h1
      obtain ⟨L'', h4, h5, h6, h7⟩ := ih (L := L') (by omega) h2
      refine ⟨L'', ?_, h5, fun S => by rw [h6, h3], h7⟩
      rw [simplify]
      split <;> simp_all

/-! ### The initial pieces -/

/-- The reduced piece of an effect. -/
def minusPiece (S : Finset F) : Subterm F := S.image (fun f => ⟨false, f⟩)

theorem mem_minusPiece {S : Finset F} {x : EFactor F} :
    x ∈ minusPiece S ↔ x.includesIntercept = false ∧ x.factor ∈ S := by
  unfold minusPiece
  rw [Finset.mem_image]
  constructor
  · rintro ⟨f, hf, rfl⟩; exact ⟨rfl, hf⟩
  · rintro ⟨h1, h2⟩
    refine ⟨x.factor, h2, ?_⟩
    cases x; simp_all

theorem minusPiece_injective : Function.Injective (minusPiece (F := F)) := by
  intro S T h
  ext f
  have h1 := mem_minusPiece (S := S) (x := ⟨false, f⟩)
  have h2 := mem_minusPiece (S := T) (x := ⟨false, f⟩)
  rw [h] at h1
  simp at h1 h2
  tauto

theorem mkSubterm_eq (s : List F) : mkSubterm s = minusPiece s.toFinset := by
  ext x
  rw [mem_minusPiece]
  unfold mkSubterm
  simp only [List.mem_toFinset, List.mem_map]
  constructor
  · rintro ⟨f, hf, rfl⟩; exact ⟨rfl, hf⟩
  · rintro ⟨h1, h2⟩
    refine ⟨x.factor, h2, ?_⟩
    cases x; simp_all

theorem Sp_minusPiece {S T : Finset F} : Sp (minusPiece S) T ↔ T = S := by
  have h1 : minusOf (minusPiece S) = S := by
    ext f; rw [mem_minusOf, mem_minusPiece]; simp
  have h2 : factorsOf (minusPiece S) = S := by
    ext f; rw [mem_factorsOf, mem_minusPiece, mem_minusPiece]; simp
  unfold Sp
  rw [h1, h2]
  constructor
  · rintro ⟨a, b⟩; exact Finset.Subset.antisymm b a
  · rintro rfl; simp

theorem good_minusPiece (S : Finset F) : Good (minusPiece S) := by
  intro f h
  have := mem_minusPiece.mp h.1
  simp at this

theorem cnt_minusPieces (L : List (Finset F)) (S : Finset F) :
    cnt (L.map minusPiece) S = L.count S := by
  induction L with
  | nil => rfl
  | cons T L ih =>
    rw [List.map_cons, cnt_cons, ih, List.count_cons]
    congr 1
    by_cases h : S = T
    · subst h; simp [Sp_minusPiece]
    · have h' : ¬ T = S := fun h2 => h h2.symm
      simp [Sp_minusPiece, h, h']

/-- The pieces `pick_contrasts_for_term` starts from. -/
def initPieces {H : Type u} [DecidableEq H] (hash : Subterm F → H) (cat : List F)
    (used : List H) : List (Subterm F) :=
  ((subsetsSorted cat).map mkSubterm).filter (fun s => decide (hash s ∉ used))

theorem initPieces_eq {H : Type u} [DecidableEq H] (hash : Subterm F → H) (cat : List F)
    (used : List H) :
    initPieces hash cat used =
      ((((subsetsSorted cat).map List.toFinset).filter
        (fun S => decide (hash (minusPiece S) ∉ used))).map minusPiece) := by
  unfold initPieces
  have : (subsetsSorted cat).map mkSubterm = ((subsetsSorted cat).map List.toFinset).map minusPiece := by
    rw [List.map_map]
    apply List.map_congr_left
    intro s _
    exact mkSubterm_eq s
  rw [this, List.filter_map]
  rfl

theorem cnt_initPieces {H : Type u} [DecidableEq H] (hash : Subterm F → H) (cat : List F)
    (hnd : cat.Nodup) (used : List H) (S : Finset F) :
    cnt (initPieces hash cat used) S =
      if S ⊆ cat.toFinset ∧ hash (minusPiece S) ∉ used then 1 else 0 := by
  rw [initPieces_eq, cnt_minusPieces]
  have hn : (((subsetsSorted cat).map List.toFinset).filter
        (fun S => decide (hash (minusPiece S) ∉ used))).Nodup :=
    (subsetsSorted_toFinset_nodup cat hnd).filter _
  split
  · rename_i h
    apply List.count_eq_one_of_mem hn
    rw [List.mem_filter, mem_subsetsSorted_toFinset cat S hnd]
    exact ⟨h.1, by simpa using h.2⟩
  · rename_i h
    apply List.count_eq_zero_of_not_mem
    rw [List.mem_filter, mem_subsetsSorted_toFinset cat S hnd]
    simpa using h

theorem inv_initPieces {H : Type u} [DecidableEq H] (hash : Subterm F → H) (cat : List F)
    (hnd : cat.Nodup) (used : List H) : Inv cat.toFinset (initPieces hash cat used) := by
  refine ⟨?_, ?_, ?_⟩
  · intro e he
    rw [initPieces_eq, List.mem_map] at he
    obtain ⟨S, _, rfl⟩ := he
    exact good_minusPiece S
  · intro e he
    rw [initPieces_eq, List.mem_map] at he
    obtain ⟨S, hS, rfl⟩ := he
    rw [List.mem_filter, mem_subsetsSorted_toFinset cat S hnd] at hS
    intro f hf
    rw [mem_factorsOf, mem_minusPiece, mem_minusPiece] at hf
    simp at hf
    exact hS.1 hf
  · intro S
    rw [cnt_initPieces hash cat hnd used]
    split <;> omega

theorem mem_map_hash_initPieces {H : Type u} [DecidableEq H] (hash : Subterm F → H) (cat : List F)
    (hnd : cat.Nodup) (used : List H) (x : H) :
    x ∈ (initPieces hash cat used).map hash ↔
      ∃ S, S ⊆ cat.toFinset ∧ hash (minusPiece S) ∉ used ∧ hash (minusPiece S) = x := by
  rw [initPieces_eq, List.map_map, List.mem_map]
  simp only [List.mem_filter, mem_subsetsSorted_toFinset cat _ hnd, decide_eq_true_eq,
    Function.comp]
  constructor
  · rintro ⟨S, ⟨h1, h2⟩, h3⟩; exact ⟨S, h1, h2, h3⟩
  · rintro ⟨S, h1, h2, h3⟩; exact ⟨S, ⟨h1, h2⟩, h3⟩

/-- Full characterisation of one call, for an arbitrary hash. -/
theorem pickContrasts_spec {H : Type u} [DecidableEq H] (hash : Subterm F → H)
    (isNum : F → Bool) (term : List F) (hnd : term.Nodup) (used : List H) :
    ∃ cs used', pickContrasts hash isNum term used = .ok (cs, used') ∧
      (∀ c ∈ cs, Good c) ∧
      (∀ c ∈ cs, ∀ x ∈ c, x.factor ∈ term ∧ isNum x.factor = false) ∧
      (∀ S, cnt cs S = if (∀ f ∈ S, f ∈ term ∧ isNum f = false) ∧ hash (minusPiece S) ∉ used
        then 1 else 0) ∧
      (∀ x, x ∈ used' ↔ x ∈ used ∨
        ∃ S : Finset F, (∀ f ∈ S, f ∈ term ∧ isNum f = false) ∧ hash (minusPiece S) = x) := by
  let cat := term.filter (fun f => !isNum f)
  have hcat : cat.Nodup := hnd.filter _
  have hmem : ∀ f, f ∈ cat ↔ f ∈ term ∧ isNum f = false := by
    intro f
    simp [cat, List.mem_filter]
  have hsub : ∀ S : Finset F, S ⊆ cat.toFinset ↔ ∀ f ∈ S, f ∈ term ∧ isNum f = false := by
    intro S
    constructor
    · intro h f hf
      exact (hmem f).mp (by simpa using h hf)
    · intro h f hf
      simpa using (hmem f).mpr (h f hf)
  have hinv := inv_initPieces hash cat hcat used
  obtain ⟨L, hL1, hL2, hL3, _⟩ := simplify_spec _ (Nat.le_refl _) hinv
  refine ⟨L, used ++ (initPieces hash cat used).map hash, ?_, hL2.good, ?_, ?_, ?_⟩
  · unfold pickContrasts
    have : ((subsetsSorted (term.filter (fun f => !isNum f))).map mkSubterm).filter
        (fun s => decide (hash s ∉ used)) = initPieces hash cat used := rfl
    simp only [this, hL1]
  · intro c hc x hx
    have h1 := hL2.facs c hc
    have h2 : x.factor ∈ factorsOf c := by
      unfold factorsOf
      rw [Finset.mem_image]; exact ⟨x, hx, rfl⟩
    exact (hmem _).mp (by simpa using h1 h2)
  · intro S
    rw [hL3, cnt_initPieces hash cat hcat used]
    simp only [hsub]
  · intro x
    rw [List.mem_append, mem_map_hash_initPieces hash cat hcat]
    simp only [hsub]
    constructor
    · rintro (h | ⟨S, h1, h2, h3⟩)
      · exact Or.inl h
      · exact Or.inr ⟨S, h1, h3⟩
    · rintro (h | ⟨S, h1, h3⟩)
      · exact Or.inl h
      · by_cases hu : hash (minusPiece S) ∈ used
        · left; rw [← h3]; exact hu
        · exact Or.inr ⟨S, h1, hu, h3⟩

end Patsy.Redundancy
