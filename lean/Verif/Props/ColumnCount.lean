import Verif.Spec.ColumnCount
import Verif.Lemmas.RankDesign
import Verif.Lemmas.BuildTop
import Mathlib.Algebra.BigOperators.Ring.Finset

/-!
# C50: the number of columns of a model
-/

set_option linter.unusedSectionVars false

namespace Patsy.Props

open Patsy.Build Patsy.Spec Patsy.Desc Patsy.Redundancy Patsy.Rank Finset

variable {F D K : Type} [DecidableEq F]

theorem mem_effects {nums : List (F × Nat)} {ts : List (Term F)} {e : Finset F × Finset F} :
    e ∈ effects nums ts ↔ ∃ t ∈ ts, numericalOf nums t = e.1 ∧ e.2 ⊆ categoricalOf nums t := by
  simp only [effects, mem_biUnion, List.mem_toFinset, List.mem_map, id]
  constructor
  · rintro ⟨_, ⟨t, ht, rfl⟩, he⟩
    obtain ⟨S, hS, rfl⟩ := mem_image.mp he
    exact ⟨t, ht, rfl, mem_powerset.mp hS⟩
  · rintro ⟨t, ht, h1, h2⟩
    exact ⟨_, ⟨t, ht, rfl⟩, mem_image.mpr ⟨e.2, mem_powerset.mpr h2, by rw [h1]⟩⟩

/-- The contrast matrices have one column less than there are levels if reduced, as many as there are levels if full. -/
def UsualWidths (nums : List (F × Nat)) (coder : F → Bool → Except Err (ContrastMatrix K)) (ts : List (Term F))
    (n : F → Nat) : Prop :=
  ∀ t ∈ ts, ∀ f ∈ t.factors, dictGet nums f = none → 0 < n f ∧
    ∀ full cm, coder f full = .ok cm → cm.ncols = if full then n f else n f - 1

theorem filterMap_prod (g : F → Option Nat) (l : List F) :
    (l.filterMap g).prod = ((l.filter fun f => (g f).isSome).map fun f => (g f).getD 0).prod := by
  induction l with
  | nil => rfl
  | cons f l ih =>
    cases h : g f with
    | none => simp [h, ih]
    | some m => simp [h, ih]

/-- The number of columns of a piece is the sum of the degrees of freedom of the effects that it spans. -/
theorem piece_columns {nums : List (F × Nat)} {coder : F → Bool → Except Err (ContrastMatrix K)} {ts : List (Term F)}
    {n : F → Nat} (hw : UsualWidths nums coder ts n) {t : Term F} (ht : t ∈ ts) (hnd : t.factors.Nodup)
    {coding : F → Option Bool} {st : SubtermInfo F K} (hr : Realizes nums coder t coding st)
    (hm : Mentions nums t coding) [DecidablePred fun S => Spans coding S] :
    st.numColumns = ∑ S ∈ (categoricalOf nums t).powerset.filter (fun S => Spans coding S),
      degrees nums n (numericalOf nums t, S) := by
  classical
  let P : Finset F := (t.factors.filter fun f => (dictGet nums f).isNone && (coding f).isSome).toFinset
  have hP : ∀ f, f ∈ P ↔ coding f ≠ none := by
    intro f
    simp only [P, List.mem_toFinset, List.mem_filter, Bool.and_eq_true, Option.isNone_iff_eq_none]
    constructor
    · rintro ⟨_, _, h⟩; exact Option.isSome_iff_ne_none.mp h
    · intro h
      exact ⟨(hm f h).1, (hm f h).2, Option.isSome_iff_ne_none.mpr h⟩
  have hpos : ∀ f ∈ P, 0 < n f := fun f hf =>
    (hw t ht f (hm f ((hP f).mp hf)).1 (hm f ((hP f).mp hf)).2).1
  have hc : (st.contrasts.map fun p => p.2.ncols).prod =
      ∏ f ∈ P, ((n f - 1) + if coding f = some true then 1 else 0) := by
    have hlist : st.contrasts.map (fun p => p.2.ncols) =
        (t.factors.filter fun f => (dictGet nums f).isNone && (coding f).isSome).map
          fun f => (n f - 1) + if coding f = some true then 1 else 0 := by
      have hmem : ∀ f ∈ (t.factors.filter fun f => (dictGet nums f).isNone && (coding f).isSome), f ∈ P :=
        fun f hf => List.mem_toFinset.mpr hf
      have := hr.contrasts
      generalize (t.factors.filter fun f => (dictGet nums f).isNone && (coding f).isSome) = l at this hmem
      generalize st.contrasts = m at this
      induction this with
      | nil => rfl
      | @cons f p l m h1 _ ih =>
        rw [List.map_cons, List.map_cons, ih fun g hg => hmem g (List.mem_cons_of_mem _ hg)]
        congr 1
        obtain ⟨_, full, h2, h3⟩ := h1
        have hf := hmem f (List.mem_cons_self ..)
        have h4 := hm f ((hP f).mp hf)
        rw [(hw t ht f h4.1 h4.2).2 full p.2 h3, h2]
        have := hpos f hf
        cases full
        · simp
        · simp; omega
    rw [hlist, List.prod_toFinset _ (hnd.filter _)]
  rw [hr.columns, filterMap_prod, hc, prod_add, ← List.prod_toFinset _ (hnd.filter _), mul_sum]
  simp only [degrees, numericalOf]
  have hsets : (categoricalOf nums t).powerset.filter (fun S => Spans coding S) =
      P.powerset.filter fun S => Spans coding S := by
    ext S
    simp only [mem_filter, mem_powerset]
    constructor
    · rintro ⟨_, h2⟩
      exact ⟨fun f hf => (hP f).mpr (h2.2 f hf), h2⟩
    · rintro ⟨_, h2⟩
      refine ⟨fun f hf => ?_, h2⟩
      have := hm f (h2.2 f hf)
      simp [categoricalOf, this.1, this.2]
  rw [hsets, sum_filter]
  refine sum_congr rfl fun S hS => ?_
  by_cases hsp : Spans coding S
  · rw [if_pos hsp]
    congr 1
    rw [prod_eq_one (s := P \ S), mul_one]
    intro f hf
    obtain ⟨h1, h2⟩ := mem_sdiff.mp hf
    cases hcf : coding f with
    | none => exact absurd hcf ((hP f).mp h1)
    | some b =>
      cases b with
      | false => exact absurd (hsp.1 f hcf) h2
      | true => simp
  · rw [if_neg hsp]
    have : ∃ f ∈ P \ S, coding f = some false := by
      by_contra hno
      push_neg at hno
      refine hsp ⟨fun f hf => ?_, fun f hf => (hP f).mp (mem_powerset.mp hS hf)⟩
      by_contra hfS
      exact hno f (mem_sdiff.mpr ⟨(hP f).mpr (by simp [hf]), hfS⟩) hf
    obtain ⟨f, hf, hcf⟩ := this
    rw [prod_eq_zero (s := P \ S) hf (by simp [hcf]), mul_zero, mul_zero]

/-- **C50**.  The number of columns of a design is the sum of the degrees of freedom of its effects.  So it depends only on
the terms, the numbers of levels and the numbers of columns of the numerical factors: not on the order of the terms or of
the factors in them, nor on the contrasts, nor on the data. -/
theorem column_count [Field K] {H : Type} [DecidableEq H] {name : F → String} {hash : Subterm F → H}
    {nums : List (F × Nat)} {coder : F → Bool → Except Err (ContrastMatrix K)}
    {fis : List (F × FactorInfo F D K)} {ts : List (Term F)} (hnd : ∀ t ∈ ts, t.factors.Nodup)
    (hsep : Separates hash (fun f => (dictGet nums f).isSome) (ts.map (·.factors))) {n : F → Nat}
    (hw : UsualWidths nums coder ts n) {d : DesignInfo F D K} (h : makeDesign name hash nums coder fis ts = .ok d) :
    d.columnNames.length = ∑ e ∈ effects nums ts, degrees nums n e := by
  classical
  simp only [makeDesign, bind_ok] at h
  obtain ⟨infos, hi, h⟩ := h
  split at h
  swap
  · simp at h
  simp only [bind_ok] at h
  obtain ⟨own, ho, names, _, h⟩ := h
  have hgood := make_good.mp h
  obtain ⟨L, hL1, hL2, hL3, hL4⟩ := exists_pieces hnd hsep hi
  have hlen : d.columnNames.length = (L.map fun x => x.st.numColumns).sum := by
    have h1 := hgood.total
    have h2 : d.columnNames.length = names.flatten.length := by
      simp [DesignInfo.columnNames, hgood.indexes]
    rw [h2, ← h1]
    have h3 : (L.map fun x => x.st.numColumns) = (infos.flatMap (·.2)).map (·.numColumns) := by
      rw [← hL1, List.map_map]; rfl
    rw [h3]
    clear * -
    induction infos with
    | nil => rfl
    | cons p infos ih =>
      simp only [List.map_cons, List.sum_cons, List.flatMap_cons, List.map_append, List.sum_append]
      rw [← ih]
      rfl
  have hspan : ∀ x ∈ L, x.st.numColumns = ∑ e ∈ effects nums ts,
      if numericalOf nums x.term = e.1 ∧ Spans x.coding e.2 then degrees nums n e else 0 := by
    intro x hx
    obtain ⟨h1, h2, h3⟩ := hL2 x hx
    rw [piece_columns hw h1 (hnd _ h1) h2 h3, ← sum_filter]
    refine sum_bij' (fun S _ => (numericalOf nums x.term, S)) (fun e _ => e.2) ?_ ?_ ?_ ?_ ?_
    · intro S hS
      simp only [mem_filter, mem_powerset, mem_effects] at hS ⊢
      exact ⟨⟨_, h1, rfl, hS.1⟩, trivial, hS.2⟩
    · intro e he
      simp only [mem_filter, mem_powerset, mem_effects] at he ⊢
      refine ⟨fun f hf => ?_, he.2.2⟩
      have := h3 f (he.2.2.2 f hf)
      simp [categoricalOf, this.1, this.2]
    · intro S _; rfl
    · intro e he
      simp only [mem_filter] at he
      exact Prod.ext he.2.1 rfl
    · intro S _; rfl
  rw [hlen, ← Fin.sum_univ_fun_getElem]
  refine (sum_congr rfl fun (i : Fin L.length) _ => hspan (L[i.1]) (List.getElem_mem _)).trans ?_
  rw [sum_comm]
  refine sum_congr rfl fun e he => ?_
  obtain ⟨t, ht, h1, h2⟩ := mem_effects.mp he
  obtain ⟨x, hx, hg, hsp⟩ := hL4 t ht e.2 fun f hf => List.mem_toFinset.mp (h2 hf)
  obtain ⟨i, hil, rfl⟩ := List.getElem_of_mem hx
  rw [sum_eq_single (⟨i, hil⟩ : Fin L.length), if_pos ⟨hg.trans h1, hsp⟩]
  · intro j _ hji
    refine if_neg ?_
    rintro ⟨h3, h4⟩
    have hne : j.1 ≠ i := fun h => hji (Fin.ext h)
    rcases Nat.lt_or_gt_of_ne hne with hlt | hlt
    · exact List.pairwise_iff_getElem.mp hL3 j.1 i j.2 hil hlt (h3.trans (hg.trans h1).symm) e.2 ⟨h4, hsp⟩
    · exact List.pairwise_iff_getElem.mp hL3 i j.1 hil j.2 hlt ((hg.trans h1).trans h3.symm) e.2 ⟨hsp, h4⟩
  · intro h
    exact absurd (mem_univ _) h

/-- **C50**, for two models: if they have the same effects, they have the same number of columns. -/
theorem column_count_eq [Field K] {H H' : Type} [DecidableEq H] [DecidableEq H'] {name name' : F → String}
    {hash : Subterm F → H} {hash' : Subterm F → H'} {nums : List (F × Nat)}
    {coder coder' : F → Bool → Except Err (ContrastMatrix K)} {fis fis' : List (F × FactorInfo F D K)}
    {ts ts' : List (Term F)} (hnd : ∀ t ∈ ts, t.factors.Nodup) (hnd' : ∀ t ∈ ts', t.factors.Nodup)
    (hsep : Separates hash (fun f => (dictGet nums f).isSome) (ts.map (·.factors)))
    (hsep' : Separates hash' (fun f => (dictGet nums f).isSome) (ts'.map (·.factors))) {n : F → Nat}
    (hw : UsualWidths nums coder ts n) (hw' : UsualWidths nums coder' ts' n) {d d' : DesignInfo F D K}
    (h : makeDesign name hash nums coder fis ts = .ok d) (h' : makeDesign name' hash' nums coder' fis' ts' = .ok d')
    (hsame : ∀ N S, (∃ t ∈ ts, numericalOf nums t = N ∧ S ⊆ categoricalOf nums t) ↔
      ∃ t ∈ ts', numericalOf nums t = N ∧ S ⊆ categoricalOf nums t) :
    d.columnNames.length = d'.columnNames.length := by
  rw [column_count hnd hsep hw h, column_count hnd' hsep' hw' h']
  congr 1
  ext e
  rw [mem_effects, mem_effects]
  exact hsame e.1 e.2

end Patsy.Props
