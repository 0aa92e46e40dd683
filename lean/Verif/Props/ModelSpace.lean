import Verif.Props.RankBuiltin
import Verif.Props.ColumnCount

/-!
# C49: the space of a model depends only on its terms; examples for C50
-/

set_option linter.unusedSectionVars false

namespace Patsy.Props

open Patsy.Build Patsy.Cat Patsy.Contrast Patsy.Spec Patsy.Desc Patsy.Redundancy Patsy.Rank

variable {F D K : Type} [DecidableEq F] [Field K]

/-- The term `t` is marginal to `u`: same numerical factors, and every factor of `t` is one of `u`. -/
def Marginal (nums : List (F × Nat)) (t u : Term F) : Prop :=
  (∀ f ∈ t.factors, f ∈ u.factors) ∧ ∀ f ∈ u.factors, dictGet nums f ≠ none → f ∈ t.factors

/-- The functions that a term describes are described by every term to which it is marginal. -/
theorem termFunctions_marginal {nums : List (F × Nat)} {t u : Term F} (h : Marginal nums t u)
    (rows : List (F → Option (Cell K))) : termFunctions nums rows t ⊆ termFunctions nums rows u := by
  rintro v ⟨k, φ, ⟨j, hj, rfl⟩, hφ, hv⟩
  refine ⟨_, φ, ⟨j, ?_, rfl⟩, ?_, ?_⟩
  · intro f hf m hm
    exact hj f (h.2 f hf (by simp [hm])) m hm
  · intro i i' hi
    refine hφ i i' fun f hf => hi f ?_
    rw [List.mem_filter] at hf ⊢
    exact ⟨h.1 f hf.1, hf.2⟩
  · intro i
    rw [hv i]
    congr 2
    congr 1
    ext f
    simp only [List.mem_toFinset, List.mem_filter]
    constructor
    · rintro ⟨h1, h2⟩; exact ⟨h.1 f h1, h2⟩
    · rintro ⟨h1, h2⟩; exact ⟨h.2 f h1 (Option.isSome_iff_ne_none.mp h2), h2⟩

/-- A model made from the terms `ts` and its matrix on the given rows: all that the theorems of this file need to know. -/
structure MadeMatrix {H : Type} [DecidableEq H] (hash : Subterm F → H) (nums : List (F × Nat)) (n : F → Nat)
    (coder : F → Bool → Except Err (ContrastMatrix K)) (fis : List (F × FactorInfo F D K)) (ts : List (Term F))
    (d : DesignInfo F D K) (rows : List (F → Option (Cell K))) (cols : List (List K)) : Prop where
  made : ∃ name, makeDesign name hash nums coder fis ts = .ok d
  nodup : ∀ t ∈ ts, t.factors.Nodup
  separates : Separates hash (fun f => (dictGet nums f).isSome) (ts.map (·.factors))
  fit : NumsFit nums fis ts
  coded : CodedByBases nums coder ts n
  matrix : ∃ c, d.coding = some c ∧ IsMatrix c rows cols
  levels : ∀ cells ∈ rows, Combination nums ts n (levelAt cells)

section

variable {H H' : Type} [DecidableEq H] [DecidableEq H'] {hash : Subterm F → H} {hash' : Subterm F → H'}
  {nums : List (F × Nat)} {n : F → Nat} {coder coder' : F → Bool → Except Err (ContrastMatrix K)}
  {fis fis' : List (F × FactorInfo F D K)} {ts ts' : List (Term F)} {d d' : DesignInfo F D K}
  {rows : List (F → Option (Cell K))} {cols cols' : List (List K)}

theorem MadeMatrix.span (h : MadeMatrix hash nums n coder fis ts d rows cols) :
    Submodule.span K (Set.range (columnVectors rows.length cols)) =
      Submodule.span K (⋃ t ∈ ts, termFunctions nums rows t) := by
  obtain ⟨name, h1⟩ := h.made
  obtain ⟨c, h2, h3⟩ := h.matrix
  exact columns_span h.nodup h.separates h.fit h.coded h1 h2 h3 h.levels

/-- **C49**, nested models.  If every term of a model is marginal to a term of another model (for instance because it
belongs to it), then every column of the first is a linear combination of the columns of the second, on the same data,
whatever the contrasts of the two models are. -/
theorem nested_models (h : MadeMatrix hash nums n coder fis ts d rows cols) (h' : MadeMatrix hash' nums n coder' fis' ts' d' rows cols')
    (hsub : ∀ t ∈ ts, ∃ u ∈ ts', Marginal nums t u) :
    Submodule.span K (Set.range (columnVectors rows.length cols)) ≤
      Submodule.span K (Set.range (columnVectors rows.length cols')) := by
  rw [h.span, h'.span]
  refine Submodule.span_mono ?_
  intro v hv
  simp only [Set.mem_iUnion] at hv ⊢
  obtain ⟨t, ht, hv⟩ := hv
  obtain ⟨u, hu, hm⟩ := hsub t ht
  exact ⟨u, hu, termFunctions_marginal hm rows hv⟩

/-- **C49**.  Two models whose terms are marginal to each other span the same space on the same data: the order of the
terms, the order of the factors in a term, the hash function, the contrasts, and terms that are marginal to others do not
matter. -/
theorem same_space (h : MadeMatrix hash nums n coder fis ts d rows cols) (h' : MadeMatrix hash' nums n coder' fis' ts' d' rows cols')
    (hsub : ∀ t ∈ ts, ∃ u ∈ ts', Marginal nums t u) (hsub' : ∀ t ∈ ts', ∃ u ∈ ts, Marginal nums t u) :
    Submodule.span K (Set.range (columnVectors rows.length cols)) =
      Submodule.span K (Set.range (columnVectors rows.length cols')) :=
  le_antisymm (nested_models h h' hsub) (nested_models h' h hsub')

/-- **C49**.  If moreover the data are rich enough, the two matrices have the same number of columns. -/
theorem same_width (h : MadeMatrix hash nums n coder fis ts d rows cols) (h' : MadeMatrix hash' nums n coder' fis' ts' d' rows cols')
    (hsub : ∀ t ∈ ts, ∃ u ∈ ts', Marginal nums t u) (hsub' : ∀ t ∈ ts', ∃ u ∈ ts, Marginal nums t u)
    (hr : Rich nums ts n rows) (hr' : Rich nums ts' n rows) : cols.length = cols'.length := by
  obtain ⟨name, h1⟩ := h.made
  obtain ⟨c, h2, h3⟩ := h.matrix
  obtain ⟨name', h1'⟩ := h'.made
  obtain ⟨c', h2', h3'⟩ := h'.matrix
  have i1 := columns_independent h.nodup h.separates h.fit h.coded h1 h2 h3 hr
  have i2 := columns_independent h'.nodup h'.separates h'.fit h'.coded h1' h2' h3' hr'
  have e1 := finrank_span_eq_card i1
  have e2 := finrank_span_eq_card i2
  rw [same_space h h' hsub hsub', e2] at e1
  simpa using e1.symm

end

namespace RankSample

/-- `0 + b:a + a + 1`, with Treatment coding of both factors. -/
def otherTerms : List (Term String) := [⟨["b", "a"]⟩, ⟨["a"]⟩, ⟨[]⟩]

def otherCoder : String → Bool → Except Err (ContrastMatrix ℚ) :=
  coderOf (.callable (.coding (dummyCode readable) (treatment readable none)))
    [("a", [.str "a1", .str "a2"], none), ("b", [.str "b1", .str "b2", .str "b3"], none)]

def otherDesign : Except Err (DesignInfo String Unit ℚ) := makeDesign id (fun s => s) [] otherCoder infos otherTerms

theorem otherDesign_ok : isOk otherDesign = true := by decide +kernel

theorem otherCoded : CodedByBases [] otherCoder otherTerms count := by
  intro t ht f hf _
  have : f = "a" ∨ f = "b" := by
    have : ∀ t ∈ otherTerms, ∀ f ∈ t.factors, f = "a" ∨ f = "b" := by decide
    exact this t ht f hf
  rcases this with rfl | rfl
  · exact (builtin_good (default := .none) (levels := [.str "a1", .str "a2"]) (by simp)
      (.treatment (readable := readable) (reference := none) (r := 0) rfl (by decide))).2.2.2
  · exact (builtin_good (default := .none) (levels := [.str "b1", .str "b2", .str "b3"]) (by simp)
      (.treatment (readable := readable) (reference := none) (r := 0) rfl (by decide))).2.2.2

def otherColumns : List (List ℚ) :=
  [[1, 1, 1, 1, 1, 1], [0, 0, 0, 1, 1, 1], [0, 1, 0, 0, 0, 0], [0, 0, 1, 0, 0, 0], [0, 0, 0, 0, 1, 0], [0, 0, 0, 0, 0, 1]]

end RankSample

open RankSample in
/-- Example: `1 + a:b` with Sum coding of `b` and `b:a + a + 1` with Treatment coding.  All hypotheses are met, on the data
with every combination of levels, although the matrices are different. -/
example : ∃ d d', MadeMatrix (fun s => s) [] count RankSample.coder infos crossed d RankSample.rows crossedColumns ∧
    MadeMatrix (fun s => s) [] count otherCoder infos otherTerms d' RankSample.rows otherColumns ∧
    (∀ t ∈ crossed, ∃ u ∈ otherTerms, Marginal [] t u) ∧ (∀ t ∈ otherTerms, ∃ u ∈ crossed, Marginal [] t u) ∧
    crossedColumns ≠ otherColumns := by
  obtain ⟨c, hc, _⟩ := makeDesign_isDesign (getOk_eq design_ok)
  obtain ⟨c', hc', _⟩ := makeDesign_isDesign (getOk_eq otherDesign_ok)
  refine ⟨_, _, ⟨⟨_, getOk_eq design_ok⟩, by decide, fun _ _ _ _ h => minusPiece_injective h, ?_,
      coded [] crossed (by decide), ⟨c, hc, columns_isMatrix hc (by decide +kernel)⟩, by unfold Combination; decide⟩,
    ⟨⟨_, getOk_eq otherDesign_ok⟩, by decide, fun _ _ _ _ h => minusPiece_injective h, ?_,
      otherCoded, ⟨c', hc', columns_isMatrix hc' (by decide +kernel)⟩, by unfold Combination; decide⟩,
    by unfold Marginal; decide, by unfold Marginal; decide, by decide⟩
  · intro _ _ _ _ _ h; cases h
  · intro _ _ _ _ _ h; cases h

open RankSample in
/-- Example for C50: `1 + a:b` has the effects 1, a, b and a:b with 1, 1, 2 and 2 degrees of freedom. -/
example : UsualWidths [] RankSample.coder crossed count ∧ effects [] crossed = {(∅, ∅), (∅, {"a"}), (∅, {"b"}), (∅, {"a", "b"})} ∧
    ∑ e ∈ effects [] crossed, degrees [] count e = 6 ∧ crossedColumns.length = 6 := by
  refine ⟨?_, by decide +kernel, by decide +kernel, by decide⟩
  intro t ht f hf hn
  have hpos : 0 < count f := by
    have : ∀ t ∈ crossed, ∀ f ∈ t.factors, 0 < count f := by decide
    exact this t ht f hf
  obtain ⟨⟨cm, _, _, h1, h2⟩, cm', _, h3, h4⟩ := coded [] crossed (by decide) t ht f hf hn
  refine ⟨hpos, fun full cm hcm => ?_⟩
  cases full
  · rw [h1] at hcm; cases hcm; exact h2.ncols
  · rw [h3] at hcm; cases hcm; exact h4.ncols

open RankSample in
/-- Example for C50: `1 + a + a:x` with two columns of `x`: two columns for `1 + a` and two times two for `a:x`. -/
example : ∑ e ∈ effects [("x", 2)] [⟨[]⟩, ⟨["a"]⟩, ⟨["a", "x"]⟩], degrees [("x", 2)] count e = 6 := by
  decide +kernel

end Patsy.Props
