import Verif.Lemmas.Redundancy

/-! Vocabulary of the statements C01/C02/C04 and the induction over the terms. -/

namespace Patsy.Props

open Patsy.Redundancy Patsy.Spec

universe u
variable {F : Type u} [DecidableEq F]

/-- The categorical part of a term. -/
def catPart (isNum : F → Bool) (t : List F) : List F := t.filter (fun f => !isNum f)

open Classical in
/-- Number of codings in a list that span a given effect. -/
noncomputable def spanCount (cs : List (Subterm F)) (S : Finset F) : Nat :=
  cs.countP (fun c => decide (Spans (codingLookup c) S))

/-- The hash function tells apart all the pieces that can occur for these terms. -/
def Separates {H : Type u} (hash : Subterm F → H) (isNum : F → Bool) (terms : List (List F)) : Prop :=
  ∀ S T : Finset F, (∃ t ∈ terms, Contains (catPart isNum t) S) →
    (∃ t ∈ terms, Contains (catPart isNum t) T) →
    hash (S.image (fun f => ⟨false, f⟩)) = hash (T.image (fun f => ⟨false, f⟩)) → S = T

theorem spanCount_eq_cnt {cs : List (Subterm F)} (h : ∀ c ∈ cs, Good c) (S : Finset F) :
    spanCount cs S = cnt cs S := by
  unfold spanCount cnt
  apply List.countP_congr
  intro c hc
  simp [spans_iff_Sp (h c hc)]

omit [DecidableEq F] in
theorem contains_catPart {isNum : F → Bool} {t : List F} {S : Finset F} :
    Contains (catPart isNum t) S ↔ ∀ f ∈ S, f ∈ t ∧ isNum f = false := by
  simp [Contains, catPart, List.mem_filter]

open Classical in
theorem codeTerms_aux {H : Type u} [DecidableEq H] (hash : Subterm F → H) (isNum : F → Bool)
    (terms done : List (List F)) (used : List H)
    (hnd : ∀ t ∈ terms, t.Nodup) (hsep : Separates hash isNum (done ++ terms))
    (hused : ∀ x, x ∈ used ↔ ∃ S : Finset F, (∃ t ∈ done, Contains (catPart isNum t) S) ∧
      hash (minusPiece S) = x) :
    ∃ cs, codeTerms hash isNum terms used = .ok cs ∧ cs.length = terms.length ∧
      (∀ (i : Nat) (c : List (Subterm F)) (t : List F), cs[i]? = some c → terms[i]? = some t →
        (∀ x ∈ c, Good x) ∧ (∀ x ∈ c, ∀ e ∈ x, e.factor ∈ catPart isNum t) ∧
        (∀ S, cnt c S = if Contains (catPart isNum t) S ∧
          ¬ ∃ t' ∈ done ++ terms.take i, Contains (catPart isNum t') S then 1 else 0)) := by
  induction terms generalizing done used with
  | nil => exact ⟨[], rfl, rfl, by simp⟩
  | cons t ts ih =>
    obtain ⟨c, used', h1, h2, h3, h4, h5⟩ :=
      pickContrasts_spec hash isNum t (hnd t (by simp)) used
    have hused' : ∀ x, x ∈ used' ↔ ∃ S : Finset F,
        (∃ t' ∈ done ++ [t], Contains (catPart isNum t') S) ∧ hash (minusPiece S) = x := by
      intro x
      rw [h5, hused]
      constructor
      · rintro (⟨S, ⟨t', ht', hc⟩, hx⟩ | ⟨S, hS, hx⟩)
        · exact ⟨S, ⟨t', by simp [ht'], hc⟩, hx⟩
        · exact ⟨S, ⟨t, by simp, contains_catPart.mpr hS⟩, hx⟩
      · rintro ⟨S, ⟨t', ht', hc⟩, hx⟩
        rw [List.mem_append] at ht'
        rcases ht' with ht' | ht'
        · exact Or.inl ⟨S, ⟨t', ht', hc⟩, hx⟩
        · simp only [List.mem_singleton] at ht'
          subst ht'
          exact Or.inr ⟨S, contains_catPart.mp hc, hx⟩
    obtain ⟨cs, hcs, hlen, hrest⟩ := ih (done ++ [t]) used' (fun t' h => hnd t' (by simp [h]))
      (by simpa using hsep) hused'
    refine ⟨c :: cs, by simp [codeTerms, h1, hcs], by simp [hlen], ?_⟩
    intro i c' t' hc' ht'
    cases i with
    | zero =>
      simp only [List.getElem?_cons_zero, Option.some.injEq] at hc' ht'
      subst hc'; subst ht'
      refine ⟨h2, ?_, ?_⟩
      · intro x hx e he
        simpa [catPart, List.mem_filter] using h3 x hx e he
      · intro S
        rw [h4]
        simp only [contains_catPart, List.take_zero, List.append_nil]
        by_cases hS : ∀ f ∈ S, f ∈ t ∧ isNum f = false
        · have : hash (minusPiece S) ∉ used ↔
              ¬ ∃ t' ∈ done, ∀ f ∈ S, f ∈ t' ∧ isNum f = false := by
            rw [hused]
            apply not_congr
            constructor
            · rintro ⟨T, ⟨t', ht', hc⟩, hx⟩
              have : T = S := by
                apply hsep T S ⟨t', by simp [ht'], hc⟩ ⟨t, by simp, contains_catPart.mpr hS⟩ hx
              subst this
              exact ⟨t', ht', contains_catPart.mp hc⟩
            · rintro ⟨t', ht', hc⟩
              exact ⟨S, ⟨t', ht', contains_catPart.mpr hc⟩, rfl⟩
          simp only [this]
        · simp [hS]
    | succ i =>
      simp only [List.getElem?_cons_succ] at hc' ht'
      obtain ⟨g1, g2, g3⟩ := hrest i c' t' hc' ht'
      refine ⟨g1, g2, ?_⟩
      intro S
      rw [g3]
      simp

end Patsy.Props
