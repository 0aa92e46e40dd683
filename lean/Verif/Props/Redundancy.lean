import Mathlib.Data.Finset.Powerset
import Verif.Lemmas.RedundancyTerms

/-!
# Properties C01, C02, C04: choice of categorical codings

`Redundancy.codeTerms hash isNum terms []` is what `patsy` does with the terms of
one group (same numerical factors) of a design.
-/

namespace Patsy.Props

open Patsy.Redundancy Patsy.Spec

universe u
variable {F : Type u} [DecidableEq F]

/-- **C01** (per term).  For every list of terms with pairwise distinct factors, coding
succeeds, and the codings of the `i`-th term together span every effect that the
`i`-th term contains and no earlier term contains, exactly once, and no other
effect at all. -/
theorem coding_adds_exactly_new_effects {H : Type u} [DecidableEq H] (hash : Subterm F → H)
    (isNum : F → Bool) (terms : List (List F)) (hnd : ∀ t ∈ terms, t.Nodup)
    (hsep : Separates hash isNum terms) :
    ∃ cs, codeTerms hash isNum terms [] = .ok cs ∧ cs.length = terms.length ∧
      ∀ (i : Nat) (c : List (Subterm F)) (t : List F), cs[i]? = some c → terms[i]? = some t →
        ∀ S : Finset F,
          ((Contains (catPart isNum t) S ∧ ¬ ∃ t' ∈ terms.take i, Contains (catPart isNum t') S) →
            spanCount c S = 1) ∧
          (¬ (Contains (catPart isNum t) S ∧ ¬ ∃ t' ∈ terms.take i, Contains (catPart isNum t') S) →
            spanCount c S = 0) := by
  obtain ⟨cs, h1, h2, h3⟩ := codeTerms_aux hash isNum terms [] [] hnd (by simpa using hsep) (by simp)
  refine ⟨cs, h1, h2, ?_⟩
  intro i c t hc ht S
  obtain ⟨g1, _, g3⟩ := h3 i c t hc ht
  rw [spanCount_eq_cnt g1, g3]
  simp only [List.nil_append]
  constructor
  · intro h; rw [if_pos h]
  · intro h; rw [if_neg h]

/-- **C01** (whole model).  All codings of all terms together span every effect
contained in some term exactly once, and no other effect. -/
theorem coding_exact_cover {H : Type u} [DecidableEq H] (hash : Subterm F → H)
    (isNum : F → Bool) (terms : List (List F)) (hnd : ∀ t ∈ terms, t.Nodup)
    (hsep : Separates hash isNum terms) :
    ∃ cs, codeTerms hash isNum terms [] = .ok cs ∧ cs.length = terms.length ∧
      ∀ S : Finset F,
        ((∃ t ∈ terms, Contains (catPart isNum t) S) → spanCount cs.flatten S = 1) ∧
        ((¬ ∃ t ∈ terms, Contains (catPart isNum t) S) → spanCount cs.flatten S = 0) := by
  obtain ⟨cs, h1, h2, h3⟩ := coding_adds_exactly_new_effects hash isNum terms hnd hsep
  refine ⟨cs, h1, h2, ?_⟩
  intro S
  -- count over a prefix
  have key : ∀ n, n ≤ terms.length →
      ((∃ t ∈ terms.take n, Contains (catPart isNum t) S) → spanCount (cs.take n).flatten S = 1) ∧
      ((¬ ∃ t ∈ terms.take n, Contains (catPart isNum t) S) →
        spanCount (cs.take n).flatten S = 0) := by
    intro n
    induction n with
    | zero => intro _; simp [spanCount]
    | succ n ih =>
      intro hn
      obtain ⟨ih1, ih2⟩ := ih (by omega)
      have hnc : n < cs.length := by omega
      have hnt : n < terms.length := by omega
      obtain ⟨s1, s2⟩ := h3 n cs[n] terms[n] (by simp [hnc]) (by simp [hnt]) S
      have hadd : spanCount (cs.take (n+1)).flatten S
          = spanCount (cs.take n).flatten S + spanCount cs[n] S := by
        rw [List.take_succ_eq_append_getElem hnc, List.flatten_append]
        simp [spanCount, List.countP_append]
      have hex : (∃ t ∈ terms.take (n+1), Contains (catPart isNum t) S) ↔
          (∃ t ∈ terms.take n, Contains (catPart isNum t) S) ∨ Contains (catPart isNum terms[n]) S := by
        rw [List.take_succ_eq_append_getElem hnt]
        simp only [List.mem_append, List.mem_singleton]
        constructor
        · rintro ⟨t, ht | rfl, hc⟩
          · exact Or.inl ⟨t, ht, hc⟩
          · exact Or.inr hc
        · rintro (⟨t, ht, hc⟩ | hc)
          · exact ⟨t, Or.inl ht, hc⟩
          · exact ⟨_, Or.inr rfl, hc⟩
      rw [hadd, hex]
      by_cases a : ∃ t ∈ terms.take n, Contains (catPart isNum t) S
      · rw [ih1 a, s2 (fun h => h.2 a)]; simp [a]
      · rw [ih2 a]
        by_cases b : Contains (catPart isNum terms[n]) S
        · rw [s1 ⟨b, a⟩]; simp [b]
        · rw [s2 (fun h => b h.1)]; simp [a, b]
  have := key terms.length (Nat.le_refl _)
  rwa [List.take_length, ← h2, List.take_length] at this

/-- Example for C01: the formula `1 + a:b + b` (factors 0 and 1).  The hypotheses
hold (with the identity as hash) and the codings are `[{}]`, `[{b-}, {a-, b+}]`, `[]`;
this is the case of doc/formulas.rst:673-687 where one term needs two pieces. -/
example : (∀ t ∈ [[], [0, 1], [1]], (t : List Nat).Nodup) ∧
    Separates (fun s => s) (fun _ => false) [[], [0, 1], [1]] ∧
    codeTerms (fun s => s) (fun _ => false) [[], [0, 1], [1]] [] =
      .ok [[{}], [{⟨false, 1⟩}, {⟨false, 0⟩, ⟨true, 1⟩}], []] := by
  refine ⟨by decide, ?_, eq_ok_of_okIs (by decide +kernel)⟩
  intro S T _ _ h
  exact minusPiece_injective h

/-- **C02.**  For every term with distinct factors and every history of earlier
calls (any contents of the used set, any hash function), choosing the codings
succeeds -- no assertion fails, the loop terminates -- and in every resulting coding no
factor has both codings and only categorical factors of the term occur. -/
theorem coding_never_fails {H : Type u} [DecidableEq H] (hash : Subterm F → H)
    (isNum : F → Bool) (term : List F) (hnd : term.Nodup) (used : List H) :
    ∃ cs used', pickContrasts hash isNum term used = .ok (cs, used') ∧
      ∀ c ∈ cs, (∀ f, ¬ (⟨true, f⟩ ∈ c ∧ ⟨false, f⟩ ∈ c)) ∧
        (∀ f b, ⟨b, f⟩ ∈ c → f ∈ term ∧ isNum f = false) := by
  obtain ⟨cs, used', h1, h2, h3, _, _⟩ := pickContrasts_spec hash isNum term hnd used
  refine ⟨cs, used', h1, ?_⟩
  intro c hc
  exact ⟨h2 c hc, fun f b hf => h3 c hc _ hf⟩

/-- **C02**, the simplification loop alone: on every list of pieces that do not
overlap (and in which no factor has two codings) it succeeds, leaves nothing
mergeable, and spans exactly the same effects. -/
theorem simplify_preserves_effects (L : List (Subterm F))
    (hgood : ∀ c ∈ L, ∀ f, ¬ (⟨true, f⟩ ∈ c ∧ ⟨false, f⟩ ∈ c))
    (hdis : ∀ S, spanCount L S ≤ 1) :
    ∃ L', simplify L = .ok L' ∧ (∀ S, spanCount L' S = spanCount L S) ∧
      L'.length ≤ L.length ∧ simplifyOne L' = .ok none := by
  have hinv : Inv (L.foldr (fun e A => factorsOf e ∪ A) ∅) L := by
    refine ⟨hgood, ?_, fun S => by rw [← spanCount_eq_cnt hgood]; exact hdis S⟩
    intro e he
    clear hgood hdis
    induction L with
    | nil => simp at he
    | cons a L ih =>
      rcases List.mem_cons.mp he with h | h
      · subst h; exact Finset.subset_union_left
      · exact (ih h).trans Finset.subset_union_right
  obtain ⟨L', h1, h2, h3, h4⟩ := simplify_spec _ (Nat.le_refl _) hinv
  refine ⟨L', h1, ?_, ?_, h4⟩
  · intro S
    rw [spanCount_eq_cnt h2.good, spanCount_eq_cnt hgood, h3]
  · clear h2 h3 h4 hinv hgood hdis
    have : ∀ n, ∀ L L' : List (Subterm F), L.length ≤ n → simplify L = .ok L' → L'.length ≤ L.length := by
      intro n
      induction n with
      | zero =>
        intro L L' hn h
        have : L = [] := List.length_eq_zero_iff.mp (by omega)
        subst this
        rw [simplify] at h
        simp [simplifyOne] at h
        subst h; simp
      | succ n ih =>
        intro L L' hn h
        rw [simplify] at h
        split at h
        · simp at h
        · simp at h; subst h; simp
        · rename_i l' hl
          have := simplifyOne_length hl
          have := ih l' L' (by omega) h
          omega
    exact this _ L L' (Nat.le_refl _) h1

/-- Example for C02: coding `a:b:c` after `a` and `b` have been coded. -/
example : ([0, 1, 2] : List Nat).Nodup ∧
    pickContrasts (fun s => s) (fun _ => false) [0, 1, 2]
      [∅, {⟨false, 0⟩}, {⟨false, 1⟩}] =
    .ok ([{⟨true, 0⟩, ⟨false, 2⟩}, {⟨false, 1⟩, ⟨false, 2⟩}, {⟨false, 0⟩, ⟨false, 1⟩, ⟨true, 2⟩}],
      [∅, {⟨false, 0⟩}, {⟨false, 1⟩}, {⟨false, 2⟩}, {⟨false, 0⟩, ⟨false, 1⟩},
       {⟨false, 0⟩, ⟨false, 2⟩}, {⟨false, 1⟩, ⟨false, 2⟩}, {⟨false, 0⟩, ⟨false, 1⟩, ⟨false, 2⟩}]) :=
  ⟨by decide, eq_ok_of_okIs (by decide +kernel)⟩

/-- **C04**, first half: with a hash that separates pieces, the outcome is the exact cover;
this is `coding_exact_cover` with an injective hash. -/
theorem coding_exact_cover_of_injective {H : Type u} [DecidableEq H] (hash : Subterm F → H)
    (hinj : Function.Injective hash) (isNum : F → Bool) (terms : List (List F))
    (hnd : ∀ t ∈ terms, t.Nodup) :
    ∃ cs, codeTerms hash isNum terms [] = .ok cs ∧
      ∀ S : Finset F,
        ((∃ t ∈ terms, Contains (catPart isNum t) S) → spanCount cs.flatten S = 1) ∧
        ((¬ ∃ t ∈ terms, Contains (catPart isNum t) S) → spanCount cs.flatten S = 0) := by
  obtain ⟨cs, h1, _, h3⟩ := coding_exact_cover hash isNum terms hnd (by
    intro S T _ _ h
    exact minusPiece_injective (hinj h))
  exact ⟨cs, h1, h3⟩

example : Function.Injective (fun s : Subterm Nat => s) := fun _ _ h => h

/-- **C04**, in general: whatever the hash does, no effect is ever spanned twice and
nothing outside the model is spanned; what a collision can cause is a loss.  An
effect of the `i`-th term is spanned by its codings iff its hash differs from the
hashes of all effects of earlier terms. -/
theorem coding_under_collisions {H : Type u} [DecidableEq H] (hash : Subterm F → H)
    (isNum : F → Bool) (term : List F) (hnd : term.Nodup) (used : List H) :
    ∃ cs used', pickContrasts hash isNum term used = .ok (cs, used') ∧
      ∀ S : Finset F,
        ((Contains (catPart isNum term) S ∧ hash (S.image (fun f => ⟨false, f⟩)) ∉ used) →
          spanCount cs S = 1) ∧
        (¬ (Contains (catPart isNum term) S ∧ hash (S.image (fun f => ⟨false, f⟩)) ∉ used) →
          spanCount cs S = 0) := by
  obtain ⟨cs, used', h1, h2, _, h4, _⟩ := pickContrasts_spec hash isNum term hnd used
  refine ⟨cs, used', h1, ?_⟩
  intro S
  rw [spanCount_eq_cnt h2, h4]
  simp only [contains_catPart]
  constructor
  · intro h; exact if_pos h
  · intro h; exact if_neg h

example : ([0, 1] : List Nat).Nodup := by decide

/-- **C04**, the defect: for the model `a + b` (without intercept) there is a hash
function, colliding on two different pieces only, for which the effect `{b}` is
lost, so that `b` contributes no column at all. -/
theorem collision_loses_columns :
    ∃ hash : Subterm Nat → Nat,
      hash (({0} : Finset Nat).image (fun f => ⟨false, f⟩)) =
        hash (({1} : Finset Nat).image (fun f => ⟨false, f⟩)) ∧
      ∃ cs, codeTerms hash (fun _ => false) [[0], [1]] [] = .ok cs ∧
        (∃ t ∈ ([[0], [1]] : List (List Nat)), Contains t {1}) ∧ spanCount cs.flatten {1} = 0 := by
  refine ⟨fun s => s.card, by decide, [[{⟨true, 0⟩}], []], eq_ok_of_okIs (by decide +kernel), ⟨[1], by simp, ?_⟩, ?_⟩
  · intro f hf; simpa using hf
  · rw [spanCount_eq_cnt]
    · decide
    · intro c hc
      simp only [List.flatten_cons, List.flatten_nil, List.append_nil, List.mem_singleton] at hc
      subst hc
      intro f h
      simp at h

/-- The same hypothesis-free run with a separating hash keeps `{b}`. -/
example : codeTerms (fun s : Subterm Nat => s) (fun _ => false) [[0], [1]] [] =
    .ok [[{⟨true, 0⟩}], [{⟨false, 1⟩}]] := eq_ok_of_okIs (by decide +kernel)

/-- **C37.**  The greedy simplification does not always use the fewest pieces
(doc/formulas.rst:660 "Patsy tries to use the fewest pieces possible", and the
exercise at 751-754): for `1 + a + b + a:b:c` the last term gets three codings,
but two codings span exactly the same effects. -/
theorem greedy_not_minimal :
    ∃ (terms : List (List Nat)) (cs : List (List (Subterm Nat))) (last better : List (Subterm Nat)),
      codeTerms (fun s => s) (fun _ => false) terms [] = .ok cs ∧
      cs.getLast? = some last ∧
      (∀ S, spanCount better S = spanCount last S) ∧ better.length < last.length := by
  refine ⟨[[], [0], [1], [0, 1, 2]],
    [[{}], [{⟨false, 0⟩}], [{⟨false, 1⟩}],
      [{⟨true, 0⟩, ⟨false, 2⟩}, {⟨false, 1⟩, ⟨false, 2⟩}, {⟨false, 0⟩, ⟨false, 1⟩, ⟨true, 2⟩}]],
    [{⟨true, 0⟩, ⟨false, 2⟩}, {⟨false, 1⟩, ⟨false, 2⟩}, {⟨false, 0⟩, ⟨false, 1⟩, ⟨true, 2⟩}],
    [{⟨true, 0⟩, ⟨true, 1⟩, ⟨false, 2⟩}, {⟨false, 0⟩, ⟨false, 1⟩}], eq_ok_of_okIs (by decide +kernel), rfl, ?_, by decide⟩
  intro S
  rw [spanCount_eq_cnt, spanCount_eq_cnt]
  · by_cases hS : S ⊆ {0, 1, 2}
    · rw [← Finset.mem_powerset] at hS
      revert S
      decide +kernel
    · have hno : ∀ e : Subterm Nat, factorsOf e ⊆ {0, 1, 2} → ¬ Sp e S :=
        fun e he h => hS (h.2.trans he)
      simp only [cnt_cons]
      rw [if_neg (hno _ (by decide)), if_neg (hno _ (by decide)), if_neg (hno _ (by decide)),
        if_neg (hno _ (by decide)), if_neg (hno _ (by decide))]
  · intro c hc f h
    simp only [List.mem_cons, List.not_mem_nil, or_false] at hc
    rcases hc with rfl | rfl | rfl <;> simp at h <;> omega
  · intro c hc f h
    simp only [List.mem_cons, List.not_mem_nil, or_false] at hc
    rcases hc with rfl | rfl <;> simp at h <;> omega

end Patsy.Props
