import Verif.Model.NAOptions

/-!
# C15: which choices for missing values are accepted
-/

namespace Patsy.Props

open Patsy.Build

/-- **C15** (options).  `NAAction` accepts `"drop"` and `"raise"` with a list of `"None"` and `"NaN"`, each any number of
times, and refuses everything else with a `ValueError`; what counts as missing is what is in the list. -/
theorem na_action_iff (onNA : String) (types : NATypesArg) (a : NAAction) :
    (NAAction.make onNA types = .ok a ↔ ∃ l, types = .list l ∧ (∀ t ∈ l, t = "None" ∨ t = "NaN") ∧
      ((onNA = "drop" ∧ a.onNA = .drop) ∨ (onNA = "raise" ∧ a.onNA = .raise)) ∧
      (a.nan = true ↔ "NaN" ∈ l) ∧ (a.none = true ↔ "None" ∈ l)) ∧
    ∀ e, NAAction.make onNA types = .error e → e = .valueError := by
  constructor
  · constructor
    · intro h
      unfold NAAction.make at h
      split at h
      · simp at h
      · rename_i ho
        split at h
        · simp at h
        · rename_i l
          split at h
          · simp at h
          · rename_i hl
            simp only [Except.ok.injEq] at h
            subst h
            refine ⟨l, rfl, ?_, ?_, by simp, by simp⟩
            · intro t ht
              by_cases hn : t = "None"
              · exact Or.inl hn
              · exact Or.inr (by simp at hl; exact hl t ht hn)
            · have ho' : onNA ∈ ["raise", "drop"] := Decidable.not_not.mp ho
              simp only [List.mem_cons, List.not_mem_nil, or_false] at ho'
              rcases ho' with rfl | rfl
              · exact Or.inr ⟨rfl, rfl⟩
              · exact Or.inl ⟨rfl, rfl⟩
    · rintro ⟨l, rfl, h1, h2, h3, h4⟩
      have hl : (l.any fun t => decide (t ∉ ["None", "NaN"])) = false := by
        rw [List.any_eq_false]
        intro t ht
        rcases h1 t ht with rfl | rfl <;> decide
      obtain ⟨o, n, m⟩ := a
      have e3 : decide ("NaN" ∈ l) = n := by
        cases n <;> simp_all
      have e4 : decide ("None" ∈ l) = m := by
        cases m <;> simp_all
      rcases h2 with ⟨rfl, ho⟩ | ⟨rfl, ho⟩ <;> · simp only at ho; subst ho; simp only [NAAction.make, hl, e3, e4]; simp
  · intro e h
    unfold NAAction.make at h
    split at h
    · simpa using h.symm
    · split at h
      · simpa using h.symm
      · split at h
        · simpa using h.symm
        · simp at h

/-- **C15** (options).  A string given as `NA_action` is `"drop"` or `"raise"`, and then both `None` and NaN count as
missing. -/
theorem na_string_iff (s : String) (a : NAAction) : (NAArg.string s).resolve = .ok a ↔
    (s = "drop" ∧ a = ⟨.drop, true, true⟩) ∨ (s = "raise" ∧ a = ⟨.raise, true, true⟩) := by
  rw [NAArg.resolve, (na_action_iff s _ a).1]
  obtain ⟨o, n, m⟩ := a
  constructor
  · rintro ⟨l, hl, -, h1, h2, h3⟩
    cases hl
    have hn : n = true := h2.mpr (by simp)
    have hm : m = true := h3.mpr (by simp)
    subst hn hm
    rcases h1 with ⟨rfl, h⟩ | ⟨rfl, h⟩
    · exact Or.inl ⟨rfl, by simp only at h; rw [h]⟩
    · exact Or.inr ⟨rfl, by simp only at h; rw [h]⟩
  · rintro (⟨rfl, h⟩ | ⟨rfl, h⟩)
    · cases h
      exact ⟨_, rfl, by simp, by simp, by simp, by simp⟩
    · cases h
      exact ⟨_, rfl, by simp, by simp, by simp, by simp⟩

/-- `test_NAAction_basic` (missing.py:189-196). -/
example : NAAction.make "pord" (.list ["None"]) = .error .valueError ∧
    NAAction.make "drop" (.list ["NaN", "asdf"]) = .error .valueError ∧
    NAAction.make "drop" (.string "NaN") = .error .valueError ∧
    NAAction.make "raise" (.list ["NaN"]) = .ok ⟨.raise, true, false⟩ := by
  refine ⟨by rfl, by rfl, by rfl, by rfl⟩

end Patsy.Props
