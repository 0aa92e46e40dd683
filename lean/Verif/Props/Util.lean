import Verif.Lemmas.Util

/-! # C35: removing duplicates -/

namespace Patsy.Props

open Patsy.Util

variable {α : Type} {eqv : α → α → Bool}

/-- Splitting form of `uniqueify_first`. -/
theorem uniqueify_split (hE : IsEqv eqv) (a b : List α) (x : α) :
    uniqueify eqv (a ++ x :: b) =
      if a.any (fun y => eqv y x) then uniqueify eqv (a ++ b)
      else uniqueify eqv a ++ x :: uniqueifyGo eqv (x :: a) b := by
  have happ : ∀ (seen a b : List α), uniqueifyGo eqv seen (a ++ b) =
      uniqueifyGo eqv seen a ++ uniqueifyGo eqv (a ++ seen) b := by
    intro seen a
    induction a generalizing seen with
    | nil => simp [uniqueifyGo]
    | cons y a ih =>
      intro b
      rw [List.cons_append]
      by_cases hc : Covers eqv seen y
      · rw [go_cons_pos hc, go_cons_pos hc, ih]
        congr 1
        apply go_congr
        intro z
        simp only [List.cons_append, covers_cons, covers_append]
        constructor
        · exact Or.inr
        · rintro (h | h)
          · obtain ⟨w, hw, e⟩ := hc; exact Or.inr ⟨w, hw, hE.trans _ _ _ e h⟩
          · exact h
      · rw [go_cons_neg hc, go_cons_neg hc, ih, List.cons_append]
        congr 2
        apply go_congr
        intro z
        simp only [List.cons_append, covers_cons, covers_append]
        constructor <;> rintro (h | h | h) <;> simp [h]
  unfold uniqueify
  by_cases h : Covers eqv a x
  · rw [if_pos ((any_iff_covers eqv a x).mpr h), happ, happ]
    rw [go_cons_pos (by simpa using h)]
  · rw [if_neg (fun hc => h ((any_iff_covers eqv a x).mp hc)), happ]
    rw [go_cons_neg (by simpa using h)]
    simp

/-- **C35** (first occurrences).  The last element of a list is kept, at the end, iff
nothing before it equals it, and what comes before is treated the same way.  These two
equations determine the result: it is the list of first occurrences in their original
order. -/
theorem uniqueify_first (hE : IsEqv eqv) (l : List α) (x : α) :
    uniqueify eqv [] = [] ∧
    uniqueify eqv (l ++ [x]) =
      if l.any (fun y => eqv y x) then uniqueify eqv l else uniqueify eqv l ++ [x] := by
  refine ⟨rfl, ?_⟩
  rw [uniqueify_split hE l [] x]
  simp [uniqueifyGo]

/-- **C35** (same elements, each once).  The result is a sublist of the input (so order
is kept and nothing is invented), every input element is represented, and no two
elements of the result are equal. -/
theorem uniqueify_spec (hE : IsEqv eqv) (l : List α) :
    (uniqueify eqv l).Sublist l ∧
    (∀ x ∈ l, ∃ y ∈ uniqueify eqv l, eqv y x = true) ∧
    (uniqueify eqv l).Pairwise (fun a b => eqv a b = false) :=
  ⟨uniqueify_sublist l,
    fun x hx => (covers_uniqueify hE).mpr ⟨x, hx, hE.refl x⟩, uniqueify_pairwise l⟩

/-- **C35** (algebra).  Removing duplicates is idempotent, and removing them early, in
either part of a concatenation, changes nothing. -/
theorem uniqueify_algebra (hE : IsEqv eqv) (a b : List α) :
    uniqueify eqv (uniqueify eqv a) = uniqueify eqv a ∧
    uniqueify eqv (uniqueify eqv a ++ b) = uniqueify eqv (a ++ b) ∧
    uniqueify eqv (a ++ uniqueify eqv b) = uniqueify eqv (a ++ b) :=
  ⟨uniqueify_idem hE a, uniqueify_append_left hE a b, uniqueify_append_right hE a b⟩

/-- The hypothesis holds for plain equality, and for coarser relations such as equality
modulo 3, where the first representative survives. -/
example : IsEqv (fun a b : Nat => decide (a % 3 = b % 3)) :=
  ⟨by simp, by simp; intro a b h; exact h.symm, by simp; intro a b c h1 h2; exact h1.trans h2⟩

example : uniqueify (fun a b : Nat => decide (a % 3 = b % 3)) [4, 2, 7, 5, 9, 1] = [4, 2, 9] := by
  decide

example : uniqueify (fun a b : Nat => decide (a = b)) [1, 3, 3, 2, 3, 1] = [1, 3, 2] := by decide

end Patsy.Props
