import Verif.Lemmas.Names
import Verif.Model.Contrasts
import Std.Data.String.ToNat

/-!
# The suffixes of the columns of `Poly`

They are the only suffixes without brackets: `.Constant`, `.Linear`, `.Quadratic`, `.Cubic`, `^4`, `^5`, ...
-/

namespace Patsy.Names

open Patsy.Spec Patsy.Contrast

/-- The suffix of a polynomial. -/
def PolySuffix (s : String) : Prop := ∃ n, s ∈ polyNames n

/-- The characters that a polynomial suffix begins with, and that occur nowhere else in it. -/
def marker (c : Char) : Bool := c = '.' || c = '^'

theorem polySuffix_cases {s : String} (h : PolySuffix s) :
    s ∈ [".Constant", ".Linear", ".Quadratic", ".Cubic"] ∨ ∃ i : Nat, s = "^" ++ toString i := by
  obtain ⟨n, h⟩ := h
  have h := List.mem_of_mem_take h
  rcases List.mem_append.mp h with h | h
  · exact .inl h
  · obtain ⟨i, _, rfl⟩ := List.mem_map.mp h
    exact .inr ⟨_, rfl⟩

theorem digits_plain {j : Nat} {c : Char} (hc : c ∈ (toString j).toList) :
    bracketStep c = 0 ∧ marker c = false ∧ c ≠ ':' := by
  have h : (toString j).toList = Nat.toDigits 10 j := Nat.toList_repr
  rw [h] at hc
  have := Nat.isDigit_of_mem_toDigits (by decide) (by decide) hc
  have hne : ∀ d : Char, d.isDigit = false → c ≠ d := by
    rintro d hd rfl
    rw [hd] at this
    cases this
  unfold bracketStep marker
  simp [hne '(' (by decide), hne '[' (by decide), hne '{' (by decide), hne ')' (by decide), hne ']' (by decide),
    hne '}' (by decide), hne '.' (by decide), hne '^' (by decide), hne ':' (by decide)]

theorem polySuffix_parts {s : String} (h : PolySuffix s) : ∃ c t, s.toList = c :: t ∧ marker c = true ∧
    (∀ d ∈ t, marker d = false) ∧ (∀ d ∈ c :: t, bracketStep d = 0 ∧ d ≠ ':') := by
  rcases polySuffix_cases h with h | ⟨i, rfl⟩
  · simp only [List.mem_cons, List.not_mem_nil, or_false] at h
    rcases h with rfl | rfl | rfl | rfl
    · exact ⟨'.', "Constant".toList, by decide, by decide, by decide, by decide⟩
    · exact ⟨'.', "Linear".toList, by decide, by decide, by decide, by decide⟩
    · exact ⟨'.', "Quadratic".toList, by decide, by decide, by decide, by decide⟩
    · exact ⟨'.', "Cubic".toList, by decide, by decide, by decide, by decide⟩
  · refine ⟨'^', (toString i).toList, by rw [String.toList_append]; rfl, by decide, fun d hd => (digits_plain hd).2.1, ?_⟩
    intro d hd
    rcases List.mem_cons.mp hd with rfl | hd
    · decide
    · exact ⟨(digits_plain hd).1, (digits_plain hd).2.2⟩

theorem marker_split {x y t t' : List Char} {c c' : Char} (hc : marker c = true) (hc' : marker c' = true)
    (ht : ∀ d ∈ t, marker d = false) (ht' : ∀ d ∈ t', marker d = false) (h : x ++ c :: t = y ++ c' :: t') : x = y := by
  have key : ∀ {x y t t' : List Char} {c c' : Char}, marker c' = true → (∀ d ∈ t, marker d = false) →
      x ++ c :: t = y ++ c' :: t' → ∀ d, y = x ++ d → d = [] := by
    intro x y t t' c c' hc' ht h d hd
    subst hd
    cases d with
    | nil => rfl
    | cons e d =>
      rw [List.append_assoc, List.append_cancel_left_eq, List.cons_append, List.cons.injEq] at h
      have := ht c' (by rw [h.2]; simp)
      rw [hc'] at this
      cases this
  rcases List.append_eq_append_iff.mp h with ⟨d, h1, _⟩ | ⟨d, h1, _⟩
  · have := key hc' ht h d h1
    simp [h1, this]
  · have := key hc ht' h.symm d h1
    simp [h1, this]

/-- A name followed by a polynomial suffix can be taken apart. -/
theorem append_poly_inj {a b s s' : String} (hs : PolySuffix s) (hs' : PolySuffix s') (h : a ++ s = b ++ s') :
    a = b ∧ s = s' := by
  obtain ⟨c, t, h1, h2, h3, _⟩ := polySuffix_parts hs
  obtain ⟨c', t', h1', h2', h3', _⟩ := polySuffix_parts hs'
  have hchars := congrArg String.toList h
  rw [String.toList_append, String.toList_append, h1, h1'] at hchars
  have hab := String.toList_inj.mp (marker_split h2 h2' h3 h3' hchars)
  subst hab
  exact ⟨rfl, (String.append_right_inj a).mp h⟩

theorem poly_last {a s : String} (hs : PolySuffix s) : (a ++ s).toList.getLast? ≠ some ']' := by
  obtain ⟨c, t, h1, _, _, h4⟩ := polySuffix_parts hs
  rw [String.toList_append, h1]
  intro h
  have hm : ']' ∈ c :: t := by
    rw [List.getLast?_append] at h
    rw [List.getLast?_eq_some_getLast (List.cons_ne_nil c t), Option.some_or, Option.some.injEq] at h
    rw [← h]
    exact List.getLast_mem _
  exact absurd (h4 _ hm).1 (by decide)

theorem closed_append_poly {a s : String} (ha : Closed a) (hs : PolySuffix s) : Closed (a ++ s) := by
  obtain ⟨c, t, h1, _, _, h4⟩ := polySuffix_parts hs
  have hplain : ∀ r, r <+: s.toList → nestingDepth r = 0 := fun r hr =>
    depth_of_plain fun d hd => (h4 d (by rw [← h1]; exact hr.subset hd)).1
  refine ⟨⟨?_, fun p hp => ?_⟩, fun p hp => ?_⟩
  · rw [String.toList_append, depth_append, ha.1.1, hplain _ (List.prefix_refl _)]
    rfl
  · rw [String.toList_append] at hp
    rcases prefix_append_cases hp with h | ⟨r, rfl, h⟩
    · exact ha.1.2 p h
    · rw [depth_append, ha.1.1, hplain r h]
      decide
  · rw [String.toList_append] at hp
    rcases prefix_append_cases hp with h | ⟨r, h5, h⟩
    · exact ha.2 p h
    · rcases List.eq_nil_or_concat r with rfl | ⟨r', d, rfl⟩
      · rw [List.append_nil] at h5
        exact ha.2 p (by rw [h5])
      · rw [List.concat_eq_append] at h h5
        rw [← List.append_assoc] at h5
        have := (List.append_inj' h5 rfl).2
        simp only [List.cons.injEq, and_true] at this
        exact absurd this.symm (h4 d (by rw [← h1]; exact h.subset (by simp))).2

theorem poly_not_intercept {a s : String} (hs : PolySuffix s) : a ++ s ≠ "Intercept" := by
  obtain ⟨c, t, h1, h2, _, _⟩ := polySuffix_parts hs
  intro h
  have := congrArg String.toList h
  rw [String.toList_append, h1] at this
  have hm : c ∈ "Intercept".toList := by rw [← this]; simp
  have hall : ∀ c ∈ "Intercept".toList, marker c = false := by decide
  rw [hall c hm] at h2
  cases h2

theorem polyNames_nodup (n : Nat) : (polyNames n).Nodup := by
  refine List.Nodup.sublist (List.take_sublist _ _) ?_
  refine List.nodup_append.mpr ⟨by decide, ?_, ?_⟩
  · refine List.Nodup.map ?_ List.nodup_range
    intro i j h
    have h := (String.append_right_inj _).mp h
    have := Nat.repr_inj.mp h
    omega
  · intro a ha b hb hab
    obtain ⟨i, _, rfl⟩ := List.mem_map.mp hb
    subst hab
    have hall : ∀ s ∈ [".Constant", ".Linear", ".Quadratic", ".Cubic"], s.toList.head? = some '.' := by decide
    have := hall _ ha
    simp [String.toList_append] at this

end Patsy.Names
