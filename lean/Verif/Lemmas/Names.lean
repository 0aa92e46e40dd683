import Verif.Spec.Names

/-!
# Texts with brackets and colons
-/

namespace Patsy.Names

open Patsy.Spec Patsy.Build Patsy.Desc

theorem depth_append (l m : List Char) : nestingDepth (l ++ m) = nestingDepth l + nestingDepth m := by
  simp [nestingDepth]

theorem depth_cons (c : Char) (m : List Char) : nestingDepth (c :: m) = bracketStep c + nestingDepth m := by
  simp [nestingDepth]

/-- The condition on a list of characters. -/
def ClosedL (l : List Char) : Prop := Balanced l ∧ ∀ p, p ++ [':'] <+: l → nestingDepth p ≠ 0

theorem intercalate_inj {l m : List (List Char)} (hl : ∀ s ∈ l, ClosedL s) (hm : ∀ s ∈ m, ClosedL s)
    (hl0 : l ≠ []) (hm0 : m ≠ []) (h : [':'].intercalate l = [':'].intercalate m) : l = m := by
  -- the text after the first label
  have hrest : ∀ (a : List Char) (l : List (List Char)), [':'].intercalate (a :: l) =
      a ++ (if l = [] then [] else ':' :: [':'].intercalate l) := by
    intro a l
    cases l with
    | nil => simp
    | cons b l => simp [List.intercalate_cons_cons]
  have hcmp : ∀ {a b r r' : List Char}, ClosedL a → ClosedL b → (r = [] ∨ ∃ y, r = ':' :: y) →
      (r' = [] ∨ ∃ y, r' = ':' :: y) → a ++ r = b ++ r' → a = b := by
    intro a b r r' ha hb hr hr' he
    rcases List.append_eq_append_iff.mp he with ⟨d, h1, h2⟩ | ⟨d, h1, h2⟩
    · cases d with
      | nil => simpa using h1.symm
      | cons c d =>
        rcases hr with rfl | ⟨y, rfl⟩
        · simp at h2
        · simp only [List.cons_append, List.cons.injEq] at h2
          rw [← h2.1] at h1
          exact absurd ha.1.1 (hb.2 a ⟨d, by simp [h1]⟩)
    · cases d with
      | nil => simpa using h1
      | cons c d =>
        rcases hr' with rfl | ⟨y, rfl⟩
        · simp at h2
        · simp only [List.cons_append, List.cons.injEq] at h2
          rw [← h2.1] at h1
          exact absurd hb.1.1 (ha.2 b ⟨d, by simp [h1]⟩)
  induction l generalizing m with
  | nil => exact absurd rfl hl0
  | cons a l ih =>
    cases m with
    | nil => exact absurd rfl hm0
    | cons b m =>
      rw [hrest, hrest] at h
      obtain rfl : a = b := by
        refine hcmp (hl a (by simp)) (hm b (by simp)) ?_ ?_ h
        · split <;> simp
        · split <;> simp
      have h := List.append_cancel_left h
      by_cases h1 : l = []
      · by_cases h2 : m = []
        · rw [h1, h2]
        · simp [h1, h2] at h
      · by_cases h2 : m = []
        · simp [h1, h2] at h
        · simp only [h1, h2, if_false, List.cons.injEq, true_and] at h
          rw [ih (fun s hs => hl s (List.mem_cons_of_mem _ hs)) (fun s hs => hm s (List.mem_cons_of_mem _ hs)) h1 h2 h]

/-- Labels without colons outside of brackets can be read off their sequence. -/
theorem join_inj {l m : List String} (hl : ∀ s ∈ l, Closed s) (hm : ∀ s ∈ m, Closed s)
    (hl0 : l ≠ []) (hm0 : m ≠ []) (h : ":".intercalate l = ":".intercalate m) : l = m := by
  have h := congrArg String.toList h
  rw [String.toList_intercalate, String.toList_intercalate] at h
  have h := intercalate_inj (l := l.map String.toList) (m := m.map String.toList)
    (fun s hs => by obtain ⟨t, ht, rfl⟩ := List.mem_map.mp hs; exact hl t ht)
    (fun s hs => by obtain ⟨t, ht, rfl⟩ := List.mem_map.mp hs; exact hm t ht)
    (by simpa using hl0) (by simpa using hm0) h
  exact (List.map_injective_iff.mpr fun a b h => String.toList_inj.mp h) h

theorem depth_of_plain {l : List Char} (h : ∀ c ∈ l, bracketStep c = 0) : nestingDepth l = 0 := by
  rw [nestingDepth, List.sum_eq_zero]
  simpa using h

theorem balanced_of_plain {l : List Char} (h : ∀ c ∈ l, bracketStep c = 0) : Balanced l :=
  ⟨depth_of_plain h, fun _ hp => (depth_of_plain fun c hc => h c (hp.subset hc)).ge⟩

theorem closed_intercept : Closed "Intercept" := by
  have hplain : ∀ c ∈ "Intercept".toList, bracketStep c = 0 := by decide
  refine ⟨balanced_of_plain hplain, fun p h => ?_⟩
  have : ':' ∈ "Intercept".toList := h.subset (by simp)
  exact absurd this (by decide)

/-- Numbers in brackets. -/
theorem bracketed_number (j : Nat) : Bracketed ("[" ++ toString j ++ "]") := by
  refine ⟨Nat.toDigits 10 j, ?_, balanced_of_plain ?_⟩
  · have h : (toString j).toList = Nat.toDigits 10 j := Nat.toList_repr
    simp only [String.toList_append, h]
    rfl
  · intro c hc
    have := Nat.isDigit_of_mem_toDigits (by decide) (by decide) hc
    unfold bracketStep
    have hne : ∀ d : Char, d.isDigit = false → c ≠ d := by
      rintro d hd rfl
      rw [hd] at this
      cases this
    simp [hne '(' (by decide), hne '[' (by decide), hne '{' (by decide), hne ')' (by decide), hne ']' (by decide),
      hne '}' (by decide)]

/-- A name followed by a text in brackets can be taken apart. -/
theorem append_bracketed_inj {a b s s' : String} (ha : Closed a) (hb : Closed b) (hs : Bracketed s)
    (hs' : Bracketed s') (h : a ++ s = b ++ s') : a = b ∧ s = s' := by
  obtain ⟨m, hm, hbm⟩ := hs
  obtain ⟨m', hm', hbm'⟩ := hs'
  have hchars := congrArg String.toList h
  simp only [String.toList_append, hm, hm'] at hchars
  have key : ∀ {x y m m' : List Char}, nestingDepth x = 0 → nestingDepth y = 0 → Balanced m → Balanced m' →
      x ++ '[' :: (m ++ [']']) = y ++ '[' :: (m' ++ [']']) → ∀ d, y = x ++ d → d = [] := by
    intro x y m m' hx hy hm hm' he d hd
    subst hd
    cases d with
    | nil => rfl
    | cons c d =>
      exfalso
      rw [List.append_assoc, List.append_cancel_left_eq] at he
      simp only [List.cons_append, List.cons.injEq] at he
      obtain ⟨rfl, he⟩ := he
      -- the part up to the second bracket lies inside of the first pair of brackets
      have hp : d <+: m := by
        have h1 : d <+: m ++ [']'] := by rw [he]; exact List.prefix_append ..
        have h2 := congrArg List.length he
        simp only [List.length_append, List.length_cons, List.length_nil] at h2
        exact List.prefix_of_prefix_length_le h1 (List.prefix_append ..) (by omega)
      have := hm.2 d hp
      rw [depth_append, depth_cons, hx] at hy
      have : bracketStep '[' = 1 := rfl
      omega
  have hab : a.toList = b.toList := by
    rcases List.append_eq_append_iff.mp hchars with ⟨d, h1, _⟩ | ⟨d, h1, _⟩
    · have := key ha.1.1 hb.1.1 hbm hbm' hchars d h1
      simp [h1, this]
    · have := key hb.1.1 ha.1.1 hbm' hbm hchars.symm d h1
      simp [h1, this]
  have hab := String.toList_inj.mp hab
  subst hab
  exact ⟨rfl, (String.append_right_inj a).mp h⟩

theorem prefix_append_cases {α : Type} {p l m : List α} (h : p <+: l ++ m) : p <+: l ∨ ∃ r, p = l ++ r ∧ r <+: m := by
  obtain ⟨t, ht⟩ := h
  rcases List.append_eq_append_iff.mp ht with ⟨d, h1, _⟩ | ⟨d, h1, h2⟩
  · exact .inl ⟨d, h1.symm⟩
  · exact .inr ⟨d, h1, t, h2.symm⟩

theorem getLast_bracketed (l m : List Char) : (l ++ '[' :: (m ++ [']'])).getLast? = some ']' := by
  have : l ++ '[' :: (m ++ [']']) = (l ++ '[' :: m) ++ [']'] := by simp
  rw [this, List.getLast?_concat]

/-- A name followed by a text in brackets does not have colons outside of brackets. -/
theorem closed_append {a s : String} (ha : Closed a) (hs : Bracketed s) : Closed (a ++ s) := by
  obtain ⟨m, hm, hbm⟩ := hs
  have hb1 : bracketStep '[' = 1 := rfl
  have hb2 : bracketStep ']' = -1 := rfl
  -- the prefixes
  have hpre : ∀ p, p <+: (a ++ s).toList → p <+: a.toList ∨ p = (a ++ s).toList ∨ 1 ≤ nestingDepth p := by
    intro p hp
    rw [String.toList_append, hm] at hp
    rcases prefix_append_cases hp with h | ⟨r, rfl, h⟩
    · exact .inl h
    · cases r with
      | nil => left; simp
      | cons c r =>
        right
        rw [List.cons_prefix_cons] at h
        obtain ⟨rfl, h⟩ := h
        rcases prefix_append_cases h with h | ⟨r', rfl, h'⟩
        · right
          rw [depth_append, depth_cons, ha.1.1]
          have := hbm.2 r h
          omega
        · cases r' with
          | nil =>
            right
            rw [depth_append, depth_cons, ha.1.1, List.append_nil, hbm.1]
            omega
          | cons c r' =>
            left
            rw [List.cons_prefix_cons] at h'
            obtain ⟨rfl, h'⟩ := h'
            simp only [List.prefix_nil] at h'
            subst h'
            simp [String.toList_append, hm]
  have htot : nestingDepth (a ++ s).toList = 0 := by
    rw [String.toList_append, hm, depth_append, depth_cons, depth_append, depth_cons, ha.1.1, hbm.1]
    simp [nestingDepth, hb1, hb2]
  refine ⟨⟨htot, fun p hp => ?_⟩, fun p hp => ?_⟩
  · rcases hpre p hp with h | rfl | h
    · exact ha.1.2 p h
    · exact htot.ge
    · omega
  · have hlast : p ++ [':'] ≠ (a ++ s).toList := by
      intro h
      have h := congrArg List.getLast? h
      rw [String.toList_append, hm, getLast_bracketed, List.getLast?_concat] at h
      simp at h
    have hb3 : bracketStep ':' = 0 := rfl
    rcases hpre _ hp with h | h | h
    · exact ha.2 p h
    · exact absurd h hlast
    · rw [depth_append, depth_cons] at h
      simp only [nestingDepth, List.map_nil, List.sum_nil, hb3] at h ⊢
      omega

theorem bracketed_last {a s : String} (hs : Bracketed s) : (a ++ s).toList.getLast? = some ']' := by
  obtain ⟨m, hm, _⟩ := hs
  rw [String.toList_append, hm, getLast_bracketed]

end Patsy.Names
