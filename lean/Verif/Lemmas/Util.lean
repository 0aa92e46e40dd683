import Verif.Model.Util

/-! Lemmas about `uniqueify`. -/

namespace Patsy.Util

variable {α β : Type}

/-- `eqv` is an equivalence relation. -/
structure IsEqv (eqv : α → α → Bool) : Prop where
  refl : ∀ a, eqv a a = true
  symm : ∀ a b, eqv a b = true → eqv b a = true
  trans : ∀ a b c, eqv a b = true → eqv b c = true → eqv a c = true

/-- Some element of `l` is equal (in the sense of `eqv`) to `x`. -/
def Covers (eqv : α → α → Bool) (l : List α) (x : α) : Prop := ∃ y ∈ l, eqv y x = true

theorem any_iff_covers (eqv : α → α → Bool) (l : List α) (x : α) :
    (l.any fun y => eqv y x) = true ↔ Covers eqv l x := by
  simp [Covers]

variable {eqv : α → α → Bool}

theorem go_cons_pos {seen l : List α} {x : α} (h : Covers eqv seen x) :
    uniqueifyGo eqv seen (x :: l) = uniqueifyGo eqv seen l := by
  rw [uniqueifyGo, if_pos ((any_iff_covers eqv seen x).mpr h)]

theorem go_cons_neg {seen l : List α} {x : α} (h : ¬ Covers eqv seen x) :
    uniqueifyGo eqv seen (x :: l) = x :: uniqueifyGo eqv (x :: seen) l := by
  rw [uniqueifyGo, if_neg (fun hc => h ((any_iff_covers eqv seen x).mp hc))]

theorem go_congr {seen seen' : List α} (h : ∀ x, Covers eqv seen x ↔ Covers eqv seen' x)
    (l : List α) : uniqueifyGo eqv seen l = uniqueifyGo eqv seen' l := by
  induction l generalizing seen seen' with
  | nil => rfl
  | cons x l ih =>
    by_cases hc : Covers eqv seen x
    · rw [go_cons_pos hc, go_cons_pos ((h x).mp hc), ih h]
    · rw [go_cons_neg hc, go_cons_neg (fun h' => hc ((h x).mpr h')), ih]
      intro y
      have := h y
      simp only [Covers, List.mem_cons, exists_eq_or_imp] at *
      rw [this]

theorem covers_cons {seen : List α} {x y : α} :
    Covers eqv (x :: seen) y ↔ eqv x y = true ∨ Covers eqv seen y := by
  simp [Covers]

theorem covers_append {a b : List α} {y : α} :
    Covers eqv (a ++ b) y ↔ Covers eqv a y ∨ Covers eqv b y := by
  simp only [Covers, List.mem_append]
  constructor
  · rintro ⟨z, h | h, e⟩
    · exact Or.inl ⟨z, h, e⟩
    · exact Or.inr ⟨z, h, e⟩
  · rintro (⟨z, h, e⟩ | ⟨z, h, e⟩)
    · exact ⟨z, Or.inl h, e⟩
    · exact ⟨z, Or.inr h, e⟩

theorem Covers.mono {a b : List α} {y : α} (h : Covers eqv a y) (hs : ∀ x ∈ a, x ∈ b) :
    Covers eqv b y := by
  obtain ⟨z, h1, h2⟩ := h
  exact ⟨z, hs z h1, h2⟩

theorem go_sublist (seen l : List α) : (uniqueifyGo eqv seen l).Sublist l := by
  induction l generalizing seen with
  | nil => exact List.Sublist.slnil
  | cons x l ih =>
    by_cases hc : Covers eqv seen x
    · rw [go_cons_pos hc]; exact (ih seen).cons x
    · rw [go_cons_neg hc]; exact (ih (x :: seen)).cons_cons x

theorem uniqueify_sublist (l : List α) : (uniqueify eqv l).Sublist l := go_sublist [] l

theorem go_not_covered {seen l : List α} {x : α} (h : x ∈ uniqueifyGo eqv seen l) :
    ¬ Covers eqv seen x := by
  induction l generalizing seen with
  | nil => simp [uniqueifyGo] at h
  | cons y l ih =>
    by_cases hc : Covers eqv seen y
    · rw [go_cons_pos hc] at h; exact ih h
    · rw [go_cons_neg hc] at h
      rcases List.mem_cons.mp h with rfl | h
      · exact hc
      · exact fun hcov => ih h (covers_cons.mpr (Or.inr hcov))

theorem go_pairwise (seen l : List α) :
    (uniqueifyGo eqv seen l).Pairwise (fun a b => eqv a b = false) := by
  induction l generalizing seen with
  | nil => exact List.Pairwise.nil
  | cons y l ih =>
    by_cases hc : Covers eqv seen y
    · rw [go_cons_pos hc]; exact ih seen
    · rw [go_cons_neg hc]
      refine List.Pairwise.cons ?_ (ih _)
      intro b hb
      have := go_not_covered hb
      rw [covers_cons] at this
      simp only [not_or] at this
      simpa using this.1

theorem uniqueify_pairwise (l : List α) :
    (uniqueify eqv l).Pairwise (fun a b => eqv a b = false) := go_pairwise [] l

theorem covers_go (hE : IsEqv eqv) {seen l : List α} {x : α} :
    Covers eqv (uniqueifyGo eqv seen l ++ seen) x ↔ Covers eqv (l ++ seen) x := by
  induction l generalizing seen with
  | nil => simp [uniqueifyGo]
  | cons y l ih =>
    by_cases hc : Covers eqv seen y
    · rw [go_cons_pos hc, ih]
      simp only [List.cons_append, covers_cons, covers_append]
      constructor
      · exact Or.inr
      · rintro (h | h)
        · obtain ⟨z, hz, e⟩ := hc
          exact Or.inr ⟨z, hz, hE.trans _ _ _ e h⟩
        · exact h
    · rw [go_cons_neg hc]
      have := ih (seen := y :: seen)
      simp only [List.cons_append, covers_cons, covers_append] at this ⊢
      rw [show (eqv y x = true ∨ Covers eqv (uniqueifyGo eqv (y :: seen) l) x ∨ Covers eqv seen x) ↔
        (Covers eqv (uniqueifyGo eqv (y :: seen) l) x ∨ eqv y x = true ∨ Covers eqv seen x) by
          constructor <;> rintro (h | h | h) <;> simp [h], this]
      constructor <;> rintro (h | h | h) <;> simp [h]

theorem covers_uniqueify (hE : IsEqv eqv) {l : List α} {x : α} :
    Covers eqv (uniqueify eqv l) x ↔ Covers eqv l x := by
  have := covers_go hE (seen := []) (l := l) (x := x)
  simpa [uniqueify] using this

/-- `Red seen l l'`: `l'` arises from `l` by deleting elements that are covered by
`seen` or by an earlier element. -/
inductive Red (eqv : α → α → Bool) : List α → List α → List α → Prop where
  | nil (seen : List α) : Red eqv seen [] []
  | keep (seen : List α) (x : α) (l l' : List α) : Red eqv (x :: seen) l l' →
      Red eqv seen (x :: l) (x :: l')
  | drop (seen : List α) (x : α) (l l' : List α) : Covers eqv seen x → Red eqv seen l l' →
      Red eqv seen (x :: l) l'

theorem Red.go_eq (hE : IsEqv eqv) {seen l l' : List α} (h : Red eqv seen l l') :
    uniqueifyGo eqv seen l = uniqueifyGo eqv seen l' := by
  induction h with
  | nil => rfl
  | keep seen x l l' _ ih =>
    by_cases hc : Covers eqv seen x
    · have hcg : ∀ y, Covers eqv (x :: seen) y ↔ Covers eqv seen y := by
        intro y
        rw [covers_cons]
        constructor
        · rintro (h | h)
          · obtain ⟨z, hz, e⟩ := hc; exact ⟨z, hz, hE.trans _ _ _ e h⟩
          · exact h
        · exact Or.inr
      rw [go_cons_pos hc, go_cons_pos hc, ← go_congr hcg l, ← go_congr hcg l', ih]
    · rw [go_cons_neg hc, go_cons_neg hc, ih]
  | drop seen x l l' hc _ ih => rw [go_cons_pos hc, ih]

theorem Red.uniqueify_eq (hE : IsEqv eqv) {l l' : List α} (h : Red eqv [] l l') :
    uniqueify eqv l = uniqueify eqv l' := h.go_eq hE

theorem Red.refl (seen l : List α) : Red eqv seen l l := by
  induction l generalizing seen with
  | nil => exact .nil _
  | cons x l ih => exact .keep _ _ _ _ (ih _)

theorem Red.mono {seen seen' l l' : List α} (h : Red eqv seen l l')
    (hs : ∀ x, Covers eqv seen x → Covers eqv seen' x) : Red eqv seen' l l' := by
  induction h generalizing seen' with
  | nil => exact .nil _
  | keep seen x l l' _ ih =>
    refine .keep _ _ _ _ (ih ?_)
    intro y hy
    rw [covers_cons] at hy ⊢
    exact hy.imp_right (hs y)
  | drop seen x l l' hc _ ih => exact .drop _ _ _ _ (hs x hc) (ih hs)

theorem Red.append {seen a a' b b' : List α} (h1 : Red eqv seen a a')
    (h2 : Red eqv (a ++ seen) b b') (hE : IsEqv eqv) : Red eqv seen (a ++ b) (a' ++ b') := by
  induction h1 with
  | nil => simpa using h2
  | keep seen x l l' _ ih =>
    refine .keep _ _ _ _ (ih (h2.mono ?_))
    intro y hy
    simp only [List.cons_append, covers_cons, covers_append] at hy ⊢
    rcases hy with h | h | h <;> simp [h]
  | drop seen x l l' hc _ ih =>
    refine .drop _ _ _ _ hc (ih (h2.mono ?_))
    intro y hy
    simp only [List.cons_append, covers_cons, covers_append] at hy ⊢
    rcases hy with h | h | h
    · obtain ⟨z, hz, e⟩ := hc
      exact Or.inr ⟨z, hz, hE.trans _ _ _ e h⟩
    · exact Or.inl h
    · exact Or.inr h

/-- Everything already covered can be dropped. -/
theorem Red.drop_all {seen l : List α} (h : ∀ x ∈ l, Covers eqv seen x) : Red eqv seen l [] := by
  induction l with
  | nil => exact .nil _
  | cons x l ih =>
    exact .drop _ _ _ _ (h x (by simp)) (ih fun y hy => h y (by simp [hy]))

/-- `uniqueify` itself is such a deletion. -/
theorem red_go (seen l : List α) : Red eqv seen l (uniqueifyGo eqv seen l) := by
  induction l generalizing seen with
  | nil => exact .nil _
  | cons x l ih =>
    by_cases hc : Covers eqv seen x
    · rw [go_cons_pos hc]; exact .drop _ _ _ _ hc (ih seen)
    · rw [go_cons_neg hc]; exact .keep _ _ _ _ (ih _)

theorem red_uniqueify (seen l : List α) : Red eqv seen l (uniqueify eqv l) :=
  (red_go [] l).mono (by rintro x ⟨y, h, _⟩; simp at h)

theorem uniqueify_idem (hE : IsEqv eqv) (l : List α) :
    uniqueify eqv (uniqueify eqv l) = uniqueify eqv l :=
  ((red_uniqueify [] l).uniqueify_eq hE).symm

theorem uniqueify_append_left (hE : IsEqv eqv) (a b : List α) :
    uniqueify eqv (uniqueify eqv a ++ b) = uniqueify eqv (a ++ b) :=
  (((red_uniqueify [] a).append (Red.refl _ b) hE).uniqueify_eq hE).symm

theorem uniqueify_append_right (hE : IsEqv eqv) (a b : List α) :
    uniqueify eqv (a ++ uniqueify eqv b) = uniqueify eqv (a ++ b) :=
  (((Red.refl [] a).append (red_uniqueify _ b) hE).uniqueify_eq hE).symm

theorem go_eq_self {seen l : List α} (h : l.Pairwise (fun a b => eqv a b = false))
    (hs : ∀ x ∈ l, ¬ Covers eqv seen x) : uniqueifyGo eqv seen l = l := by
  induction l generalizing seen with
  | nil => rfl
  | cons x l ih =>
    have hp := List.pairwise_cons.mp h
    rw [go_cons_neg (hs x (by simp)), ih hp.2]
    intro y hy
    rw [covers_cons]
    simp [hp.1 y hy, hs y (by simp [hy])]

theorem uniqueify_eq_self {l : List α} (h : l.Pairwise (fun a b => eqv a b = false)) :
    uniqueify eqv l = l := go_eq_self h (by rintro x _ ⟨y, hy, _⟩; simp at hy)

/-- Mapping each element to a list, respecting `eqv`, preserves deletions. -/
theorem Red.flatMap {eqv' : β → β → Bool} (hE : IsEqv eqv') {f : α → List β}
    (hf : ∀ x y, eqv x y = true → ∀ b ∈ f y, Covers eqv' (f x) b)
    {seen l l' : List α} (h : Red eqv seen l l') :
    ∀ seen' : List β, (∀ x, Covers eqv seen x → ∀ b ∈ f x, Covers eqv' seen' b) →
      Red eqv' seen' (l.flatMap f) (l'.flatMap f) := by
  induction h with
  | nil => intro seen' _; exact .nil _
  | keep seen x l l' _ ih =>
    intro seen' hs
    simp only [List.flatMap_cons]
    refine (Red.refl seen' (f x)).append (ih (f x ++ seen') ?_) hE
    intro y hy b hb
    rw [covers_append]
    rw [covers_cons] at hy
    rcases hy with hy | hy
    · exact Or.inl (hf x y hy b hb)
    · exact Or.inr (hs y hy b hb)
  | drop seen x l l' hc _ ih =>
    intro seen' hs
    simp only [List.flatMap_cons]
    have h1 : Red eqv' seen' (f x) [] := Red.drop_all (hs x hc)
    have := h1.append (b := l.flatMap f) (b' := l'.flatMap f)
      ((ih seen' hs).mono (fun y hy => covers_append.mpr (Or.inr hy))) hE
    simpa using this

theorem Red.map {eqv' : β → β → Bool} (hE : IsEqv eqv') {f : α → β}
    (hf : ∀ x y, eqv x y = true → eqv' (f x) (f y) = true)
    {seen l l' : List α} (h : Red eqv seen l l') (seen' : List β)
    (hs : ∀ x, Covers eqv seen x → Covers eqv' seen' (f x)) :
    Red eqv' seen' (l.map f) (l'.map f) := by
  have := Red.flatMap (eqv := eqv) hE (f := fun x => [f x])
    (by intro x y h b hb; simp at hb; subst hb; exact ⟨f x, by simp, hf x y h⟩) h seen'
    (by intro x hx b hb; simp at hb; subst hb; exact hs x hx)
  simpa [List.map_eq_flatMap] using this

end Patsy.Util
