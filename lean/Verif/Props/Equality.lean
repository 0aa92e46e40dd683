import Verif.Spec.Equality
import Mathlib.Data.List.Nodup
import Mathlib.Algebra.BigOperators.Group.Multiset.Defs
import Mathlib.Algebra.Group.Nat.Defs

/-! # C73: equal objects are interchangeable as keys -/

set_option linter.unusedSectionVars false

namespace Patsy.Props

open Patsy.Equality Patsy.Spec

variable {A B O U H V : Type} [DecidableEq H]

/-! ### Sets -/

def eqSetoid {k : Key A H} (h : Lawful k) : Setoid A := ⟨fun x y => k.eq x y = true, h.refl, fun {x y} => h.symm x y, fun {x y z} => h.trans x y z⟩

theorem hit_eq {k : Key A H} (h : Lawful k) (x y : A) : k.hit x y = k.eq x y := by
  unfold Key.hit
  cases he : k.eq x y with
  | false => simp
  | true => simp [h.hash x y he]

theorem mem_iff {k : Key A H} (h : Lawful k) (s : List A) (x : A) : k.mem s x = true ↔ ∃ y ∈ s, k.eq y x = true := by
  simp [Key.mem, hit_eq h]

theorem set_foldl {k : Key A H} (h : Lawful k) (l s : List A) (hs : s.Pairwise fun x y => k.eq x y = false) :
    (l.foldl k.add s).Pairwise (fun x y => k.eq x y = false) ∧ (∀ x ∈ l.foldl k.add s, x ∈ s ∨ x ∈ l) ∧
      (∀ x ∈ s, x ∈ l.foldl k.add s) ∧ ∀ x ∈ l, ∃ y ∈ l.foldl k.add s, k.eq y x = true := by
  induction l generalizing s with
  | nil => exact ⟨hs, fun x hx => .inl hx, fun x hx => hx, by simp⟩
  | cons a l ih =>
    rw [List.foldl_cons]
    by_cases hm : k.mem s a = true
    · have hadd : k.add s a = s := by simp [Key.add, hm]
      rw [hadd]
      obtain ⟨i1, i2, i3, i4⟩ := ih s hs
      refine ⟨i1, fun x hx => (i2 x hx).imp id (List.mem_cons_of_mem _), i3, ?_⟩
      intro x hx
      rcases List.mem_cons.mp hx with rfl | hx
      · obtain ⟨y, hy, he⟩ := (mem_iff h s x).mp hm
        exact ⟨y, i3 y hy, he⟩
      · exact i4 x hx
    · have hadd : k.add s a = s ++ [a] := by simp [Key.add, hm]
      rw [hadd]
      obtain ⟨i1, i2, i3, i4⟩ := ih (s ++ [a]) (by
        rw [List.pairwise_append]
        refine ⟨hs, by simp, ?_⟩
        intro x hx y hy
        rw [List.mem_singleton.mp hy]
        cases he : k.eq x a with
        | false => rfl
        | true => exact absurd ((mem_iff h s a).mpr ⟨x, hx, he⟩) hm)
      refine ⟨i1, ?_, fun x hx => i3 x (by simp [hx]), ?_⟩
      · intro x hx
        rcases i2 x hx with hx | hx
        · rcases List.mem_append.mp hx with hx | hx
          · exact .inl hx
          · rw [List.mem_singleton.mp hx]
            exact .inr (by simp)
        · exact .inr (by simp [hx])
      · intro x hx
        rcases List.mem_cons.mp hx with rfl | hx
        · exact ⟨x, i3 x (by simp), h.refl x⟩
        · exact i4 x hx

/-- **C73**.  A set, and the list of factors of a term, holds one of each group of equal objects. -/
theorem set_spec {k : Key A H} (h : Lawful k) (l : List A) :
    (k.set l).Pairwise (fun x y => k.eq x y = false) ∧ (∀ x ∈ k.set l, x ∈ l) ∧ ∀ x ∈ l, ∃ y ∈ k.set l, k.eq y x = true := by
  obtain ⟨h1, h2, _, h4⟩ := set_foldl h l [] List.Pairwise.nil
  exact ⟨h1, fun x hx => (h2 x hx).resolve_left (by simp), h4⟩

theorem set_nodup {k : Key A H} (h : Lawful k) (l : List A) : ((k.set l).map (Quotient.mk (eqSetoid h))).Nodup := by
  rw [List.Nodup, List.pairwise_map]
  refine (set_spec h l).1.imp ?_
  intro x y hxy he
  have : k.eq x y = true := Quotient.exact he
  rw [hxy] at this
  cases this

theorem set_subset_iff {k : Key A H} (h : Lawful k) (s t : List A) :
    ((k.set s).all fun x => k.mem (k.set t) x) = true ↔
      (k.set s).map (Quotient.mk (eqSetoid h)) ⊆ (k.set t).map (Quotient.mk (eqSetoid h)) := by
  rw [List.all_eq_true]
  constructor
  · intro hall q hq
    obtain ⟨x, hx, rfl⟩ := List.mem_map.mp hq
    obtain ⟨y, hy, he⟩ := (mem_iff h _ _).mp (hall x hx)
    exact List.mem_map.mpr ⟨y, hy, Quotient.sound he⟩
  · intro hsub x hx
    obtain ⟨y, hy, he⟩ := List.mem_map.mp (hsub (List.mem_map.mpr ⟨x, hx, rfl⟩))
    exact (mem_iff h _ _).mpr ⟨y, hy, Quotient.exact he⟩

/-- Equality of sets, as a permutation. -/
theorem setEq_perm {k : Key A H} (h : Lawful k) (s t : List A) : k.setEq (k.set s) (k.set t) = true ↔
    ((k.set s).map (Quotient.mk (eqSetoid h))).Perm ((k.set t).map (Quotient.mk (eqSetoid h))) := by
  rw [Key.setEq, Bool.and_eq_true, set_subset_iff h, beq_iff_eq]
  constructor
  · rintro ⟨hl, hs⟩
    exact ((set_nodup h s).subperm hs).perm_of_length_le (by simp [hl])
  · intro hp
    refine ⟨?_, hp.subset⟩
    have := hp.length_eq
    simpa using this

theorem same_perm {k : Key A H} (h : Lawful k) (s t : List A) : SameElements k s t ↔
    ((k.set s).map (Quotient.mk (eqSetoid h))).Perm ((k.set t).map (Quotient.mk (eqSetoid h))) := by
  obtain ⟨_, s2, s3⟩ := set_spec h s
  obtain ⟨_, t2, t3⟩ := set_spec h t
  rw [List.perm_ext_iff_of_nodup (set_nodup h s) (set_nodup h t)]
  have hq : ∀ (l : List A), (∀ x ∈ k.set l, x ∈ l) → (∀ x ∈ l, ∃ y ∈ k.set l, k.eq y x = true) → ∀ x,
      Quotient.mk (eqSetoid h) x ∈ (k.set l).map (Quotient.mk (eqSetoid h)) ↔ ∃ y ∈ l, k.eq x y = true := by
    intro l l2 l3 x
    rw [List.mem_map]
    constructor
    · rintro ⟨y, hy, he⟩
      exact ⟨y, l2 y hy, h.symm _ _ (Quotient.exact he)⟩
    · rintro ⟨y, hy, he⟩
      obtain ⟨z, hz, he'⟩ := l3 y hy
      exact ⟨z, hz, Quotient.sound (h.trans _ _ _ he' (h.symm _ _ he))⟩
  constructor
  · rintro ⟨h1, h2⟩ q
    induction q using Quotient.inductionOn with
    | _ x =>
      rw [hq s s2 s3, hq t t2 t3]
      constructor
      · rintro ⟨y, hy, he⟩
        obtain ⟨z, hz, he'⟩ := h1 y hy
        exact ⟨z, hz, h.trans _ _ _ he he'⟩
      · rintro ⟨y, hy, he⟩
        obtain ⟨z, hz, he'⟩ := h2 y hy
        exact ⟨z, hz, h.trans _ _ _ he (h.symm _ _ he')⟩
  · intro hall
    refine ⟨fun x hx => ?_, fun y hy => ?_⟩
    · have := (hall (Quotient.mk _ x)).mp ((hq s s2 s3 x).mpr ⟨x, hx, h.refl x⟩)
      exact (hq t t2 t3 x).mp this
    · have := (hall (Quotient.mk _ y)).mpr ((hq t t2 t3 y).mpr ⟨y, hy, h.refl y⟩)
      obtain ⟨x, hx, he⟩ := (hq s s2 s3 y).mp this
      exact ⟨x, hx, h.symm _ _ he⟩

/-! ### Terms -/

/-- **C73**.  Terms are equal exactly if they have the same factors, in any order. -/
theorem term_eq_iff {k : Key A H} (h : Lawful k) (hs : Hashes H) (s t : List A) :
    (termKey hs k).eq s t = true ↔ SameElements k s t := by
  rw [same_perm h]
  show k.setEq (k.set t) (k.set s) = true ↔ _
  rw [setEq_perm h]
  exact List.perm_comm

/-- **C73**.  If factors keep the contract, so do terms. -/
theorem term_lawful {k : Key A H} (h : Lawful k) (hs : Hashes H) : Lawful (termKey hs k) where
  refl s := (term_eq_iff h hs s s).mpr ((same_perm h s s).mpr (List.Perm.refl _))
  symm s t he := by
    rw [term_eq_iff h, same_perm h] at he ⊢
    exact he.symm
  trans s t u he he' := by
    rw [term_eq_iff h, same_perm h] at he he' ⊢
    exact he.trans he'
  hash s t he := by
    rw [term_eq_iff h, same_perm h] at he
    have hh : ∀ l : List A, l.map k.hash =
        (l.map (Quotient.mk (eqSetoid h))).map (Quotient.lift k.hash fun x y (hxy : k.eq x y = true) => h.hash x y hxy) := by
      intro l
      rw [List.map_map]
      rfl
    have : ((k.set s).map k.hash : Multiset H) = ((k.set t).map k.hash : List H) := by
      rw [hh, hh]
      exact Quotient.sound (he.map _)
    show hs.tuple _ = hs.tuple _
    rw [this]

/-- **C73**.  `Term.__init__` makes a term that is equal to one with the factors as given, without duplicates. -/
theorem makeTerm_spec {k : Key A H} (h : Lawful k) (hs : Hashes H) (l : List A) :
    (makeTerm k l).Pairwise (fun x y => k.eq x y = false) ∧ (termKey hs k).eq (makeTerm k l) l = true := by
  obtain ⟨h1, h2, h3⟩ := set_spec h l
  refine ⟨h1, (term_eq_iff h hs _ _).mpr ⟨fun x hx => ⟨x, h2 x hx, h.refl x⟩, h3⟩⟩

/-! ### Factors -/

theorem listEq_lawful {eq : A → A → Bool} (hr : ∀ x, eq x x = true) (hsy : ∀ x y, eq x y = true → eq y x = true)
    (ht : ∀ x y z, eq x y = true → eq y z = true → eq x z = true) {hash : A → H}
    (hh : ∀ x y, eq x y = true → hash x = hash y) :
    (∀ l, listEq eq l l = true) ∧ (∀ l l', listEq eq l l' = true → listEq eq l' l = true) ∧
      (∀ l l' l'', listEq eq l l' = true → listEq eq l' l'' = true → listEq eq l l'' = true) ∧
      ∀ l l', listEq eq l l' = true → l.map hash = l'.map hash := by
  refine ⟨?_, ?_, ?_, ?_⟩
  · intro l
    induction l with
    | nil => rfl
    | cons a l ih => simp [listEq, hr, ih]
  · intro l
    induction l with
    | nil => intro l' h; cases l' with
      | nil => rfl
      | cons => simp [listEq] at h
    | cons a l ih => intro l' h; cases l' with
      | nil => simp [listEq] at h
      | cons b l' =>
        simp only [listEq, Bool.and_eq_true] at h ⊢
        exact ⟨hsy _ _ h.1, ih _ h.2⟩
  · intro l
    induction l with
    | nil => intro l' l'' h h'; cases l' with
      | nil => exact h'
      | cons => simp [listEq] at h
    | cons a l ih => intro l' l'' h h'; cases l' with
      | nil => simp [listEq] at h
      | cons b l' => cases l'' with
        | nil => simp [listEq] at h'
        | cons c l'' =>
          simp only [listEq, Bool.and_eq_true] at h h' ⊢
          exact ⟨ht _ _ _ h.1 h'.1, ih _ _ h.2 h'.2⟩
  · intro l
    induction l with
    | nil => intro l' h; cases l' with
      | nil => rfl
      | cons => simp [listEq] at h
    | cons a l ih => intro l' h; cases l' with
      | nil => simp [listEq] at h
      | cons b l' =>
        simp only [listEq, Bool.and_eq_true] at h
        simp [hh _ _ h.1, ih _ h.2]

theorem optionEq_lawful {eq : A → A → Bool} (hr : ∀ x, eq x x = true) (hsy : ∀ x y, eq x y = true → eq y x = true)
    (ht : ∀ x y z, eq x y = true → eq y z = true → eq x z = true) {hash : A → H}
    (hh : ∀ x y, eq x y = true → hash x = hash y) :
    (∀ l, optionEq eq l l = true) ∧ (∀ l l', optionEq eq l l' = true → optionEq eq l' l = true) ∧
      (∀ l l' l'', optionEq eq l l' = true → optionEq eq l' l'' = true → optionEq eq l l'' = true) ∧
      ∀ l l', optionEq eq l l' = true → l.map hash = l'.map hash := by
  refine ⟨?_, ?_, ?_, ?_⟩
  · intro l
    cases l <;> simp [optionEq, hr]
  · intro l l' h
    cases l <;> cases l' <;> simp only [optionEq, Bool.false_eq_true] at h ⊢
    exact hsy _ _ h
  · intro l l' l'' h h'
    cases l <;> cases l' <;> cases l'' <;> simp only [optionEq, Bool.false_eq_true] at h h' ⊢
    exact ht _ _ _ h h'
  · intro l l' h
    cases l <;> cases l' <;> simp only [optionEq, Bool.false_eq_true] at h
    · rfl
    · simp [hh _ _ h]

/-- **C73**.  The factors of patsy keep the contract, together with those of a user who keeps it.  The origin, where the
factor stands in a formula, is ignored. -/
theorem factor_lawful {u : Key U H} (h : Lawful u) (hs : Hashes H) : Lawful (factorKey (O := O) hs u) := by
  obtain ⟨l1, l2, l3, l4⟩ := listEq_lawful h.refl h.symm h.trans h.hash
  obtain ⟨c1, c2, c3, c4⟩ := optionEq_lawful h.refl h.symm h.trans h.hash
  obtain ⟨o1, o2, o3, o4⟩ := optionEq_lawful l1 l2 l3
    (hash := fun l : List U => hs.tuple (l.map u.hash)) (fun x y he => by rw [l4 x y he])
  refine ⟨?_, ?_, ?_, ?_⟩
  · intro x
    cases x <;> simp [factorKey, Factor.eq, h.refl, c1, o1]
  · intro x y he
    cases x <;> cases y <;> simp only [factorKey, Factor.eq, Bool.and_eq_true, beq_iff_eq, Bool.false_eq_true] at he ⊢
    · exact he.symm
    · obtain ⟨⟨⟨a, b⟩, c⟩, d⟩ := he
      exact ⟨⟨⟨a.symm, b.symm⟩, c2 _ _ c⟩, o2 _ _ d⟩
    · exact h.symm _ _ he
  · intro x y z he he'
    cases x <;> cases y <;> cases z <;>
      simp only [factorKey, Factor.eq, Bool.and_eq_true, beq_iff_eq, Bool.false_eq_true] at he he' ⊢
    · exact he.trans he'
    · obtain ⟨⟨⟨a, b⟩, c⟩, d⟩ := he
      obtain ⟨⟨⟨a', b'⟩, c'⟩, d'⟩ := he'
      exact ⟨⟨⟨a.trans a', b.trans b'⟩, c3 _ _ _ c c'⟩, o3 _ _ _ d d'⟩
    · exact h.trans _ _ _ he he'
  · intro x y he
    cases x <;> cases y <;> simp only [factorKey, Factor.eq, Bool.and_eq_true, beq_iff_eq, Bool.false_eq_true] at he
    · simp [factorKey, Factor.hash, he]
    · obtain ⟨⟨⟨a, b⟩, c⟩, d⟩ := he
      simp only [factorKey, Factor.hash]
      rw [a, b, c4 _ _ c, o4 _ _ d]
    · exact h.hash _ _ he

/-- **C73**.  Factors from a formula are equal exactly if their code is the same text; see C14 for what the text is. -/
theorem evalFactor_eq_iff (hs : Hashes H) (u : Key U H) (c c' : String) (o o' : O) :
    (factorKey hs u).eq (.eval c o) (.eval c' o') = true ↔ c = c' := by
  simp [factorKey, Factor.eq]

/-! ### The other classes -/

/-- **C73**.  Origins are equal exactly if code, start and end are, and they keep the contract. -/
theorem origin_lawful (hs : Hashes H) : (∀ a b, (originKey hs).eq a b = true ↔ a = b) ∧ Lawful (originKey hs) := by
  have he : ∀ a b, (originKey hs).eq a b = true ↔ a = b := by
    rintro ⟨a, b, c⟩ ⟨a', b', c'⟩
    simp [originKey, and_assoc]
  exact ⟨he, fun a => (he a a).mpr rfl, fun a b h => (he b a).mpr ((he a b).mp h).symm,
    fun a b c h h' => (he a c).mpr (((he a b).mp h).trans ((he b c).mp h')), fun a b h => by rw [(he a b).mp h]⟩

/-- **C73**.  Environments are equal exactly if the flags are and the namespaces are the same objects, in the same order. -/
theorem env_lawful (hs : Hashes H) : (∀ a b, (envKey hs).eq a b = true ↔ a = b) ∧ Lawful (envKey hs) := by
  have he : ∀ a b, (envKey hs).eq a b = true ↔ a = b := by
    rintro ⟨a, b⟩ ⟨a', b'⟩
    simp [envKey]
  exact ⟨he, fun a => (he a a).mpr rfl, fun a b h => (he b a).mpr ((he a b).mp h).symm,
    fun a b c h h' => (he a c).mpr (((he a b).mp h).trans ((he b c).mp h')), fun a b h => by rw [(he a b).mp h]⟩

theorem expanded_lawful {k : Key A H} (h : Lawful k) (hs : Hashes H) : Lawful (expandedKey hs k) := by
  refine ⟨fun x => by simp [expandedKey, h.refl], ?_, ?_, ?_⟩
  · intro x y he
    simp only [expandedKey, Bool.and_eq_true, beq_iff_eq] at he ⊢
    exact ⟨he.1.symm, h.symm _ _ he.2⟩
  · intro x y z he he'
    simp only [expandedKey, Bool.and_eq_true, beq_iff_eq] at he he' ⊢
    exact ⟨he'.1.trans he.1, h.trans _ _ _ he'.2 he.2⟩
  · intro x y he
    simp only [expandedKey, Bool.and_eq_true, beq_iff_eq] at he ⊢
    rw [he.1, h.hash _ _ he.2]

/-- **C73**.  Objects of several classes can be mixed. -/
theorem sum_lawful {k : Key A H} {l : Key B H} (hk : Lawful k) (hl : Lawful l) : Lawful (sumKey k l) := by
  refine ⟨?_, ?_, ?_, ?_⟩
  · rintro (x | x)
    · exact hk.refl x
    · exact hl.refl x
  · rintro (x | x) (y | y) he
    · exact hk.symm x y he
    · cases he
    · cases he
    · exact hl.symm x y he
  · rintro (x | x) (y | y) (z | z) he he'
    · exact hk.trans x y z he he'
    all_goals first | cases he | cases he' | exact hl.trans x y z he he'
  · rintro (x | x) (y | y) he
    · exact hk.hash x y he
    · cases he
    · cases he
    · exact hl.hash x y he

/-! ### Subterms -/

/-- **C73** fails for `_Subterm`: every two subterms are equal, so that the contract is broken as soon as two hashes
differ. -/
theorem subterm_not_lawful {k : Key A H} (h : Lawful k) (hs : Hashes H) {s t : List A}
    (hne : (subtermKey hs k).hash s ≠ (subtermKey hs k).hash t) :
    (subtermKey hs k).eq s t = true ∧ ¬ Lawful (subtermKey hs k) := by
  have he : (subtermKey hs k).eq s t = true := (setEq_perm h s s).mpr (List.Perm.refl _)
  exact ⟨he, fun hl => hne (hl.hash s t he)⟩

/-- **C73**.  So `subterm not in used_subterms` is decided by the hash alone.  It is what is meant if the hashes are
different for subterms with different factors. -/
theorem subterm_mem {k : Key A H} (h : Lawful k) (hs : Hashes H) (used : List (List A)) (s : List A) :
    ((subtermKey hs k).mem used s = true ↔ ∃ t ∈ used, (subtermKey hs k).hash t = (subtermKey hs k).hash s) ∧
      ((∀ t ∈ used, (subtermKey hs k).hash t = (subtermKey hs k).hash s → SameElements k t s) →
        ((subtermKey hs k).mem used s = true ↔ ∃ t ∈ used, SameElements k t s)) := by
  have he : ∀ t, (subtermKey hs k).eq t s = true := fun t => (setEq_perm h t t).mpr (List.Perm.refl _)
  have h1 : (subtermKey hs k).mem used s = true ↔
      ∃ t ∈ used, (subtermKey hs k).hash t = (subtermKey hs k).hash s := by
    simp [Key.mem, Key.hit, he]
  refine ⟨h1, fun hinj => h1.trans ⟨?_, ?_⟩⟩
  · rintro ⟨t, ht, hh⟩
    exact ⟨t, ht, hinj t ht hh⟩
  · rintro ⟨t, ht, hse⟩
    refine ⟨t, ht, ?_⟩
    have := (term_lawful h ⟨fun _ => hs.ofClass "_Subterm", hs.ofString, hs.ofBool, hs.ofInt, hs.none, hs.tuple, hs.set⟩).hash
      t s ((term_eq_iff h _ _ _).mpr hse)
    exact this

/-! ### Dictionaries -/

/-- **C73**.  After `d[x] = v`, looking up `y` gives `v` if `y` is equal to `x`, and what it gave before otherwise. -/
theorem get_put {k : Key A H} (h : Lawful k) (d : List (A × V)) (x y : A) (v : V) :
    k.get (k.put d x v) y = if k.eq x y then some v else k.get d y := by
  have hin : ∀ d : List (A × V), (d.any fun p => k.hit p.1 x) = true →
      k.get (d.map fun p => if k.hit p.1 x then (p.1, v) else p) y = if k.eq x y then some v else k.get d y := by
    intro d
    induction d with
    | nil => intro hd; cases hd
    | cons p d ih =>
      intro hd
      simp only [hit_eq h, Key.get, List.map_cons, List.find?_cons, List.any_cons, Bool.or_eq_true] at ih hd ⊢
      cases hp : k.eq p.1 x with
      | true =>
        simp only [if_true]
        have hpy : k.eq p.1 y = k.eq x y := by
          rw [Bool.eq_iff_iff]
          exact ⟨fun e => h.trans _ _ _ (h.symm _ _ hp) e, fun e => h.trans _ _ _ hp e⟩
        rw [hpy]
        cases hxy : k.eq x y with
        | true => simp
        | false =>
          simp only [Bool.false_eq_true, if_false]
          congr 1
          rw [List.find?_map]
          have : ∀ q ∈ d, ((fun p : A × V => k.eq p.1 y) ∘ fun p => if k.eq p.1 x = true then (p.1, v) else p) q =
              k.eq q.1 y := by
            intro q _
            simp only [Function.comp]
            split <;> rfl
          clear ih hd
          induction d with
          | nil => rfl
          | cons q d ih =>
            have hq := this q (by simp)
            simp only [List.find?_cons, hq]
            cases hqy : k.eq q.1 y with
            | true =>
              have : k.eq q.1 x = false := by
                cases hqx : k.eq q.1 x with
                | false => rfl
                | true =>
                  have := h.trans _ _ _ (h.symm _ _ hqx) hqy
                  rw [hxy] at this
                  cases this
              simp [this]
            | false => exact ih fun q hq => this q (by simp [hq])
      | false =>
        rw [hp] at hd
        simp only [Bool.false_eq_true, if_false, false_or] at hd ⊢
        cases hpy : k.eq p.1 y with
        | true =>
          have : k.eq x y = false := by
            cases hxy : k.eq x y with
            | false => rfl
            | true =>
              have := h.trans _ _ _ hpy (h.symm _ _ hxy)
              rw [hp] at this
              cases this
          simp [this]
        | false => exact ih hd
  unfold Key.put
  split
  · rename_i hd
    exact hin d hd
  · rename_i hd
    simp only [Bool.not_eq_true, List.any_eq_false] at hd
    simp only [Key.get, List.find?_append]
    cases hf : d.find? (fun p => k.hit p.1 y) with
    | some p =>
      have h1 := List.find?_some hf
      have h2 := hd p (List.mem_of_find?_eq_some hf)
      rw [hit_eq h] at h1 h2
      have : k.eq x y = false := by
        cases hxy : k.eq x y with
        | false => rfl
        | true => exact absurd (h.trans _ _ _ h1 (h.symm _ _ hxy)) (by simp [h2])
      simp [this]
    | none =>
      cases hxy : k.eq x y <;> simp [hit_eq h, hxy]

/-! ### Examples -/

namespace EqualitySample

/-- Hashes that are numbers; sets are hashed by adding up. -/
def hashes : Hashes Nat where
  ofClass s := s.length
  ofString s := s.length
  ofBool b := if b then 1 else 0
  ofInt i := i.natAbs
  none := 7
  tuple l := l.foldl (fun a b => 31 * a + b) 1
  set s := s.sum

/-- A user's objects: numbers, equal if their last digits are. -/
def user : Key Nat Nat := ⟨fun a b => a % 10 == b % 10, fun a => a % 10⟩

theorem user_lawful : Lawful user := by
  refine ⟨fun x => by simp [user], ?_, ?_, ?_⟩
  · intro x y h
    simp only [user, beq_iff_eq] at h ⊢
    exact h.symm
  · intro x y z h h'
    simp only [user, beq_iff_eq] at h h' ⊢
    exact h.trans h'
  · intro x y h
    simp only [user, beq_iff_eq] at h ⊢
    exact h

/-- `x` at two places, `LookupFactor`s with equal levels, and another factor. -/
def xs : List (Factor Nat Nat) := [.eval "x" 0, .lookup "x" true none (some [1, 2]) 0, .user 5, .eval "x" 9]

def ys : List (Factor Nat Nat) := [.user 15, .eval "x" 4, .lookup "x" true none (some [11, 22]) 3]

end EqualitySample

open EqualitySample in
/-- Example for `term_lawful` and `makeTerm_spec`: two terms with equal factors in another order are equal, their hashes
agree, a duplicate is dropped; a term with another factor is not equal. -/
example : Lawful (factorKey (O := Nat) hashes user) ∧ (termKey hashes (factorKey hashes user)).eq xs ys = true ∧
    (termKey hashes (factorKey hashes user)).hash xs = (termKey hashes (factorKey hashes user)).hash ys ∧
    (makeTerm (factorKey hashes user) xs).length = 3 ∧
    (termKey hashes (factorKey hashes user)).eq xs (.eval "z" 0 :: ys) = false :=
  ⟨factor_lawful user_lawful hashes, by decide +kernel, by decide +kernel, by decide +kernel, by decide +kernel⟩

open EqualitySample in
/-- Example for `subterm_not_lawful` and `subterm_mem`: two subterms with different hashes. -/
example : (subtermKey hashes user).hash [1] ≠ (subtermKey hashes user).hash [2] ∧
    (subtermKey hashes user).eq [1] [2] = true ∧ (subtermKey hashes user).mem [[2]] [1] = false ∧
    (subtermKey hashes user).mem [[11]] [1] = true := by decide +kernel

open EqualitySample in
/-- Example for `get_put`: a dictionary with terms as keys. -/
example : (termKey hashes user).get ((termKey hashes user).put [([1, 2], "a"), ([3], "b")] [12, 11] "c") [2, 1] = some "c" := by
  decide +kernel

end Patsy.Props
