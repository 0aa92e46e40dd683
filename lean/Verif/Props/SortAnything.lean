import Verif.Spec.SortAnything
import Verif.Model.Categorical
import Mathlib.Tactic.NormNum

/-! # C71: the order of levels -/

namespace Patsy.Props

open Patsy.SortAny Patsy.Spec

/-! ### Python's comparisons -/

mutual

theorem pyEq_iff : ∀ (a b : Obj), pyEq a b = true ↔ a = b
  | .none, b => by cases b <;> simp [pyEq]
  | .num p, b => by cases b <;> simp [pyEq]
  | .str s, b => by cases b <;> simp [pyEq]
  | .tuple l, b => by
    cases b with
    | tuple m => simp [pyEq, itemsEq_iff l m]
    | _ => simp [pyEq]
  | .inst c i, b => by cases b <;> simp [pyEq]

theorem itemsEq_iff : ∀ (l m : Items), itemsEq l m = true ↔ l = m
  | .nil, m => by cases m <;> simp [itemsEq]
  | .cons x xs, m => by
    cases m with
    | nil => simp [itemsEq]
    | cons y ys => simp [itemsEq, pyEq_iff x y, itemsEq_iff xs ys]

end

theorem less_cons (x : Obj) {l m : Items} (h : Less (.tuple l) (.tuple m)) :
    Less (.tuple (.cons x l)) (.tuple (.cons x m)) := by
  cases h with
  | shorter pre y l => exact .shorter (x :: pre) y l
  | item pre l m h => exact .item (x :: pre) l m h

mutual

/-- What `<` says is `Less`. -/
theorem less_of_pyLt : ∀ (a b : Obj), pyLt a b = some true → Less a b
  | .none, b, h => by cases b <;> simp [pyLt] at h
  | .num p, b, h => by
    cases b <;> simp [pyLt] at h
    exact .num h
  | .str s, b, h => by
    cases b <;> simp [pyLt] at h
    exact .str h
  | .tuple l, b, h => by
    cases b <;> simp only [pyLt, reduceCtorEq] at h
    exact less_of_itemsLt l _ h
  | .inst c i, b, h => by cases b <;> simp [pyLt] at h

theorem less_of_itemsLt : ∀ (l m : Items), itemsLt l m = some true → Less (.tuple l) (.tuple m)
  | .nil, m, h => by
    cases m with
    | nil => simp [itemsLt] at h
    | cons y ys => exact .shorter [] y ys
  | .cons x xs, m, h => by
    cases m with
    | nil => simp [itemsLt] at h
    | cons y ys =>
      rw [itemsLt] at h
      split at h
      · rename_i he
        rw [pyEq_iff] at he
        subst he
        exact less_cons x (less_of_itemsLt xs ys h)
      · exact .item [] xs ys (less_of_pyLt x y h)

end

mutual

theorem pyLt_irrefl : ∀ (a : Obj), pyLt a a ≠ some true
  | .none => by simp [pyLt]
  | .num p => by simp [pyLt]
  | .str s => by simp [pyLt]
  | .tuple l => by rw [pyLt]; exact itemsLt_irrefl l
  | .inst c i => by simp [pyLt]

theorem itemsLt_irrefl : ∀ (l : Items), itemsLt l l ≠ some true
  | .nil => by simp [itemsLt]
  | .cons x xs => by
    rw [itemsLt, if_pos ((pyEq_iff x x).mpr rfl)]
    exact itemsLt_irrefl xs

end

theorem itemsLt_prefixed (pre : List Obj) (l m : Items) :
    itemsLt (prefixed pre l) (prefixed pre m) = itemsLt l m := by
  induction pre with
  | nil => rfl
  | cons x pre ih =>
    simp only [prefixed]
    rw [itemsLt, if_pos ((pyEq_iff x x).mpr rfl), ih]

theorem pyLt_of_less {a b : Obj} (h : Less a b) : pyLt a b = some true := by
  induction h with
  | num h => simp [pyLt, h]
  | str h => simp [pyLt, h]
  | shorter pre x l => rw [pyLt, itemsLt_prefixed, itemsLt]
  | item pre l m h ih =>
    rename_i x y
    rw [pyLt, itemsLt_prefixed, itemsLt, if_neg, ih]
    intro he
    rw [pyEq_iff] at he
    subst he
    exact pyLt_irrefl x ih

theorem pyLt_of_less_symm {a b : Obj} (h : Less a b) : pyLt b a = some false := by
  induction h with
  | num h => simp [pyLt, le_of_lt h]
  | str h => simp [pyLt, Std.le_of_lt h]
  | shorter pre x l => rw [pyLt, itemsLt_prefixed, itemsLt]
  | item pre l m h ih =>
    rename_i x y
    rw [pyLt, itemsLt_prefixed, itemsLt, if_neg, ih]
    intro he
    rw [pyEq_iff] at he
    subst he
    exact pyLt_irrefl _ (pyLt_of_less h)

/-- `<` is true exactly where it should be. -/
theorem pyLt_iff (a b : Obj) : pyLt a b = some true ↔ Less a b := ⟨less_of_pyLt a b, pyLt_of_less⟩

mutual

theorem pyLt_trans : ∀ (a b c : Obj), pyLt a b = some true → pyLt b c = some true → pyLt a c = some true
  | .none, b, c, h, _ => by cases b <;> simp [pyLt] at h
  | .num p, b, c, h, h' => by
    cases b <;> simp [pyLt] at h
    cases c <;> simp [pyLt] at h'
    simp only [pyLt, decide_eq_true (lt_trans h h')]
  | .str s, b, c, h, h' => by
    cases b <;> simp [pyLt] at h
    cases c <;> simp [pyLt] at h'
    simp only [pyLt, decide_eq_true (String.lt_trans h h')]
  | .tuple l, b, c, h, h' => by
    cases b <;> simp only [pyLt, reduceCtorEq] at h
    cases c <;> simp only [pyLt, reduceCtorEq] at h'
    rw [pyLt]
    exact itemsLt_trans l _ _ h h'
  | .inst c i, b, d, h, _ => by cases b <;> simp [pyLt] at h

theorem itemsLt_trans : ∀ (l m n : Items), itemsLt l m = some true → itemsLt m n = some true →
    itemsLt l n = some true
  | .nil, m, n, h, h' => by
    cases n with
    | nil => cases m <;> simp [itemsLt] at h h'
    | cons z zs => rfl
  | .cons x xs, m, n, h, h' => by
    cases m with
    | nil => simp [itemsLt] at h
    | cons y ys =>
      cases n with
      | nil => simp [itemsLt] at h'
      | cons z zs =>
        rw [itemsLt] at h h' ⊢
        by_cases hxy : pyEq x y = true
        · rw [if_pos hxy] at h
          rw [pyEq_iff] at hxy
          subst hxy
          by_cases hxz : pyEq x z = true
          · rw [if_pos hxz] at h' ⊢
            exact itemsLt_trans xs ys zs h h'
          · rw [if_neg hxz] at h' ⊢
            exact h'
        · rw [if_neg hxy] at h
          by_cases hyz : pyEq y z = true
          · rw [pyEq_iff] at hyz
            subst hyz
            rw [if_neg hxy]
            exact h
          · rw [if_neg hyz] at h'
            have h3 := pyLt_trans x y z h h'
            rw [if_neg, h3]
            intro he
            rw [pyEq_iff] at he
            subst he
            exact pyLt_irrefl x h3

end

theorem less_irrefl (a : Obj) : ¬ Less a a := fun h => pyLt_irrefl a (pyLt_of_less h)

theorem less_trans {a b c : Obj} (h : Less a b) (h' : Less b c) : Less a c :=
  less_of_pyLt a c (pyLt_trans a b c (pyLt_of_less h) (pyLt_of_less h'))

theorem less_numbers {a b : Obj} (h : Less a b) : IsNum a ↔ IsNum b := by
  cases h <;> simp [IsNum]

theorem less_class {a b : Obj} (h : Less a b) : className a = className b := by
  cases h <;> rfl

mutual

/-- Where the comparison of different objects gives false, the opposite comparison gives true. -/
theorem pyLt_false : ∀ (a b : Obj), pyLt a b = some false → a ≠ b → Less b a
  | .none, b, h, _ => by cases b <;> simp [pyLt] at h
  | .num p, b, h, hne => by
    cases b <;> simp [pyLt] at h
    exact .num (lt_of_le_of_ne h fun e => hne (by rw [e]))
  | .str s, b, h, hne => by
    cases b <;> simp [pyLt] at h
    exact .str (Std.lt_of_le_of_ne h fun e => hne (by rw [e]))
  | .tuple l, b, h, hne => by
    cases b <;> simp only [pyLt, reduceCtorEq] at h
    exact itemsLt_false l _ h fun e => hne (by rw [e])
  | .inst c i, b, h, _ => by cases b <;> simp [pyLt] at h

theorem itemsLt_false : ∀ (l m : Items), itemsLt l m = some false → l ≠ m → Less (.tuple m) (.tuple l)
  | .nil, m, h, hne => by
    cases m with
    | nil => exact absurd rfl hne
    | cons y ys => simp [itemsLt] at h
  | .cons x xs, m, h, hne => by
    cases m with
    | nil => exact .shorter [] x xs
    | cons y ys =>
      rw [itemsLt] at h
      split at h
      · rename_i he
        rw [pyEq_iff] at he
        subst he
        exact less_cons x (itemsLt_false xs ys h fun e => hne (by rw [e]))
      · rename_i he
        rw [pyEq_iff] at he
        exact .item [] ys xs (pyLt_false x y h he)

end

/-! ### Patsy's comparison -/

theorem isSome_zero (a : Obj) : (pyLt a (.num 0)).isSome = true ↔ IsNum a := by
  cases a <;> simp [pyLt, IsNum]

/-- Among harmless objects patsy's comparison is the order of levels, whatever the memory positions. -/
theorem sortLt_iff_before (mem : Obj → Nat) {l : List Obj} (hl : Harmless l) {a b : Obj} (ha : a ∈ l) (hb : b ∈ l) :
    sortLt mem a b = true ↔ Before a b := by
  by_cases hab : a = b
  · subst hab
    have h1 : ¬ Before a a := by
      rintro (⟨h, -⟩ | ⟨h1, h2⟩ | ⟨-, -, h | ⟨-, h⟩⟩)
      · exact less_irrefl a h
      · exact h2 h1
      · exact String.lt_irrefl _ h
      · exact less_irrefl a h
    simp only [h1, iff_false, Bool.not_eq_true]
    rw [sortLt]
    cases h : pyLt a a with
    | some r =>
      cases r with
      | false => rfl
      | true => exact absurd h (pyLt_irrefl a)
    | none =>
      simp only
      rw [if_neg, if_neg, if_pos ((pyEq_iff a a).mpr rfl)]
      · intro h2
        obtain ⟨q, rfl⟩ := (isSome_zero a).mp h2
        simp [pyLt] at h
      · intro h2
        obtain ⟨q, rfl⟩ := (isSome_zero a).mp h2
        simp [pyLt] at h
  · rw [sortLt]
    cases h : pyLt a b with
    | some r =>
      simp only
      have hcl : className a = className b ∧ (IsNum a ↔ IsNum b) := by
        cases r with
        | true => exact ⟨less_class (less_of_pyLt a b h), less_numbers (less_of_pyLt a b h)⟩
        | false =>
          have := pyLt_false a b h hab
          exact ⟨(less_class this).symm, (less_numbers this).symm⟩
      rw [← Option.some.injEq, ← h, pyLt_iff]
      constructor
      · intro hlt
        by_cases hn : IsNum a
        · exact .inl ⟨hlt, hn, hcl.2.mp hn⟩
        · exact .inr (.inr ⟨hn, fun h2 => hn (hcl.2.mpr h2), .inr ⟨hcl.1, hlt⟩⟩)
      · rintro (⟨h, -⟩ | ⟨h1, h2⟩ | ⟨-, -, h | ⟨-, h⟩⟩)
        · exact h
        · exact absurd (hcl.2.mp h1) h2
        · rw [hcl.1] at h
          exact absurd h (String.lt_irrefl _)
        · exact h
    | none =>
      simp only
      have hnl : ¬ Less a b := fun hlt => by
        rw [pyLt_of_less hlt] at h
        cases h
      by_cases hna : IsNum a
      · have hnb : ¬ IsNum b := by
          rintro ⟨q, rfl⟩
          obtain ⟨p, rfl⟩ := hna
          simp [pyLt] at h
        rw [if_pos ((isSome_zero a).mpr hna)]
        exact ⟨fun _ => .inr (.inl ⟨hna, hnb⟩), fun _ => rfl⟩
      · rw [if_neg fun h2 => hna ((isSome_zero a).mp h2)]
        by_cases hnb : IsNum b
        · rw [if_pos ((isSome_zero b).mpr hnb)]
          simp [Before, hna, hnb]
        · rw [if_neg fun h2 => hnb ((isSome_zero b).mp h2), if_neg fun h2 => hab ((pyEq_iff a b).mp h2)]
          have hcn : className a ≠ className b := by
            intro hc
            rcases hl a ha b hb hab hc hna hnb with h2 | h2
            · exact hnl h2
            · have := pyLt_of_less_symm h2
              rw [h] at this
              cases this
          simp [Before, hna, hnb, hcn]

/-- The scalars of `Model/Categorical.lean` among the objects here. -/
def scalar : Cat.PyVal → Option Obj
  | .none => some .none
  | .str s => some (.str s)
  | v => v.numVal.map .num

/-- For scalars both models of the comparison agree. -/
theorem sortLt_scalar (mem : Obj → Nat) {a b : Cat.PyVal} {x y : Obj} (ha : scalar a = some x) (hb : scalar b = some y) :
    Cat.sortLt a b = sortLt mem x y := by
  have hnum : ∀ {v : Cat.PyVal} {q : ℚ}, v.numVal = some q → v.isNumber = true ∧ (∀ s, v ≠ .str s) ∧
      (Cat.pythonLt v (.int 0)).isSome = true := by
    intro v q hv
    cases v <;> simp_all [Cat.PyVal.numVal, Cat.PyVal.isNumber, Cat.pythonLt]
  have hother : ∀ {v : Cat.PyVal} {x : Obj}, scalar v = some x → (v = .none ∧ x = .none) ∨ (∃ s, v = .str s ∧ x = .str s) ∨
      ∃ q, v.numVal = some q ∧ x = .num q := by
    intro v x hv
    cases v <;> simp_all [scalar, Cat.PyVal.numVal]
  rcases hother ha with ⟨rfl, rfl⟩ | ⟨s, rfl, rfl⟩ | ⟨p, hp, rfl⟩ <;>
    rcases hother hb with ⟨rfl, rfl⟩ | ⟨t, rfl, rfl⟩ | ⟨q, hq, rfl⟩
  · rfl
  · simp [Cat.sortLt, Cat.pythonLt, Cat.PyVal.isNumber, Cat.PyVal.numVal, sortLt, pyLt, pyEq, Cat.PyVal.key,
      Cat.className, className]
  · obtain ⟨h1, h2, h3⟩ := hnum hq
    cases b <;> simp_all [Cat.sortLt, Cat.pythonLt, Cat.PyVal.isNumber, Cat.PyVal.numVal, sortLt, pyLt]
  · simp [Cat.sortLt, Cat.pythonLt, Cat.PyVal.isNumber, Cat.PyVal.numVal, sortLt, pyLt, pyEq, Cat.PyVal.key,
      Cat.className, className]
  · simp [Cat.sortLt, Cat.pythonLt, sortLt, pyLt]
  · obtain ⟨h1, h2, h3⟩ := hnum hq
    cases b <;> simp_all [Cat.sortLt, Cat.pythonLt, Cat.PyVal.isNumber, Cat.PyVal.numVal, sortLt, pyLt]
  · obtain ⟨h1, h2, h3⟩ := hnum hp
    cases a <;> simp_all [Cat.sortLt, Cat.pythonLt, Cat.PyVal.isNumber, Cat.PyVal.numVal, sortLt, pyLt]
  · obtain ⟨h1, h2, h3⟩ := hnum hp
    cases a <;> simp_all [Cat.sortLt, Cat.pythonLt, Cat.PyVal.isNumber, Cat.PyVal.numVal, sortLt, pyLt]
  · obtain ⟨h1, h2, h3⟩ := hnum hp
    obtain ⟨h4, h5, h6⟩ := hnum hq
    have e : Cat.pythonLt a b = some (decide (p < q)) := by
      cases a <;> simp_all [Cat.pythonLt]
    rw [Cat.sortLt, e, sortLt, pyLt]

/-! ### Sorting -/

theorem before_trans {a b c : Obj} (h : Before a b) (h' : Before b c) : Before a c := by
  rcases h with ⟨h1, h2, h3⟩ | ⟨h1, h2⟩ | ⟨h1, h2, h3⟩
  · rcases h' with ⟨h4, h5, h6⟩ | ⟨h4, h5⟩ | ⟨h4, h5, h6⟩
    · exact .inl ⟨less_trans h1 h4, h2, h6⟩
    · exact .inr (.inl ⟨h2, h5⟩)
    · exact absurd h3 h4
  · rcases h' with ⟨h4, h5, h6⟩ | ⟨h4, h5⟩ | ⟨h4, h5, h6⟩
    · exact absurd h5 h2
    · exact absurd h4 h2
    · exact .inr (.inl ⟨h1, h5⟩)
  · rcases h' with ⟨h4, h5, h6⟩ | ⟨h4, h5⟩ | ⟨h4, h5, h6⟩
    · exact absurd h5 h2
    · exact absurd h4 h2
    · refine .inr (.inr ⟨h1, h5, ?_⟩)
      rcases h3 with h3 | ⟨h3, h7⟩
      · rcases h6 with h6 | ⟨h6, h8⟩
        · exact .inl (String.lt_trans h3 h6)
        · exact .inl (h6 ▸ h3)
      · rcases h6 with h6 | ⟨h6, h8⟩
        · exact .inl (h3 ▸ h6)
        · exact .inr ⟨h3.trans h6, less_trans h7 h8⟩

theorem before_irrefl (a : Obj) : ¬ Before a a := by
  rintro (⟨h, -⟩ | ⟨h1, h2⟩ | ⟨-, -, h | ⟨-, h⟩⟩)
  · exact less_irrefl a h
  · exact h2 h1
  · exact String.lt_irrefl _ h
  · exact less_irrefl a h

theorem before_total {l : List Obj} (hl : Harmless l) {a b : Obj} (ha : a ∈ l) (hb : b ∈ l) (hab : a ≠ b) :
    Before a b ∨ Before b a := by
  by_cases hna : IsNum a
  · by_cases hnb : IsNum b
    · obtain ⟨p, rfl⟩ := hna
      obtain ⟨q, rfl⟩ := hnb
      rcases lt_trichotomy p q with h | h | h
      · exact .inl (.inl ⟨.num h, ⟨p, rfl⟩, ⟨q, rfl⟩⟩)
      · exact absurd (by rw [h]) hab
      · exact .inr (.inl ⟨.num h, ⟨q, rfl⟩, ⟨p, rfl⟩⟩)
    · exact .inl (.inr (.inl ⟨hna, hnb⟩))
  · by_cases hnb : IsNum b
    · exact .inr (.inr (.inl ⟨hnb, hna⟩))
    · by_cases hc : className a = className b
      · rcases hl a ha b hb hab hc hna hnb with h | h
        · exact .inl (.inr (.inr ⟨hna, hnb, .inr ⟨hc, h⟩⟩))
        · exact .inr (.inr (.inr ⟨hnb, hna, .inr ⟨hc.symm, h⟩⟩))
      · by_cases h : className a < className b
        · exact .inl (.inr (.inr ⟨hna, hnb, .inl h⟩))
        · exact .inr (.inr (.inr ⟨hnb, hna, .inl (Std.lt_of_le_of_ne (Std.not_lt.mp h) fun e => hc e.symm)⟩))

theorem pairwise_orderedInsert_on {α : Type} {r : α → α → Prop} [DecidableRel r] {P : α → Prop}
    (ht : ∀ a b, P a → P b → r a b ∨ r b a) (htr : ∀ a b c, P a → P b → P c → r a b → r b c → r a c) (a : α) (ha : P a) :
    ∀ l : List α, (∀ b ∈ l, P b) → l.Pairwise r → (l.orderedInsert r a).Pairwise r
  | [], _, _ => by simp
  | b :: l, hP, hs => by
    rw [List.orderedInsert_cons]
    have hb := hP b List.mem_cons_self
    have hl : ∀ c ∈ l, P c := fun c hc => hP c (List.mem_cons_of_mem _ hc)
    rw [List.pairwise_cons] at hs
    split
    · rename_i hab
      rw [List.pairwise_cons]
      refine ⟨?_, List.pairwise_cons.mpr hs⟩
      intro c hc
      rcases List.mem_cons.mp hc with rfl | hc
      · exact hab
      · exact htr a b c ha hb (hl c hc) hab (hs.1 c hc)
    · rename_i hab
      rw [List.pairwise_cons]
      refine ⟨?_, pairwise_orderedInsert_on ht htr a ha l hl hs.2⟩
      intro c hc
      rcases (List.mem_orderedInsert r).mp hc with rfl | hc
      · exact (ht c b ha hb).resolve_left hab
      · exact hs.1 c hc

theorem pairwise_insertionSort_on {α : Type} {r : α → α → Prop} [DecidableRel r] {P : α → Prop}
    (ht : ∀ a b, P a → P b → r a b ∨ r b a) (htr : ∀ a b c, P a → P b → P c → r a b → r b c → r a c) :
    ∀ l : List α, (∀ b ∈ l, P b) → (l.insertionSort r).Pairwise r
  | [], _ => by simp
  | a :: l, hP => by
    rw [List.insertionSort_cons]
    have hl : ∀ c ∈ l, P c := fun c hc => hP c (List.mem_cons_of_mem _ hc)
    exact pairwise_orderedInsert_on ht htr a (hP a List.mem_cons_self) _
      (fun b hb => hl b ((List.perm_insertionSort r l).mem_iff.mp hb)) (pairwise_insertionSort_on ht htr l hl)

/-- C71: levels of all kinds (numbers, strings, tuples nested to any depth, instances, mixed) are sorted into the order
of levels, provided that different ones of the same class can be compared. -/
theorem sorted_order (mem : Obj → Nat) {l : List Obj} (hl : Harmless l) (hd : l.Nodup) :
    (sorted mem l).Perm l ∧ (sorted mem l).Pairwise Before := by
  have hp : (sorted mem l).Perm l := List.perm_insertionSort _ l
  refine ⟨hp, ?_⟩
  have hle : ∀ {a b : Obj}, a ∈ l → b ∈ l → (sortLt mem b a = false ↔ a = b ∨ Before a b) := by
    intro a b ha hb
    rw [← Bool.not_eq_true, sortLt_iff_before mem hl hb ha]
    constructor
    · intro h
      by_cases hab : a = b
      · exact .inl hab
      · exact .inr ((before_total hl ha hb hab).resolve_right h)
    · rintro (rfl | h) h2
      · exact before_irrefl a h2
      · exact before_irrefl a (before_trans h h2)
  have hs : (sorted mem l).Pairwise fun a b => sortLt mem b a = false := by
    refine pairwise_insertionSort_on (P := (· ∈ l)) ?_ ?_ l fun b hb => hb
    · intro a b ha hb
      rw [hle ha hb, hle hb ha]
      by_cases hab : a = b
      · exact .inl (.inl hab)
      · rcases before_total hl ha hb hab with h | h
        · exact .inl (.inr h)
        · exact .inr (.inr h)
    · intro a b c ha hb hc
      rw [hle ha hb, hle hb hc, hle ha hc]
      rintro (rfl | h) (rfl | h')
      · exact .inl rfl
      · exact .inr h'
      · exact .inr h
      · exact .inr (before_trans h h')
  have hn : (sorted mem l).Nodup := hp.nodup_iff.mpr hd
  refine (hs.and hn).imp_of_mem ?_
  intro a b ha hb h
  exact ((hle (hp.mem_iff.mp ha) (hp.mem_iff.mp hb)).mp h.1).resolve_left h.2

/-- C71: the order of the levels then depends neither on the order in which Python enumerates the set of levels (hash
seeds) nor on memory positions. -/
theorem sorted_deterministic (mem mem' : Obj → Nat) {l l' : List Obj} (hl : Harmless l) (hd : l.Nodup) (hp : l'.Perm l) :
    sorted mem' l' = sorted mem l := by
  have hl' : Harmless l' := fun a ha b hb => hl a (hp.mem_iff.mp ha) b (hp.mem_iff.mp hb)
  obtain ⟨h1, h2⟩ := sorted_order mem hl hd
  obtain ⟨h3, h4⟩ := sorted_order mem' hl' (hp.nodup_iff.mpr hd)
  refine List.Perm.eq_of_pairwise ?_ h4 h2 ((h3.trans hp).trans h1.symm)
  intro a b _ _ hab hba
  exact absurd (before_trans hab hba) (before_irrefl a)

/-- C71, exactly: the order of two levels never depends on memory positions iff different levels of the same class can
be compared. -/
theorem order_deterministic_iff (l : List Obj) :
    (∀ (mem mem' : Obj → Nat), ∀ a ∈ l, ∀ b ∈ l, sortLt mem a b = sortLt mem' a b) ↔ Harmless l := by
  constructor
  · intro h a ha b hb hab hc hna hnb
    apply Classical.byContradiction
    intro hn
    rw [not_or] at hn
    have h1 : pyLt a b = none := by
      cases h2 : pyLt a b with
      | none => rfl
      | some r =>
        cases r with
        | true => exact absurd (less_of_pyLt a b h2) hn.1
        | false => exact absurd (pyLt_false a b h2 hab) hn.2
    have h2 : ∀ mem : Obj → Nat, sortLt mem a b = decide (mem a < mem b) := by
      intro mem
      rw [sortLt, h1]
      simp only
      rw [if_neg fun h3 => hna ((isSome_zero a).mp h3), if_neg fun h3 => hnb ((isSome_zero b).mp h3),
        if_neg fun h3 => hab ((pyEq_iff a b).mp h3)]
      have hlt : ¬ className a < className b := by
        rw [hc]
        exact String.lt_irrefl _
      simp [hlt, hc]
    have h3 := h (fun x => if pyEq x a then 0 else 1) (fun x => if pyEq x a then 1 else 0) a ha b hb
    rw [h2, h2] at h3
    have h4 : pyEq b a = false := by
      rw [← Bool.not_eq_true, pyEq_iff]
      exact fun e => hab e.symm
    simp [(pyEq_iff a a).mpr rfl, h4] at h3
  · intro hl mem mem' a ha b hb
    rw [Bool.eq_iff_iff, sortLt_iff_before mem hl ha hb, sortLt_iff_before mem' hl ha hb]

/-- A tuple of two items. -/
def pairOf (x y : Obj) : Obj := .tuple (.cons x (.cons y .nil))

/-- Memory positions of the tuples below. -/
def position : Obj → Nat
  | .tuple (.cons _ (.cons (.num q) .nil)) => if q = 3 then 1 else 3
  | _ => 2

/-- C71, against the documentation: the levels `(1, "a")`, `(1, 2)`, `(1, 3)` cannot all be compared with each other.
Memory positions decide about `(1, "a")`, and together with `(1, 2) < (1, 3)` this can go round in a circle: then no
arrangement of the levels is sorted, and which one comes out depends on the order in which the set of levels is
enumerated. -/
theorem sorted_tuples_arbitrary :
    ∃ (l l' : List Obj) (mem : Obj → Nat), (l.map mem).Nodup ∧ l'.Perm l ∧ sorted mem l' ≠ sorted mem l ∧
      ∀ l'' : List Obj, l''.Perm l → ¬ l''.Pairwise fun a b => sortLt mem b a = false := by
  refine ⟨[pairOf (.num 1) (.str "a"), pairOf (.num 1) (.num 2), pairOf (.num 1) (.num 3)],
    [pairOf (.num 1) (.num 3), pairOf (.num 1) (.str "a"), pairOf (.num 1) (.num 2)], position, by decide +kernel,
    ?_, ?_, ?_⟩
  · exact (List.perm_append_comm (l₁ := [pairOf (.num 1) (.num 3)]) :)
  · intro h
    exact absurd (congrArg (List.map position) h) (by decide +kernel)
  · intro l'' hp h
    have h1 : sortLt position (pairOf (.num 1) (.num 3)) (pairOf (.num 1) (.str "a")) = true := by decide +kernel
    have h2 : sortLt position (pairOf (.num 1) (.str "a")) (pairOf (.num 1) (.num 2)) = true := by decide +kernel
    have h3 : sortLt position (pairOf (.num 1) (.num 2)) (pairOf (.num 1) (.num 3)) = true := by decide +kernel
    generalize hr : (fun a b => sortLt position b a = false) = r at h
    replace h1 : ¬ r (pairOf (.num 1) (.str "a")) (pairOf (.num 1) (.num 3)) := by simp [← hr, h1]
    replace h2 : ¬ r (pairOf (.num 1) (.num 2)) (pairOf (.num 1) (.str "a")) := by simp [← hr, h2]
    replace h3 : ¬ r (pairOf (.num 1) (.num 3)) (pairOf (.num 1) (.num 2)) := by simp [← hr, h3]
    revert h1 h2 h3
    have ha : pairOf (.num 1) (.str "a") ∈ l'' := hp.mem_iff.mpr (by simp)
    have hb : pairOf (.num 1) (.num 2) ∈ l'' := hp.mem_iff.mpr (by simp)
    have hc : pairOf (.num 1) (.num 3) ∈ l'' := hp.mem_iff.mpr (by simp)
    have hlen := hp.length_eq
    match l'', hlen with
    | [x, y, z], _ =>
      simp only [List.pairwise_cons, List.mem_cons, List.not_mem_nil, or_false, forall_eq_or_imp, forall_eq] at h
      obtain ⟨⟨hxy, hxz⟩, hyz, -⟩ := h
      intro h1 h2 h3
      simp only [List.mem_cons, List.not_mem_nil, or_false] at ha hb hc
      have nab : pairOf (.num 1) (.str "a") ≠ pairOf (.num 1) (.num 2) := by simp [pairOf]
      have nac : pairOf (.num 1) (.str "a") ≠ pairOf (.num 1) (.num 3) := by simp [pairOf]
      have nbc : pairOf (.num 1) (.num 2) ≠ pairOf (.num 1) (.num 3) := by
        simp only [pairOf, ne_eq, Obj.tuple.injEq, Items.cons.injEq, Obj.num.injEq, true_and, and_true]
        norm_num
      generalize pairOf (.num 1) (.str "a") = a at *
      generalize pairOf (.num 1) (.num 2) = b at *
      generalize pairOf (.num 1) (.num 3) = c at *
      rcases ha with rfl | rfl | rfl <;> rcases hb with rfl | rfl | rfl <;> rcases hc with rfl | rfl | rfl <;>
        first | exact nab rfl | exact nac rfl | exact nbc rfl | exact h1 ‹_› | exact h2 ‹_› | exact h3 ‹_›

/-- Harmless levels of many kinds: those of patsy's own test, `("a", 1)`, `("b", 2)`, `("c", None)`, with numbers, a
string and `None`. -/
example : Harmless [pairOf (.str "b") (.num 2), .none, pairOf (.str "a") (.num 1), .num (5/2), .str "x",
    pairOf (.str "c") .none, .num 1] := by
  have h1 : Less (pairOf (.str "a") (.num 1)) (pairOf (.str "b") (.num 2)) := .item [] _ _ (.str (by decide +kernel))
  have h2 : Less (pairOf (.str "b") (.num 2)) (pairOf (.str "c") .none) := .item [] _ _ (.str (by decide +kernel))
  have h3 := less_trans h1 h2
  intro a ha b hb hab hc hna hnb
  simp only [List.mem_cons, List.not_mem_nil, or_false] at ha hb
  rcases ha with rfl | rfl | rfl | rfl | rfl | rfl | rfl <;> rcases hb with rfl | rfl | rfl | rfl | rfl | rfl | rfl <;>
    first
    | exact absurd rfl hab
    | exact absurd ⟨_, rfl⟩ hna
    | exact absurd ⟨_, rfl⟩ hnb
    | exact absurd hc (by decide)
    | exact .inl h1
    | exact .inr h1
    | exact .inl h2
    | exact .inr h2
    | exact .inl h3
    | exact .inr h3

end Patsy.Props
