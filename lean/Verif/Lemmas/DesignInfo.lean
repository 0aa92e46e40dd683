import Verif.Lemmas.BuildMatrices
import Verif.Lemmas.Desc

/-! Lemmas about `DesignInfo.__init__`, `slice` and `subset`. -/

set_option linter.unusedSectionVars false

namespace Patsy.Build

open Patsy.Desc Patsy.Spec

variable {F D K : Type} [DecidableEq F]

/-! ### dictionaries -/

section Dict

variable {A B : Type} [DecidableEq A]

theorem dictSet_new {d : List (A × B)} {a : A} {b : B} (h : a ∉ d.map Prod.fst) :
    dictSet (fun a b => decide (a = b)) d a b = d ++ [(a, b)] := by
  induction d with
  | nil => rfl
  | cons p d ih =>
    obtain ⟨a', b'⟩ := p
    simp only [List.map_cons, List.mem_cons, not_or] at h
    simp only [dictSet]
    rw [if_neg (by simpa using fun e => h.1 e.symm), ih h.2]
    rfl

theorem dictSet_keys {d : List (A × B)} {a : A} {b : B} (h : a ∈ d.map Prod.fst) :
    (dictSet (fun a b => decide (a = b)) d a b).map Prod.fst = d.map Prod.fst := by
  induction d with
  | nil => simp at h
  | cons p d ih =>
    obtain ⟨a', b'⟩ := p
    simp only [dictSet]
    split
    · rfl
    · rename_i hne
      simp only [List.map_cons, List.mem_cons] at h ⊢
      rcases h with h | h
      · simp [h] at hne
      · rw [ih h]

theorem foldl_dictSet {l : List (A × B)} {d : List (A × B)} (hd : (d.map Prod.fst).Nodup) :
    (l.foldl (fun d p => dictSet (fun a b => decide (a = b)) d p.1 p.2) d).length ≤ d.length + l.length ∧
    ((l.foldl (fun d p => dictSet (fun a b => decide (a = b)) d p.1 p.2) d).length = d.length + l.length →
      ((d ++ l).map Prod.fst).Nodup) ∧
    (((d ++ l).map Prod.fst).Nodup →
      l.foldl (fun d p => dictSet (fun a b => decide (a = b)) d p.1 p.2) d = d ++ l) := by
  induction l generalizing d with
  | nil => simpa using hd
  | cons p l ih =>
    obtain ⟨a, b⟩ := p
    simp only [List.foldl_cons]
    by_cases h : a ∈ d.map Prod.fst
    · have hk := dictSet_keys (b := b) h
      have hl : (dictSet (fun a b => decide (a = b)) d a b).length = d.length := by
        have := congrArg List.length hk
        simpa using this
      obtain ⟨h1, _, _⟩ := ih (d := dictSet (fun a b => decide (a = b)) d a b) (by rw [hk]; exact hd)
      rw [hl] at h1
      refine ⟨by simp only [List.length_cons]; omega, ?_, ?_⟩
      · intro he; simp only [List.length_cons] at he; omega
      · intro hn
        exfalso
        rw [List.map_append, List.map_cons, List.nodup_append] at hn
        exact hn.2.2 a h a (List.mem_cons_self ..) rfl
    · rw [dictSet_new h]
      obtain ⟨h1, h2, h3⟩ := ih (d := d ++ [(a, b)]) (by
        rw [List.map_append, List.nodup_append]
        refine ⟨hd, by simp, ?_⟩
        intro x hx y hy e
        simp only [List.map_cons, List.map_nil, List.mem_cons, List.not_mem_nil, or_false] at hy
        subst hy; subst e
        exact h hx)
      simp only [List.length_append, List.length_cons, List.length_nil, List.append_assoc,
        List.singleton_append] at h1 h2 h3 ⊢
      exact ⟨by omega, fun he => h2 (by omega), h3⟩

theorem dictOf_length (l : List (A × B)) :
    (dictOf (fun a b => decide (a = b)) l).length = l.length ↔ (l.map Prod.fst).Nodup := by
  obtain ⟨_, h2, h3⟩ := foldl_dictSet (l := l) (d := []) (by simp)
  simp only [List.length_nil, Nat.zero_add, List.nil_append] at h2 h3
  refine ⟨h2, ?_⟩
  intro h
  unfold dictOf
  rw [h3 h]

theorem dictOf_eq {l : List (A × B)} (h : (l.map Prod.fst).Nodup) :
    dictOf (fun a b => decide (a = b)) l = l := by
  have h3 := (foldl_dictSet (l := l) (d := []) (by simp)).2.2
  simp only [List.nil_append] at h3
  exact h3 h

theorem dictOf_length_le (l : List (A × B)) :
    (dictOf (fun a b => decide (a = b)) l).length ≤ l.length := by
  simpa [dictOf] using (foldl_dictSet (l := l) (d := []) (by simp)).1

theorem dictGet_of_nodup {d : List (A × B)} (h : (d.map Prod.fst).Nodup) {k : Nat} {p : A × B}
    (hk : d[k]? = some p) : dictGet d p.1 = some p.2 := by
  induction d generalizing k with
  | nil => simp at hk
  | cons q d ih =>
    simp only [List.map_cons, List.nodup_cons] at h
    unfold dictGet
    rw [List.find?_cons]
    cases k with
    | zero =>
      simp only [List.getElem?_cons_zero, Option.some.injEq] at hk
      subst hk; simp
    | succ k =>
      simp only [List.getElem?_cons_succ] at hk
      have : q.1 ≠ p.1 := by
        intro e
        apply h.1
        rw [e]
        exact List.mem_map_of_mem (List.mem_of_getElem? hk)
      simp only [this, decide_false]
      exact ih h.2 hk

theorem dictGet_none {d : List (A × B)} {a : A} (h : a ∉ d.map Prod.fst) : dictGet d a = none := by
  unfold dictGet
  rw [Option.map_eq_none_iff, List.find?_eq_none]
  intro p hp
  simp only [decide_eq_true_eq]
  rintro rfl
  exact h (List.mem_map_of_mem hp)

end Dict

/-! ### layout -/

theorem layout_getElem? {A : Type} {l : List (A × Nat)} {idx k : Nat} {a : A} {n : Nat}
    (h : l[k]? = some (a, n)) :
    (layout idx l)[k]? = some (a, ⟨idx + ((l.take k).map Prod.snd).sum,
      idx + ((l.take k).map Prod.snd).sum + n⟩) := by
  induction l generalizing idx k with
  | nil => simp at h
  | cons p l ih =>
    obtain ⟨a', n'⟩ := p
    cases k with
    | zero =>
      simp only [List.getElem?_cons_zero, Option.some.injEq, Prod.mk.injEq] at h
      obtain ⟨rfl, rfl⟩ := h
      simp [layout]
    | succ k =>
      simp only [List.getElem?_cons_succ] at h
      simp only [layout, List.getElem?_cons_succ, ih h, List.take_succ_cons, List.map_cons,
        List.sum_cons, Option.some.injEq, Prod.mk.injEq, Slice.mk.injEq, true_and]
      omega

theorem layout_length {A : Type} (l : List (A × Nat)) (idx : Nat) :
    (layout idx l).length = l.length := by
  induction l generalizing idx with
  | nil => rfl
  | cons p l ih => obtain ⟨a, n⟩ := p; simp [layout, ih]

theorem layout_keys {A : Type} (l : List (A × Nat)) (idx : Nat) :
    (layout idx l).map Prod.fst = l.map Prod.fst := by
  induction l generalizing idx with
  | nil => rfl
  | cons p l ih => obtain ⟨a, n⟩ := p; simp [layout, ih]

theorem layout_map {A B : Type} (f : A → B) (l : List (A × Nat)) (idx : Nat) :
    (layout idx l).map (fun p => (f p.1, p.2)) = layout idx (l.map fun p => (f p.1, p.2)) := by
  induction l generalizing idx with
  | nil => rfl
  | cons p l ih => obtain ⟨a, n⟩ := p; simp [layout, ih]

theorem checkCovered_layout {A : Type} {l : List (A × Nat)} {n idx : Nat} (hidx : idx ≤ n)
    (hend : idx + (l.map Prod.snd).sum ≤ n) :
    checkCovered n idx ((layout idx l).map Prod.snd) = .ok () ↔ idx + (l.map Prod.snd).sum = n := by
  induction l generalizing idx with
  | nil =>
    simp only [layout, List.map_nil, checkCovered, List.sum_nil, Nat.add_zero]
    split <;> simp_all
  | cons p l ih =>
    obtain ⟨a, k⟩ := p
    simp only [List.map_cons, List.sum_cons] at hend ⊢
    simp only [layout, List.map_cons, checkCovered]
    rw [if_neg (by omega), Nat.min_eq_left (by omega), ih (by omega) (by omega)]
    omega

/-- Selecting by a slice of the layout gives the block. -/
theorem select_block {A C : Type} (blk : A → List C) {l : List A} {k : Nat} {a : A}
    (h : l[k]? = some a) :
    Slice.select ⟨((l.take k).map fun a => (blk a).length).sum,
      ((l.take k).map fun a => (blk a).length).sum + (blk a).length⟩ (l.flatMap blk) = blk a := by
  have hk : k < l.length := by
    by_contra hlt
    rw [List.getElem?_eq_none (by omega)] at h
    simp at h
  have ha : l[k] = a := by rw [List.getElem?_eq_getElem hk] at h; simpa using h
  have hsplit : l = l.take k ++ a :: l.drop (k + 1) := by
    rw [← ha, List.getElem_cons_drop, List.take_append_drop]
  have hlen : ((l.take k).map fun a => (blk a).length).sum = ((l.take k).flatMap blk).length := by
    rw [List.length_flatMap]
  rw [hlen]
  unfold Slice.select
  have : l.flatMap blk = (l.take k).flatMap blk ++ (blk a ++ (l.drop (k + 1)).flatMap blk) := by
    conv_lhs => rw [hsplit]
    simp
  rw [this]
  simp only
  rw [List.take_length_add_append, List.drop_append, List.drop_length]
  simp

/-! ### the constructor -/

theorem sum_termColumns (l : List (Term F × List (SubtermInfo F K))) :
    ((l.map fun p => (p.1, termColumns p.2)).map Prod.snd).sum =
      (l.map fun p => termColumns p.2).sum := by
  rw [List.map_map]; rfl

theorem zip_range_keys {A : Type} (l : List A) : (l.zip (List.range l.length)).map Prod.fst = l := by
  rw [List.map_fst_zip]; simp

/-- What the constructor has established. -/
structure GoodDesign (name : F → String) (names : List String) (c : Coding F D K)
    (d : DesignInfo F D K) : Prop where
  coding : d.coding = some c
  valid : ValidCoding c
  indexes : d.columnIndexes = names.zip (List.range names.length)
  nodup : names.Nodup
  slices : d.termSlices = some (layout 0 (c.termCodings.map fun p => (p.1, termColumns p.2)))
  nameSlices : d.termNameSlices =
    layout 0 (c.termCodings.map fun p => (termName name p.1, termColumns p.2))
  termNames : (c.termCodings.map fun p => termName name p.1).Nodup
  total : (c.termCodings.map fun p => termColumns p.2).sum = names.length
  collisions : ∀ i n, names[i]? = some n →
    ∀ s, dictGet d.termNameSlices n = some s → s = ⟨i, i + 1⟩

theorem make_good {name : F → String} {names : List String} {c : Coding F D K}
    {d : DesignInfo F D K} :
    DesignInfo.make name names (some c) = .ok d ↔ GoodDesign name names c d := by
  have hmap : ∀ l : List (Term F × List (SubtermInfo F K)),
      (layout 0 (l.map fun p => (p.1, termColumns p.2))).map (fun p => (termName name p.1, p.2)) =
      layout 0 (l.map fun p => (termName name p.1, termColumns p.2)) := by
    intro l
    rw [layout_map, List.map_map]; rfl
  have hfst : (layout 0 (c.termCodings.map fun p => (termName name p.1, termColumns p.2))).map Prod.fst =
      c.termCodings.map fun p => termName name p.1 := by
    rw [layout_keys, List.map_map]; rfl
  have hsnd : ∀ l : List (Term F × List (SubtermInfo F K)),
      (layout 0 (l.map fun p => (termName name p.1, termColumns p.2))).map Prod.snd =
      (layout 0 (l.map fun p => (p.1, termColumns p.2))).map Prod.snd := by
    intro l; rw [← hmap, List.map_map]; rfl
  have hsum : ((c.termCodings.map fun p => (termName name p.1, termColumns p.2)).map Prod.snd).sum =
      (c.termCodings.map fun p => termColumns p.2).sum := by
    rw [List.map_map]; rfl
  constructor
  · intro h
    simp only [DesignInfo.make, bind_unit_ok] at h
    obtain ⟨h1, h2⟩ := h
    split at h2
    · simp at h2
    rename_i hlen
    split at h2
    · simp at h2
    rename_i hsl
    simp only [bind_unit_ok, DesignInfo.make.finish, Except.ok.injEq, forAll_ok] at h2
    obtain ⟨hcov, hcol, rfl⟩ := h2
    rw [hmap] at hcov hcol hsl ⊢
    have hlen' := Decidable.not_not.mp hlen
    have hsl' := Decidable.not_not.mp hsl
    have hnames : (c.termCodings.map fun p => termName name p.1).Nodup := by
      rw [← hfst, ← dictOf_length]
      have := congrArg List.length hsl'
      simp only [List.length_map, layout_length] at this ⊢
      omega
    have hd : dictOf (fun a b => decide (a = b))
        (layout 0 (c.termCodings.map fun p => (termName name p.1, termColumns p.2))) =
        layout 0 (c.termCodings.map fun p => (termName name p.1, termColumns p.2)) :=
      dictOf_eq (by rw [hfst]; exact hnames)
    rw [hd] at hcov hcol ⊢
    have hle : (dictOf (fun a b => decide (a = b)) (names.zip (List.range names.length))).length ≤
        names.length := by
      have := dictOf_length_le (names.zip (List.range names.length))
      simpa using this
    rw [checkCovered_layout (by omega) (by rw [hsum]; omega), hsum] at hcov
    have hnd : names.Nodup := by
      have h3 : (dictOf (fun a b => decide (a = b)) (names.zip (List.range names.length))).length =
          (names.zip (List.range names.length)).length := by
        simp only [List.length_zip, List.length_range, Nat.min_self]
        omega
      rw [dictOf_length, zip_range_keys] at h3
      exact h3
    have hix : dictOf (fun a b => decide (a = b)) (names.zip (List.range names.length)) =
        names.zip (List.range names.length) := dictOf_eq (by rw [zip_range_keys]; exact hnd)
    refine ⟨rfl, checkCoding_valid.mp h1, hix, hnd, rfl, rfl, hnames, by omega, ?_⟩
    intro i n hi s hs
    rw [hix] at hcol
    have hmem : (n, i) ∈ names.zip (List.range names.length) := by
      have hlt : i < names.length := by
        by_contra hge
        rw [List.getElem?_eq_none (by omega)] at hi
        simp at hi
      apply List.mem_of_getElem? (i := i)
      rw [List.getElem?_zip_eq_some]
      exact ⟨hi, by simp [List.getElem?_range hlt]⟩
    have := hcol _ hmem
    simp only at hs
    simp only [hs] at this
    split at this
    · assumption
    · simp at this
  · rintro ⟨g1, g2, g3, g4, g5, g6, g7, g8, g9⟩
    have hd : dictOf (fun a b => decide (a = b))
        (layout 0 (c.termCodings.map fun p => (termName name p.1, termColumns p.2))) =
        layout 0 (c.termCodings.map fun p => (termName name p.1, termColumns p.2)) :=
      dictOf_eq (by rw [hfst]; exact g7)
    have hix : dictOf (fun a b => decide (a = b)) (names.zip (List.range names.length)) =
        names.zip (List.range names.length) := dictOf_eq (by rw [zip_range_keys]; exact g4)
    simp only [DesignInfo.make, bind_unit_ok]
    refine ⟨checkCoding_valid.mpr g2, ?_⟩
    rw [hmap, hd, hix]
    rw [if_neg (by simp [g8]), if_neg (by rw [hsnd]; simp)]
    simp only [bind_unit_ok, DesignInfo.make.finish, Except.ok.injEq, forAll_ok]
    refine ⟨?_, ?_, ?_⟩
    · rw [checkCovered_layout (by omega) (by rw [hsum]; omega), hsum]
      omega
    · intro p hp
      obtain ⟨n, i⟩ := p
      obtain ⟨k, hk⟩ := List.getElem?_of_mem hp
      rw [List.getElem?_zip_eq_some] at hk
      obtain ⟨h1, h2⟩ := hk
      have hki : k = i := by
        have hlt : k < names.length := by
          by_contra hge
          simp only at h1
          rw [List.getElem?_eq_none (by omega)] at h1
          simp at h1
        simpa [List.getElem?_range hlt] using h2
      subst hki
      rw [← g6]
      cases hg : dictGet d.termNameSlices n with
      | none => rfl
      | some s =>
        have := g9 k n h1 s hg
        simp [this]
    · obtain ⟨a, b, e, f⟩ := d
      simp only at g1 g3 g5 g6
      rw [g1, g3, g5, g6]

end Patsy.Build
