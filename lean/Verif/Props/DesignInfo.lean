import Verif.Lemmas.DesignInfo
import Verif.Spec.Sample

/-!
# Property C19: the column bookkeeping of a design

`before c k` is the number of columns of the terms before term number `k`, in terms of the
`num_columns` of their pieces.
-/

set_option linter.unusedSectionVars false

namespace Patsy.Props

open Patsy.Build Patsy.Spec Patsy.Desc

variable {F D K : Type} [DecidableEq F]

/-- Number of columns of a term: the sum over its pieces. -/
def width (p : Term F × List (SubtermInfo F K)) : Nat := (p.2.map (·.numColumns)).sum

/-- Number of columns before term number `k`. -/
def before (c : Coding F D K) (k : Nat) : Nat := ((c.termCodings.take k).map width).sum

/-- The keys of the dictionary `term_codings` are distinct. -/
def TermKeys (c : Coding F D K) : Prop :=
  c.termCodings.Pairwise fun p q => Term.eqv p.1 q.1 = false

theorem termGet_of_pairwise {B : Type} {d : List (Term F × B)}
    (h : d.Pairwise fun p q => Term.eqv p.1 q.1 = false) {k : Nat} {p : Term F × B}
    (hk : d[k]? = some p) {t : Term F} (ht : Term.eqv p.1 t = true) : termGet d t = some p.2 := by
  induction d generalizing k with
  | nil => simp at hk
  | cons q d ih =>
    rw [List.pairwise_cons] at h
    unfold termGet
    rw [List.find?_cons]
    cases k with
    | zero =>
      simp only [List.getElem?_cons_zero, Option.some.injEq] at hk
      subst hk; simp [ht]
    | succ k =>
      simp only [List.getElem?_cons_succ] at hk
      have h1 := h.1 p (List.mem_of_getElem? hk)
      have : Term.eqv q.1 t = false := by
        cases hq : Term.eqv q.1 t with
        | false => rfl
        | true =>
          rw [Term.eqv_iff] at hq ht
          have : Term.eqv q.1 p.1 = true := by
            rw [Term.eqv_iff]; intro f; rw [hq f, ht f]
          rw [h1] at this; simp at this
      simp only [this]
      exact ih h.2 hk

theorem layout_pairwise {B : Type} (P : B → B → Prop) {l : List (B × Nat)} {idx : Nat}
    (h : l.Pairwise fun p q => P p.1 q.1) :
    (layout idx l).Pairwise fun p q => P p.1 q.1 := by
  have h1 : (l.map Prod.fst).Pairwise P := List.pairwise_map.mpr h
  rw [← layout_keys l idx] at h1
  exact List.pairwise_map.mp h1

/-- **C19**.  In every design that the constructor accepts, the column names are the given
ones and distinct; the terms lie one after the other, term `k` occupying the columns from
`before c k` (the number of columns of all terms before it), as many as its pieces have,
and together they occupy all columns; `slice` finds exactly these columns for the term, for
every equal term and for its name; and `slice` of any column name is exactly that
column. -/
theorem columns_exact {name : F → String} {names : List String} {c : Coding F D K}
    {d : DesignInfo F D K} (h : DesignInfo.make name names (some c) = .ok d) (hk : TermKeys c) :
    d.columnNames = names ∧ names.Nodup ∧ before c c.termCodings.length = names.length ∧
    (∀ k p, c.termCodings[k]? = some p →
      (∀ t, Term.eqv p.1 t = true →
        d.slice (.term t) = .ok ⟨before c k, before c k + width p⟩) ∧
      d.slice (.name (termName name p.1)) = .ok ⟨before c k, before c k + width p⟩) ∧
    (∀ (i : Nat) n, names[i]? = some n → d.slice (.name n) = .ok ⟨i, i + 1⟩) := by
  obtain ⟨_, _, g3, g4, g5, g6, g7, g8, g9⟩ := make_good.mp h
  have hb : ∀ k, ((List.take k (c.termCodings.map fun p => termColumns p.2))).sum = before c k := by
    intro k
    simp only [before, List.map_take]
    rfl
  refine ⟨?_, g4, ?_, ?_, ?_⟩
  · simp [DesignInfo.columnNames, g3, zip_range_keys]
  · rw [← g8, ← hb, List.take_of_length_le (by simp)]
  · intro k p hp
    have h1 : (c.termCodings.map fun p => (p.1, termColumns p.2))[k]? = some (p.1, termColumns p.2) := by
      simp [hp]
    have h2 : (c.termCodings.map fun p => (termName name p.1, termColumns p.2))[k]? =
        some (termName name p.1, termColumns p.2) := by simp [hp]
    have h3 := layout_getElem? (idx := 0) h1
    have h4 := layout_getElem? (idx := 0) h2
    have h5 : ((List.take k (c.termCodings.map fun p => (p.1, termColumns p.2))).map Prod.snd).sum = before c k := by
      rw [← hb, ← List.map_take, List.map_map, ← List.map_take]; rfl
    have h6 : ((List.take k (c.termCodings.map fun p => (termName name p.1, termColumns p.2))).map Prod.snd).sum = before c k := by
      rw [← hb, ← List.map_take, List.map_map, ← List.map_take]; rfl
    rw [h5, Nat.zero_add] at h3
    rw [h6, Nat.zero_add] at h4
    refine ⟨?_, ?_⟩
    · intro t ht
      have hpw : (layout 0 (c.termCodings.map fun p => (p.1, termColumns p.2))).Pairwise
          fun p q => Term.eqv p.1 q.1 = false :=
        layout_pairwise (fun s t => Term.eqv s t = false) (by rw [List.pairwise_map]; exact hk)
      have := termGet_of_pairwise hpw h3 ht
      simp only [DesignInfo.slice, g5, this]
      rfl
    · have := dictGet_of_nodup (by rw [layout_keys, List.map_map]; exact g7) h4
      simp only at this
      simp only [DesignInfo.slice, g6, this]
      rfl
  · intro i n hi
    simp only [DesignInfo.slice]
    cases hs : dictGet d.termNameSlices n with
    | some s => simp [g9 i n hi s hs]
    | none =>
      have hlt : i < names.length := by
        by_contra hge
        rw [List.getElem?_eq_none (by omega)] at hi
        simp at hi
      have h1 : d.columnIndexes[i]? = some (n, i) := by
        rw [g3, List.getElem?_zip_eq_some]
        exact ⟨hi, by simp [List.getElem?_range hlt]⟩
      have := dictGet_of_nodup (by rw [g3, zip_range_keys]; exact g4) h1
      simp only at this
      simp [this]

/-- Example: the sample design satisfies the hypotheses; its third term has columns 3 to 5. -/
example : IsDesign Sample.rightDesign Sample.right ∧ TermKeys Sample.right ∧
    Sample.rightDesign.slice (.name "a:x") = .ok ⟨3, 6⟩ ∧
    Sample.rightDesign.slice (.term ⟨["x", "a"]⟩) = .ok ⟨3, 6⟩ ∧
    Sample.rightDesign.slice (.name "a[T.a3]") = .ok ⟨2, 3⟩ :=
  ⟨⟨_, _, getOk_eq _⟩, by simp [TermKeys, Sample.right, Term.eqv],
   eq_ok_of_okIs (by decide +kernel), eq_ok_of_okIs (by decide +kernel),
   eq_ok_of_okIs (by decide +kernel)⟩

/-- **C19**, coverage.  The columns of the terms, selected by their slices and put side by
side, are all columns, whatever is in the columns. -/
theorem columns_cover {A : Type} {name : F → String} {names : List String} {c : Coding F D K}
    {d : DesignInfo F D K} (h : DesignInfo.make name names (some c) = .ok d) (hk : TermKeys c)
    (cols : List A) (hl : cols.length = names.length) :
    ∃ slices, List.Forall₂ (fun p s => d.slice (.term p.1) = .ok s) c.termCodings slices ∧
      (slices.map fun s => s.select cols).flatten = cols := by
  obtain ⟨_, _, h3, h4, _⟩ := columns_exact h hk
  have key : ∀ l : List (Term F × List (SubtermInfo F K)), ∀ k,
      c.termCodings.drop k = l → ∃ slices,
        List.Forall₂ (fun p s => d.slice (.term p.1) = .ok s) l slices ∧
        (slices.map fun s => s.select cols).flatten = cols.drop (before c k) := by
    intro l
    induction l with
    | nil =>
      intro k hd
      refine ⟨[], .nil, ?_⟩
      have hge : c.termCodings.length ≤ k := List.drop_eq_nil_iff.mp hd
      have : before c k = before c c.termCodings.length := by
        simp only [before, List.take_length, List.take_of_length_le hge]
      rw [this, h3, ← hl]
      simp
    | cons p l ih =>
      intro k hd
      have hp : c.termCodings[k]? = some p := by
        have := congrArg (·[0]?) hd
        simpa using this
      have hd' : c.termCodings.drop (k + 1) = l := by
        have := congrArg (List.drop 1) hd
        rw [List.drop_drop] at this
        simpa [Nat.add_comm] using this
      obtain ⟨slices, h5, h6⟩ := ih (k + 1) hd'
      refine ⟨⟨before c k, before c k + width p⟩ :: slices, .cons ?_ h5, ?_⟩
      · exact (h4 k p hp).1 p.1 (by rw [Term.eqv_iff]; simp)
      · have hb : before c (k + 1) = before c k + width p := by
          simp only [before, List.take_add_one, hp, Option.toList_some, List.map_append,
            List.map_cons, List.map_nil, List.sum_append, List.sum_cons, List.sum_nil, Nat.add_zero]
        rw [List.map_cons, List.flatten_cons, h6, hb]
        unfold Slice.select
        rw [List.drop_take]
        simp only [Nat.add_sub_cancel_left]
        rw [← List.drop_drop, List.take_append_drop]
  obtain ⟨slices, h5, h6⟩ := key c.termCodings 0 (by simp)
  exact ⟨slices, h5, by simpa [before] using h6⟩

/-- **C19**, unknown columns: a name that is neither the name of a term nor of a column, and
a term that is not in the design, are rejected with a `PatsyError`. -/
theorem slice_unknown {name : F → String} {names : List String} {c : Coding F D K}
    {d : DesignInfo F D K} (h : DesignInfo.make name names (some c) = .ok d) :
    (∀ n, n ∉ names → (∀ p ∈ c.termCodings, termName name p.1 ≠ n) →
      d.slice (.name n) = .error .patsyError) ∧
    (∀ t, (∀ p ∈ c.termCodings, Term.eqv p.1 t = false) →
      d.slice (.term t) = .error .patsyError) := by
  obtain ⟨_, _, g3, g4, g5, g6, g7, g8, g9⟩ := make_good.mp h
  constructor
  · intro n h1 h2
    have h3 : dictGet d.termNameSlices n = none := by
      apply dictGet_none
      rw [g6, layout_keys, List.map_map]
      intro hmem
      obtain ⟨p, hp, he⟩ := List.mem_map.mp hmem
      exact h2 p hp he
    have h4 : dictGet d.columnIndexes n = none := by
      apply dictGet_none
      rw [g3, zip_range_keys]
      exact h1
    simp [DesignInfo.slice, h3, h4]
  · intro t h1
    have : termGet (layout 0 (c.termCodings.map fun p => (p.1, termColumns p.2))) t = none := by
      unfold termGet
      rw [Option.map_eq_none_iff, List.find?_eq_none]
      intro q hq
      have : q.1 ∈ (layout 0 (c.termCodings.map fun p => (p.1, termColumns p.2))).map Prod.fst :=
        List.mem_map_of_mem hq
      rw [layout_keys, List.map_map] at this
      obtain ⟨p, hp, he⟩ := List.mem_map.mp this
      simp only [Function.comp] at he
      rw [← he, h1 p hp]
      simp
    simp [DesignInfo.slice, g5, this]

/-- Example for `slice_unknown`. -/
example : Sample.rightDesign.slice (.name "b") = .error .patsyError ∧
    Sample.rightDesign.slice (.term ⟨["x"]⟩) = .error .patsyError := by
  constructor
  · exact (slice_unknown (getOk_eq _)).1 _ (by decide +kernel) (by decide +kernel)
  · exact (slice_unknown (getOk_eq _)).2 _ (by decide +kernel)

/-- **C19**, designs from an array: a list of column names without further information is
accepted exactly if the names are distinct, and each column is found under its name. -/
theorem columns_exact_plain {name : F → String} {names : List String} :
    (∀ d : DesignInfo F D K, DesignInfo.make name names none = .ok d →
      names.Nodup ∧ d.columnNames = names ∧
      ∀ (i : Nat) n, names[i]? = some n → d.slice (.name n) = .ok ⟨i, i + 1⟩) ∧
    (names.Nodup → ∃ d : DesignInfo F D K, DesignInfo.make name names none = .ok d) := by
  have hsum : ((names.map fun c => (c, 1)).map Prod.snd).sum = names.length := by
    induction names with
    | nil => rfl
    | cons n l ih => simp only [List.map_cons, List.sum_cons, ih, List.length_cons]; omega
  have hkeys : (layout 0 (names.map fun c => (c, 1))).map Prod.fst = names := by
    rw [layout_keys, List.map_map]; exact List.map_id names
  have htake : ∀ i, i ≤ names.length →
      ((List.take i (names.map fun c => (c, 1))).map Prod.snd).sum = i := by
    intro i hi
    rw [← List.map_take, List.map_map]
    have : ((names.take i).map ((Prod.snd : String × Nat → Nat) ∘ fun c => (c, 1))) = List.replicate i 1 := by
      rw [List.eq_replicate_iff]
      refine ⟨by simp; omega, ?_⟩
      intro b hb
      obtain ⟨_, _, rfl⟩ := List.mem_map.mp hb
      rfl
    rw [this]; simp
  have hget : names.Nodup → ∀ (i : Nat) n, names[i]? = some n →
      dictGet (layout 0 (names.map fun c => (c, 1))) n = some ⟨i, i + 1⟩ := by
    intro hn i n hi
    have hlt : i < names.length := by
      by_contra hge
      rw [List.getElem?_eq_none (by omega)] at hi
      simp at hi
    have h1 := layout_getElem? (idx := 0) (l := names.map fun c => (c, 1)) (k := i) (a := n) (n := 1)
      (by simp [hi])
    rw [htake i (by omega), Nat.zero_add] at h1
    exact dictGet_of_nodup (by rw [hkeys]; exact hn) h1
  constructor
  · intro d h
    simp only [DesignInfo.make, bind_unit_ok, DesignInfo.make.finish, Except.ok.injEq] at h
    obtain ⟨h1, _, rfl⟩ := h
    have hn : names.Nodup := by
      by_contra hn
      -- fewer slices than columns: they cannot cover everything
      have hlt : (dictOf (fun a b => decide (a = b)) (layout 0 (names.map fun c => (c, 1)))).length
          < names.length := by
        have h2 := dictOf_length_le (layout 0 (names.map fun c => (c, 1)))
        have h3 := (dictOf_length (layout 0 (names.map fun c => (c, 1)))).not
        rw [hkeys] at h3
        have h4 := h3.mpr hn
        simp only [layout_length, List.length_map] at h2 h4
        omega
      have hunit : ∀ s ∈ (dictOf (fun a b => decide (a = b)) (layout 0 (names.map fun c => (c, 1)))).map Prod.snd,
          s.stop = s.start + 1 := by
        have hset : ∀ (d : List (String × Slice)) a b, (∀ p ∈ d, p.2.stop = p.2.start + 1) →
            b.stop = b.start + 1 →
            ∀ p ∈ dictSet (fun a b => decide (a = b)) d a b, p.2.stop = p.2.start + 1 := by
          intro d a b hd hb
          induction d with
          | nil => intro p hp; simp [dictSet] at hp; rw [hp]; exact hb
          | cons q d ih =>
            obtain ⟨a', b'⟩ := q
            intro p hp
            simp only [dictSet] at hp
            split at hp
            · rcases List.mem_cons.mp hp with rfl | hp
              · exact hb
              · exact hd p (List.mem_cons_of_mem _ hp)
            · rcases List.mem_cons.mp hp with rfl | hp
              · exact hd _ (List.mem_cons_self ..)
              · exact ih (fun p hp => hd p (List.mem_cons_of_mem _ hp)) p hp
        have hfold : ∀ (l : List (String × Slice)) (d : List (String × Slice)),
            (∀ p ∈ l, p.2.stop = p.2.start + 1) → (∀ p ∈ d, p.2.stop = p.2.start + 1) →
            ∀ p ∈ l.foldl (fun d p => dictSet (fun a b => decide (a = b)) d p.1 p.2) d,
              p.2.stop = p.2.start + 1 := by
          intro l
          induction l with
          | nil => intro d _ hd; exact hd
          | cons q l ih =>
            intro d hl hd
            exact ih _ (fun p hp => hl p (List.mem_cons_of_mem _ hp))
              (hset d q.1 q.2 hd (hl q (List.mem_cons_self ..)))
        intro s hs
        obtain ⟨p, hp, rfl⟩ := List.mem_map.mp hs
        refine hfold _ [] ?_ (by simp) p hp
        intro p hp
        have hlay : ∀ (l : List String) idx, ∀ p ∈ layout idx (l.map fun c => (c, 1)),
            p.2.stop = p.2.start + 1 := by
          intro l
          induction l with
          | nil => intro idx p hp; simp [layout] at hp
          | cons a l ih =>
            intro idx p hp
            simp only [List.map_cons, layout, List.mem_cons] at hp
            rcases hp with rfl | hp
            · rfl
            · exact ih _ p hp
        exact hlay names 0 p hp
      have hcov : ∀ (l : List Slice) (n cov : Nat), (∀ s ∈ l, s.stop = s.start + 1) → cov ≤ n →
          checkCovered n cov l = .ok () → n ≤ cov + l.length := by
        intro l n
        induction l with
        | nil =>
          intro cov _ _ hc
          simp only [checkCovered] at hc
          split at hc
          · omega
          · simp at hc
        | cons s l ih =>
          intro cov hs hle hc
          simp only [checkCovered] at hc
          split at hc
          · simp at hc
          · rename_i hne
            have h5 := hs s (List.mem_cons_self ..)
            have := ih _ (fun s hs' => hs s (List.mem_cons_of_mem _ hs')) (by omega) hc
            simp only [List.length_cons]
            omega
      have := hcov _ names.length 0 hunit (by omega) h1
      simp only [List.length_map] at this
      omega
    have hix : dictOf (fun a b => decide (a = b)) (names.zip (List.range names.length)) =
        names.zip (List.range names.length) := dictOf_eq (by rw [zip_range_keys]; exact hn)
    have hd : dictOf (fun a b => decide (a = b)) (layout 0 (names.map fun c => (c, 1))) =
        layout 0 (names.map fun c => (c, 1)) := dictOf_eq (by rw [hkeys]; exact hn)
    refine ⟨hn, by simp [DesignInfo.columnNames, hix, zip_range_keys], ?_⟩
    intro i n hi
    simp [DesignInfo.slice, hd, hget hn i n hi]
  · intro hn
    have hix : dictOf (fun a b => decide (a = b)) (names.zip (List.range names.length)) =
        names.zip (List.range names.length) := dictOf_eq (by rw [zip_range_keys]; exact hn)
    have hd : dictOf (fun a b => decide (a = b)) (layout 0 (names.map fun c => (c, 1))) =
        layout 0 (names.map fun c => (c, 1)) := dictOf_eq (by rw [hkeys]; exact hn)
    refine ⟨⟨names.zip (List.range names.length), none, none, layout 0 (names.map fun c => (c, 1))⟩, ?_⟩
    · simp only [DesignInfo.make, bind_unit_ok, DesignInfo.make.finish, Except.ok.injEq, hix, hd,
        forAll_ok]
      refine ⟨?_, ?_, trivial⟩
      · rw [checkCovered_layout (by omega) (by rw [hsum]; omega), hsum]
        omega
      · intro p hp
        obtain ⟨n, i⟩ := p
        obtain ⟨k, hk⟩ := List.getElem?_of_mem hp
        rw [List.getElem?_zip_eq_some] at hk
        obtain ⟨h1, h2⟩ := hk
        have hki : k = i := by
          have hlt : k < names.length := by
            by_contra hge
            simp only at h1
            rw [List.getElem?_eq_none (by omega)] at h1
            simp at h1
          simpa [List.getElem?_range hlt] using h2
        subst hki
        simp [hget hn k n h1]

/-- Example: three columns; and two equal names are rejected. -/
example : isOk (DesignInfo.make (F := String) (D := Unit) (K := Int) id ["x0", "x1", "x2"] none) = true ∧
    isOk (DesignInfo.make (F := String) (D := Unit) (K := Int) id ["x0", "x1", "x0"] none) = false := by
  decide +kernel

end Patsy.Props
