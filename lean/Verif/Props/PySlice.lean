import Verif.Model.PySlice
import Verif.Props.DesignInfo

/-!
# Property C79: the columns found by `DesignInfo.slice` for integers and slices

The specification of indexing by an integer is `pyIndex`: what `cols[i]` means in Python.
-/

set_option linter.unusedSectionVars false

namespace Patsy.Spec

/-- What `l[i]` is in Python: negative indexes count from the end; `none` is the
`IndexError`. -/
def pyIndex {A : Type} (l : List A) (i : Int) : Option A :=
  if 0 ≤ i then l[i.toNat]? else if 0 ≤ i + l.length then l[(i + l.length).toNat]? else none

end Patsy.Spec

namespace Patsy.Props

open Patsy.Build Patsy.Spec Patsy.Desc

variable {F D K A : Type} [DecidableEq F]

theorem filterMap_range {m : List A} {n : Nat} (h : m.length ≤ n) :
    (List.range n).filterMap (fun k => m[k]?) = m := by
  induction m generalizing n with
  | nil => simp
  | cons a m ih =>
    cases n with
    | zero => simp at h
    | succ n =>
      rw [List.range_succ_eq_map, List.filterMap_cons, List.filterMap_map]
      simp only [List.getElem?_cons_zero]
      congr 1
      have : ((fun k : Nat => (a :: m)[k]?) ∘ Nat.succ) = fun k => m[k]? := by
        funext k; simp
      rw [this]
      exact ih (by simpa using h)

theorem select_unit {l : List A} {s : PySlice} {a b : Nat} (h : s.indices l.length = .ok (a, b, 1)) :
    s.select l = .ok ((l.take b).drop a) := by
  unfold PySlice.select
  rw [h]
  simp only [bind, Except.bind]
  congr 1
  have h0 : (fun k : Nat => if (0 < (1 : Int) ∧ (a : Int) + (k : Int) * 1 < b) ∨
      ((1 : Int) < 0 ∧ (b : Int) < a + (k : Int) * 1) then l[((a : Int) + (k : Int) * 1).toNat]? else none)
      = fun k : Nat => ((l.take b).drop a)[k]? := by
    funext k
    have e : ((a : Int) + (k : Int) * 1).toNat = a + k := by omega
    rw [e, List.getElem?_drop, List.getElem?_take]
    by_cases hk : a + k < b
    · rw [if_pos (Or.inl ⟨by omega, by omega⟩), if_pos hk]
    · rw [if_neg (by omega), if_neg hk]
  rw [h0]
  have hlen : ((l.take b).drop a).length ≤ l.length := by simp; omega
  generalize (l.take b).drop a = m at hlen
  exact filterMap_range hlen

/-- What a Python slice of a design selects, as `cols[design_info.slice(spec)]`. -/
def selects (d : DesignInfo F D K) (spec : PyColumnSpec F) (cols : List A) : Except Err (List A) := do
  (← d.slicePy spec).select cols

/-- **C79**, integers: complete description.  On a design with the columns `cols`, the slice
for the integer `i` selects exactly the column `cols[i]` (nothing if there is none), except
for `i = -1`, the last column: there the slice is `slice(-1, 0)`, which is empty. -/
theorem slice_of_integer_partial (d : DesignInfo F D K) (cols : List A) (i : Int) :
    selects d (.index i) cols = .ok (if i = -1 then [] else (pyIndex cols i).toList) := by
  have key : ∀ a b : Nat, (PySlice.mk (some i) (some (i + 1)) none).indices cols.length = .ok ((a : Int), (b : Int), 1) →
      selects d (.index i) cols = .ok ((cols.take b).drop a) := by
    intro a b h
    simp only [selects, DesignInfo.slicePy, bind, Except.bind]
    exact select_unit h
  have one : ∀ a : Nat, (cols.take (a + 1)).drop a = (cols[a]?).toList := by
    intro a
    rw [List.take_add_one, List.drop_append]
    by_cases h : a ≤ cols.length
    · simp [h]
    · have : cols[a]? = none := List.getElem?_eq_none (by omega)
      simp [this]
  unfold pyIndex
  by_cases h0 : 0 ≤ i
  · obtain ⟨a, rfl⟩ := Int.eq_ofNat_of_zero_le h0
    rw [if_neg (by omega), if_pos h0]
    by_cases hn : a < cols.length
    · rw [key a (a + 1) (by simp [PySlice.indices, clipBound]; omega), one]
      simp
    · rw [key cols.length cols.length (by simp [PySlice.indices, clipBound]; omega)]
      simp; omega
  · rw [if_neg h0]
    by_cases h1 : i = -1
    · subst h1
      rw [if_pos rfl]
      by_cases hn : cols.length = 0
      · rw [key 0 0 (by simp [PySlice.indices, clipBound]; omega)]; simp
      · rw [key (cols.length - 1) 0 (by simp [PySlice.indices, clipBound]; omega)]; simp
    · rw [if_neg h1]
      by_cases hn : 0 ≤ i + cols.length
      · obtain ⟨a, ha⟩ := Int.eq_ofNat_of_zero_le hn
        rw [if_pos hn, key a (a + 1) (by simp [PySlice.indices, clipBound]; omega), one]
        congr 3
        omega
      · rw [if_neg hn, key 0 0 (by simp [PySlice.indices, clipBound]; omega)]
        simp

/-- **C79**, slices are handed through. -/
theorem slice_of_slice (d : DesignInfo F D K) (s : PySlice) (cols : List A) :
    selects d (.slice s) cols = s.select cols := rfl

theorem select_toPy (s : Slice) (cols : List A) : s.toPy.select cols = .ok (s.select cols) := by
  have h : s.toPy.indices cols.length =
      .ok (((min s.start cols.length : Nat) : Int), ((min s.stop cols.length : Nat) : Int), 1) := by
    simp [Slice.toPy, PySlice.indices, clipBound]
    omega
  rw [select_unit h]
  unfold Slice.select
  congr 1
  apply List.ext_getElem?
  intro k
  rw [List.getElem?_drop, List.getElem?_drop, List.getElem?_take, List.getElem?_take]
  by_cases h1 : s.start ≤ cols.length
  · rw [Nat.min_eq_left h1]
    by_cases h2 : s.start + k < cols.length
    · have : s.start + k < min s.stop cols.length ↔ s.start + k < s.stop := by omega
      simp only [this]
    · simp only [List.getElem?_eq_none (show cols.length ≤ s.start + k by omega), ite_self]
  · rw [Nat.min_eq_right (by omega)]
    simp only [List.getElem?_eq_none (show cols.length ≤ s.start + k by omega),
      List.getElem?_eq_none (show cols.length ≤ cols.length + k by omega), ite_self]

/-- **C79**, names and terms: the Python slice selects exactly the columns of the term (those
of C19: after the columns of the terms before it, as many as its pieces have), or the single
column with the given name. -/
theorem slice_of_key {name : F → String} {names : List String} {c : Coding F D K}
    {d : DesignInfo F D K} (h : DesignInfo.make name names (some c) = .ok d) (hk : TermKeys c)
    (cols : List A) :
    (∀ (k : Nat) p, c.termCodings[k]? = some p →
      (∀ t, Term.eqv p.1 t = true →
        selects d (.term t) cols = .ok ((cols.drop (before c k)).take (width p))) ∧
      selects d (.name (termName name p.1)) cols = .ok ((cols.drop (before c k)).take (width p))) ∧
    (∀ (i : Nat) n, names[i]? = some n → selects d (.name n) cols = .ok (cols[i]?).toList) := by
  obtain ⟨-, -, -, h1, h2⟩ := columns_exact h hk
  have hr : ∀ a w : Nat, (Slice.mk a (a + w)).select cols = (cols.drop a).take w := by
    intro a w
    simp [Slice.select, List.drop_take]
  refine ⟨fun k p hp => ⟨fun t ht => ?_, ?_⟩, fun i n hn => ?_⟩
  · simp only [selects, DesignInfo.slicePy, (h1 k p hp).1 t ht, Except.map, bind, Except.bind,
      select_toPy, hr]
  · simp only [selects, DesignInfo.slicePy, (h1 k p hp).2, Except.map, bind, Except.bind,
      select_toPy, hr]
  · simp only [selects, DesignInfo.slicePy, h2 i n hn, Except.map, bind, Except.bind,
      select_toPy, hr]
    rw [List.take_one, List.head?_drop]

/-- Example: the six columns of the sample design.  The indexes `1` and `-2` select their
columns, `-1` selects nothing, `"a:x"` the columns of the interaction, and `::-1` all columns
in the opposite order. -/
example :
    selects Sample.rightDesign (.index 1) [0, 1, 2, 3, 4, 5] = .ok [1] ∧
    selects Sample.rightDesign (.index (-2)) [0, 1, 2, 3, 4, 5] = .ok [4] ∧
    pyIndex [0, 1, 2, 3, 4, 5] (-1) = some 5 ∧
    selects Sample.rightDesign (.index (-1)) [0, 1, 2, 3, 4, 5] = .ok [] ∧
    selects Sample.rightDesign (.name "a:x") [0, 1, 2, 3, 4, 5] = .ok [3, 4, 5] ∧
    selects Sample.rightDesign (.slice ⟨none, none, some (-1)⟩) [0, 1, 2, 3, 4, 5] =
      .ok [5, 4, 3, 2, 1, 0] :=
  ⟨eq_ok_of_okIs (by decide +kernel), eq_ok_of_okIs (by decide +kernel), by decide +kernel,
   eq_ok_of_okIs (by decide +kernel), eq_ok_of_okIs (by decide +kernel),
   eq_ok_of_okIs (by decide +kernel)⟩

/-- **C79** does not hold for the index `-1`: for every list of columns that is not empty,
`cols[-1]` is the last column, but the slice for `-1` selects no column at all. -/
theorem slice_of_minus_one (d : DesignInfo F D K) {cols : List A} (h : cols ≠ []) :
    pyIndex cols (-1) = some (cols.getLast h) ∧ selects d (.index (-1)) cols = .ok [] := by
  refine ⟨?_, by rw [slice_of_integer_partial, if_pos rfl]⟩
  have hl : 0 < cols.length := List.length_pos_of_ne_nil h
  unfold pyIndex
  rw [if_neg (by omega), if_pos (by omega), List.getLast_eq_getElem, ← List.getElem?_eq_getElem]
  congr 1
  omega

end Patsy.Props
