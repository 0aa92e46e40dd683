import Mathlib.LinearAlgebra.Matrix.ToLin
import Mathlib.LinearAlgebra.Matrix.NonsingularInverse
import Verif.Lemmas.Contrasts

/-!
# C26, C27: contrast codings and the meaning of their coefficients
-/

namespace Patsy.Props

open Patsy.Cat (PyVal)
open Patsy.Build (ContrastMatrix)
open Patsy.Contrast
open Finset (range sum_range_succ sum_range_succ')

set_option linter.unusedSectionVars false

variable {K : Type} [Field K]

theorem make_ok {K : Type} {m : List (List K)} {n : Nat} {s : List String} (h : s.length = n) :
    ContrastMatrix.make m n s = .ok ⟨m, n, s⟩ := by
  simp [ContrastMatrix.make, h]

theorem without_eq (levels : List PyVal) (i : Nat) : without levels i = levels.eraseIdx i := by
  rw [without, List.eraseIdx_eq_take_drop_succ]

theorem without_length {levels : List PyVal} {r : Nat} (hr : r < levels.length) :
    (without levels r).length = levels.length - 1 := by
  rw [without, List.length_append, List.length_take, List.length_drop]
  omega

/-- A reduced coding together with a column of ones is a full coding. -/
theorem isFull_withOnes {m : List (List K)} {n k : Nat} {s s' : List String} {A : (Nat → K) → K}
    {B : (Nat → K) → Nat → K} (hn : 0 < n) (h : IsReduced ⟨m, k, s⟩ n A B) (hs : s'.length = n) :
    IsFull ⟨withOnes m, n, s'⟩ n fun v j => if j = 0 then A v else B v (j - 1) := by
  obtain ⟨n, rfl⟩ : ∃ p, n = p + 1 := ⟨n - 1, by omega⟩
  have hlen : m.length = n + 1 := h.rows
  refine ⟨by simp [withOnes, hlen], ?_, rfl, hs, ?_⟩
  · intro r hr
    simp only [withOnes, List.mem_map] at hr
    obtain ⟨r', hr', rfl⟩ := hr
    have := h.cols r' hr'
    simp only [List.length_cons, this]
    omega
  · intro v b
    have key : ∀ i < n + 1, ∑ j ∈ range (n + 1), entry (withOnes m) i j * b j =
        b 0 + ∑ j ∈ range (n + 1 - 1), entry m i j * b (j + 1) := by
      intro i hi
      rw [sum_range_succ', add_comm, (entry_withOnes (by omega) 0).1, one_mul]
      congr 1
      apply Finset.sum_congr rfl
      intro j _
      rw [(entry_withOnes (by omega) j).2]
    have hm := h.meaning v (b 0) fun j => b (j + 1)
    simp only at hm ⊢
    constructor
    · intro hv
      obtain ⟨h0, h1⟩ := hm.mp fun i hi => by rw [← key i hi]; exact hv i hi
      intro j hj
      cases j with
      | zero => simpa using h0
      | succ j => simpa using h1 j (by omega)
    · intro hb i hi
      rw [key i hi]
      refine hm.mpr ⟨by simpa using hb 0 (by omega), ?_⟩ i hi
      intro j hj
      simpa using hb (j + 1) (by omega)

/-! ### The level that is left out -/

/-- A reference equal to a level denotes the first such level, even if it is an integer that could be an
index. -/
theorem level_by_value {levels : List PyVal} {ref l : PyVal} (hl : l ∈ levels) (hk : l.key = ref.key)
    (hh : ref.key.isSome = true) :
    ∃ r < levels.length, getLevel levels ref = .ok r ∧ (∃ l', levels[r]? = some l' ∧ l'.key = ref.key) ∧
      ∀ s < r, ∀ l', levels[s]? = some l' → l'.key ≠ ref.key := by
  cases h : levels.findIdx? (fun l => ref.key.isSome && decide (l.key = ref.key)) with
  | none =>
    rw [List.findIdx?_eq_none_iff] at h
    have := h l hl
    simp [hk, hh] at this
  | some r =>
    have h' := h
    rw [List.findIdx?_eq_some_iff_getElem] at h'
    obtain ⟨hr, h1, h2⟩ := h'
    simp only [hh, Bool.true_and, decide_eq_true_eq] at h1 h2
    refine ⟨r, hr, by rw [getLevel, h], ⟨levels[r], by simp [hr], h1⟩, ?_⟩
    intro s hs l' hl'
    have hlt : s < levels.length := by omega
    rw [List.getElem?_eq_getElem hlt, Option.some.injEq] at hl'
    subst hl'
    exact h2 s hs

/-- An integer that is not a level denotes a position, counted from the end if it is negative; positions out
of range are rejected with a `PatsyError`. -/
theorem level_by_position {levels : List PyVal} {i : Int} (hno : ∀ l ∈ levels, l.key ≠ (PyVal.int i).key) :
    (0 ≤ i → i < levels.length → getLevel levels (.int i) = .ok i.toNat) ∧
    (i < 0 → -i ≤ levels.length → getLevel levels (.int i) = .ok (levels.length - i.natAbs)) ∧
    ((levels.length : Int) ≤ i ∨ i < -levels.length → getLevel levels (.int i) = .error .patsyError) := by
  have h : levels.findIdx? (fun l => (PyVal.int i).key.isSome && decide (l.key = (PyVal.int i).key)) = none := by
    rw [List.findIdx?_eq_none_iff]
    intro l hl
    simp [hno l hl]
  rw [getLevel, h]
  simp only [intVal, indexOfInt]
  refine ⟨?_, ?_, ?_⟩
  · intro h0 h1
    have h2 : ¬ i < 0 := by omega
    simp [h2, h0, h1]
  · intro h0 h1
    have h2 : 0 ≤ i + levels.length ∧ i + levels.length < levels.length := by omega
    simp only [h0, if_true, h2, and_self]
    congr 1
    omega
  · intro h0
    by_cases h1 : i < 0
    · have h2 : ¬ (0 ≤ i + levels.length ∧ i + levels.length < levels.length) := by omega
      simp only [h1, if_true, h2, if_false]
    · have h2 : ¬ (0 ≤ i ∧ i < levels.length) := by omega
      simp only [h1, if_false, h2]

/-- Anything else is rejected with a `PatsyError`. -/
theorem level_unknown {levels : List PyVal} {ref : PyVal} (hno : ∀ l ∈ levels, l.key ≠ ref.key)
    (hint : intVal ref = none) : getLevel levels ref = .error .patsyError := by
  have h : levels.findIdx? (fun l => ref.key.isSome && decide (l.key = ref.key)) = none := by
    rw [List.findIdx?_eq_none_iff]
    intro l hl
    simp [hno l hl]
  rw [getLevel, h, hint]

/-- The level found is one of the levels. -/
theorem getLevel_lt {levels : List PyVal} {ref : PyVal} {r : Nat} (h : getLevel levels ref = .ok r) :
    r < levels.length := by
  rw [getLevel] at h
  split at h
  · rename_i i hi
    rw [List.findIdx?_eq_some_iff_getElem] at hi
    simp only [Except.ok.injEq] at h
    exact h ▸ hi.1
  · split at h
    · rename_i i _
      simp only [indexOfInt] at h
      generalize (if i < 0 then i + (levels.length : Int) else i) = k at h
      split at h
      · simp only [Except.ok.injEq] at h
        omega
      · cases h
    · cases h

example : getLevel [.int 2, .int 1, .int 0] (.int 0) = .ok 2 := by decide +kernel
example : getLevel [.str "a", .str "b", .str "c"] (.int (-1)) = .ok 2 := by decide +kernel

/-- The level left out is one of the levels. -/
theorem chosenLevel_lt {levels : List PyVal} {ref : Option PyVal} {d r : Nat} (hd : d < levels.length)
    (h : chosenLevel levels ref d = .ok r) : r < levels.length := by
  cases ref with
  | none =>
    simp only [chosenLevel, Except.ok.injEq] at h
    omega
  | some ref => exact getLevel_lt h

/-! ### Codings as matrices -/

/-- C26: a full coding is an invertible matrix. -/
theorem full_isUnit {c : ContrastMatrix K} {n : Nat} {B : (Nat → K) → Nat → K} (h : IsFull c n B) :
    IsUnit (Matrix.of fun i j : Fin n => entry c.matrix i j) := by
  rw [← Matrix.mulVec_surjective_iff_isUnit]
  intro v
  let v' : Nat → K := fun i => if hi : i < n then v ⟨i, hi⟩ else 0
  refine ⟨fun j => B v' j, ?_⟩
  funext i
  have := (h.meaning v' (B v')).mpr (fun j _ => rfl) i i.2
  simp only [v', i.2, dif_pos] at this
  rw [this, Finset.sum_range]
  rfl

/-- C26: the columns of a reduced coding together with the constant are an invertible matrix. -/
theorem reduced_isUnit {c : ContrastMatrix K} {n : Nat} {A : (Nat → K) → K} {B : (Nat → K) → Nat → K}
    (hn : 0 < n) (h : IsReduced c n A B) :
    IsUnit (Matrix.of fun i j : Fin n => if (j : Nat) = 0 then 1 else entry c.matrix i ((j : Nat) - 1)) := by
  have hlen : c.matrix.length = n := h.rows
  have h' := full_isUnit (isFull_withOnes (m := c.matrix) (s := c.suffixes) (s' := List.replicate n "") hn h (by simp))
  convert h' using 2
  funext i j
  obtain ⟨j, hj⟩ := j
  cases j with
  | zero => simp [(entry_withOnes (m := c.matrix) (by omega : (i : Nat) < _) 0).1]
  | succ j => simp [(entry_withOnes (m := c.matrix) (by omega : (i : Nat) < _) j).2]

/-! ### Treatment -/

/-- C26/C27, Treatment: with the reference level `r`, the intercept is the mean of the reference level and
the coefficients are the differences of the other levels from it. -/
theorem treatment_meaning (readable : PyVal → String) {reference : Option PyVal} {levels : List PyVal} {r : Nat}
    (hr : chosenLevel levels reference 0 = .ok r) (hlt : r < levels.length) :
    ∃ c : ContrastMatrix K, treatment readable reference levels = .ok c ∧
      c.suffixes = (levels.eraseIdx r).map (fun l => "[T." ++ readable l ++ "]") ∧
      IsReduced c levels.length (fun v => v r) (fun v j => v (skip r j) - v r) := by
  have hne : levels.length ≠ 0 := by omega
  have hnames : (nameLevels readable "T." (without levels r)).length = levels.length - 1 := by
    rw [nameLevels, List.length_map, without_length hlt]
  refine ⟨⟨(eye (levels.length - 1) : List (List K)).take r ++ [List.replicate (levels.length - 1) 0] ++
      (eye (levels.length - 1)).drop r, levels.length - 1, nameLevels readable "T." (without levels r)⟩, ?_, ?_, ?_⟩
  · rw [treatment, hr]
    simp only [bind, Except.bind, hne, if_false]
    exact make_ok hnames
  · rw [← without_eq]; rfl
  · refine ⟨block_length hlt 0, block_cols 0, rfl, hnames, ?_⟩
    intro v a b
    simp only
    have hrow : ∀ j < levels.length - 1, ∑ k ∈ range (levels.length - 1),
        entry ((eye (levels.length - 1) : List (List K)).take r ++ [List.replicate (levels.length - 1) 0] ++
          (eye (levels.length - 1)).drop r) (skip r j) k * b k = b j := by
      intro j hj
      rw [← sum_indicator hj (fun k => skip r j = skip r k) (fun k _ => ⟨fun h => (skip_inj h).symm, fun h => by rw [h]⟩) b]
      apply Finset.sum_congr rfl
      intro k hk
      rw [entry_block hlt 0 (skip_lt hj) (Finset.mem_range.mp hk), if_neg (skip_ne r j)]
    have href : ∑ k ∈ range (levels.length - 1),
        entry ((eye (levels.length - 1) : List (List K)).take r ++ [List.replicate (levels.length - 1) 0] ++
          (eye (levels.length - 1)).drop r) r k * b k = 0 := by
      apply Finset.sum_eq_zero
      intro k hk
      rw [entry_block hlt 0 hlt (Finset.mem_range.mp hk), if_pos rfl, zero_mul]
    constructor
    · intro h
      have h0 := h r hlt
      rw [href, add_zero] at h0
      refine ⟨h0.symm, ?_⟩
      intro j hj
      have := h (skip r j) (skip_lt hj)
      rw [hrow j hj] at this
      rw [this, h0]
      ring
    · rintro ⟨rfl, hb⟩ i hi
      by_cases hir : i = r
      · subst hir
        rw [href, add_zero]
      · obtain ⟨j, hj, rfl⟩ := eq_skip hi hlt hir
        rw [hrow j hj, hb j hj]
        ring

/-- With at least one level and a valid reference (or none) the hypotheses hold. -/
example : ∃ c : ContrastMatrix ℚ, treatment (fun _ => "x") (some (.int (-1))) [.str "a", .str "b", .str "c"] = .ok c ∧
    IsReduced c 3 (fun v => v 2) (fun v j => v (skip 2 j) - v 2) := by
  obtain ⟨c, h1, -, h2⟩ := treatment_meaning (K := ℚ) (fun _ => "x") (reference := some (.int (-1)))
    (levels := [.str "a", .str "b", .str "c"]) (r := 2) (by decide +kernel) (by decide)
  exact ⟨c, h1, h2⟩

/-- C26/C27, Treatment without intercept: the coefficients are the means of the levels. -/
theorem dummy_meaning (readable : PyVal → String) (levels : List PyVal) :
    ∃ c : ContrastMatrix K, dummyCode readable levels = .ok c ∧
      c.suffixes = levels.map (fun l => "[" ++ "" ++ readable l ++ "]") ∧
      IsFull c levels.length fun v j => v j := by
  have hnames : (nameLevels readable "" levels).length = levels.length := by simp [nameLevels]
  refine ⟨_, make_ok hnames, rfl, matOf_length _ _ _, matOf_cols _ _ _, rfl, hnames, ?_⟩
  intro v b
  simp only
  have hrow : ∀ i < levels.length, ∑ j ∈ range levels.length, entry (eye levels.length : List (List K)) i j * b j =
      b i := by
    intro i hi
    rw [← sum_indicator hi (fun j => i = j) (fun j _ => eq_comm) b]
    apply Finset.sum_congr rfl
    intro j hj
    rw [eye, entry_matOf, if_pos ⟨hi, Finset.mem_range.mp hj⟩]
  constructor
  · intro h j hj
    rw [h j hj, hrow j hj]
  · intro h i hi
    rw [hrow i hi, h i hi]

/-! ### Sum -/

theorem sum_reduced [CharZero K] {n o : Nat} (ho : o < n) {s : List String} (hs : s.length = n - 1) :
    IsReduced (⟨sumContrast n o, n - 1, s⟩ : ContrastMatrix K) n (meanOf n)
      (fun v j => v (skip o j) - meanOf n v) := by
  refine ⟨block_length ho (-1), block_cols (-1), rfl, hs, ?_⟩
  intro v a b
  simp only
  have hn : (n : K) ≠ 0 := by
    have : n ≠ 0 := by omega
    exact_mod_cast this
  have hrow : ∀ j < n - 1, ∑ k ∈ range (n - 1), entry (sumContrast n o : List (List K)) (skip o j) k * b k =
      b j := by
    intro j hj
    rw [← sum_indicator hj (fun k => skip o j = skip o k) (fun k _ => ⟨fun h => (skip_inj h).symm, fun h => by rw [h]⟩) b]
    apply Finset.sum_congr rfl
    intro k hk
    rw [sumContrast, entry_block ho (-1) (skip_lt hj) (Finset.mem_range.mp hk), if_neg (skip_ne o j)]
  have href : ∑ k ∈ range (n - 1), entry (sumContrast n o : List (List K)) o k * b k =
      - ∑ k ∈ range (n - 1), b k := by
    rw [← Finset.sum_neg_distrib]
    apply Finset.sum_congr rfl
    intro k hk
    rw [sumContrast, entry_block ho (-1) ho (Finset.mem_range.mp hk), if_pos rfl]
    ring
  have hcast : ((n - 1 : Nat) : K) = n - 1 := by
    rw [Nat.cast_sub (by omega), Nat.cast_one]
  constructor
  · intro h
    have h0 := h o ho
    rw [href] at h0
    have hs : ∑ i ∈ range n, v i = n * a := by
      have h2 : ∑ j ∈ range (n - 1), v (skip o j) = ∑ j ∈ range (n - 1), (a + b j) := by
        apply Finset.sum_congr rfl
        intro j hj
        rw [h (skip o j) (skip_lt (Finset.mem_range.mp hj)), hrow j (Finset.mem_range.mp hj)]
      rw [sum_skip ho, h0, h2, Finset.sum_add_distrib, Finset.sum_const, Finset.card_range, nsmul_eq_mul, hcast]
      ring
    have ha : a = meanOf n v := by
      rw [meanOf, hs]
      field_simp
    refine ⟨ha, ?_⟩
    intro j hj
    rw [← ha, h (skip o j) (skip_lt hj), hrow j hj]
    ring
  · rintro ⟨rfl, hb⟩ i hi
    by_cases hio : i = o
    · subst hio
      rw [href, Finset.sum_congr rfl fun j hj => hb j (Finset.mem_range.mp hj), Finset.sum_sub_distrib,
        Finset.sum_const, Finset.card_range, nsmul_eq_mul, hcast]
      have h1 := sum_skip hi v
      have h2 : (n : K) * meanOf n v = ∑ i ∈ range n, v i := by
        rw [meanOf]; field_simp
      linear_combination -h2 - h1
    · obtain ⟨j, hj, rfl⟩ := eq_skip hi ho hio
      rw [hrow j hj, hb j hj]
      ring

/-- C26/C27, Sum: with the level `o` left out, the intercept is the mean of the cell means and the
coefficients are the deviations of the other levels from it. -/
theorem sum_meaning [CharZero K] (readable : PyVal → String) {omitted : Option PyVal} {levels : List PyVal} {o : Nat}
    (ho : chosenLevel levels omitted (levels.length - 1) = .ok o) (hlt : o < levels.length) :
    (∃ c : ContrastMatrix K, sumWithout readable omitted levels = .ok c ∧
      c.suffixes = (levels.eraseIdx o).map (fun l => "[S." ++ readable l ++ "]") ∧
      IsReduced c levels.length (meanOf levels.length)
        (fun v j => v (skip o j) - meanOf levels.length v)) ∧
    ∃ c : ContrastMatrix K, sumWith readable omitted levels = .ok c ∧
      c.suffixes = "[mean]" :: (levels.eraseIdx o).map (fun l => "[S." ++ readable l ++ "]") ∧
      IsFull c levels.length fun v j =>
        if j = 0 then meanOf levels.length v else v (skip o (j - 1)) - meanOf levels.length v := by
  have hne : levels.length ≠ 0 := by omega
  have hnames : (nameLevels readable "S." (without levels o)).length = levels.length - 1 := by
    rw [nameLevels, List.length_map, without_length hlt]
  have h1 : sumWithout readable omitted levels = .ok (⟨sumContrast levels.length o, levels.length - 1,
      nameLevels readable "S." (without levels o)⟩ : ContrastMatrix K) := by
    rw [sumWithout, ho]
    simp only [bind, Except.bind, hne, if_false]
    exact make_ok hnames
  refine ⟨⟨_, h1, by rw [← without_eq]; rfl, sum_reduced hlt hnames⟩, ?_⟩
  refine ⟨⟨withOnes (sumContrast levels.length o), levels.length,
    "[mean]" :: nameLevels readable "S." (without levels o)⟩, ?_, by rw [← without_eq]; rfl, ?_⟩
  · rw [sumWith, h1]
    simp only [bind, Except.bind]
    have : levels.length - 1 + 1 = levels.length := by omega
    rw [this]
    apply make_ok
    rw [List.length_cons, hnames]
    omega
  · refine isFull_withOnes (by omega) (sum_reduced hlt hnames) ?_
    rw [List.length_cons, hnames]
    omega

example : ∃ c : ContrastMatrix ℚ, sumWithout (fun _ => "x") (some (.str "a")) [.str "a", .str "b", .str "c"] = .ok c ∧
    IsReduced c 3 (meanOf 3) (fun v j => v (skip 0 j) - meanOf 3 v) := by
  obtain ⟨⟨c, h1, -, h2⟩, -⟩ := sum_meaning (K := ℚ) (fun _ => "x") (omitted := some (.str "a"))
    (levels := [.str "a", .str "b", .str "c"]) (o := 0) (by decide +kernel) (by decide)
  exact ⟨c, h1, h2⟩

/-- **C27**, without argument: Treatment compares with the first level, and Sum leaves out the
last one. -/
theorem default_levels [CharZero K] (readable : PyVal → String) {levels : List PyVal} (hn : levels ≠ []) :
    (∃ c : ContrastMatrix K, treatment readable none levels = .ok c ∧
      c.suffixes = levels.tail.map (fun l => "[T." ++ readable l ++ "]") ∧
      IsReduced c levels.length (fun v => v 0) (fun v j => v (j + 1) - v 0)) ∧
    ∃ c : ContrastMatrix K, sumWithout readable none levels = .ok c ∧
      c.suffixes = levels.dropLast.map (fun l => "[S." ++ readable l ++ "]") ∧
      IsReduced c levels.length (meanOf levels.length) (fun v j => v j - meanOf levels.length v) := by
  have hpos : 0 < levels.length := List.length_pos_iff.mpr hn
  constructor
  · obtain ⟨c, h1, h2, h3⟩ := treatment_meaning (K := K) readable (reference := none) (r := 0) rfl hpos
    refine ⟨c, h1, ?_, ?_⟩
    · rw [h2, List.eraseIdx_zero]
    · exact h3
  · obtain ⟨⟨c, h1, h2, h3⟩, _⟩ := sum_meaning (K := K) readable (omitted := none) (levels := levels)
      (o := levels.length - 1) rfl (by omega)
    refine ⟨c, h1, ?_, ⟨h3.rows, h3.cols, h3.ncols, h3.names, ?_⟩⟩
    · rw [h2, List.eraseIdx_length_sub_one]
    · intro v a b
      rw [h3.meaning v a b]
      have : ∀ j < levels.length - 1, skip (levels.length - 1) j = j := by
        intro j hj
        simp [skip, hj]
      constructor
      · rintro ⟨ha, hb⟩
        exact ⟨ha, fun j hj => by rw [hb j hj, this j hj]⟩
      · rintro ⟨ha, hb⟩
        exact ⟨ha, fun j hj => by rw [hb j hj, this j hj]⟩

/-- Example: the default codings of three levels. -/
example : okIs (((treatment (K := Rat) (fun _ => "l") none [.str "a", .str "b", .str "c"])).map (·.matrix))
      [[0, 0], [1, 0], [0, 1]] = true ∧
    okIs (((sumWithout (K := Rat) (fun _ => "l") none [.str "a", .str "b", .str "c"])).map (·.matrix))
      [[1, 0], [0, 1], [-1, -1]] = true := by decide +kernel

/-! ### Helmert -/

theorem helmert_row {n : Nat} (b : Nat → K) {i : Nat} (hi : i < n) :
    ∑ j ∈ range (n - 1), entry (helmertContrast n : List (List K)) i j * b j =
      (if i = 0 then 0 else (i : K) * b (i - 1)) - ∑ j ∈ Finset.Ico i (n - 1), b j := by
  have h1 : ∑ j ∈ range (n - 1), entry (helmertContrast n : List (List K)) i j * b j =
      ∑ j ∈ range i, entry (helmertContrast n : List (List K)) i j * b j +
      ∑ j ∈ Finset.Ico i (n - 1), entry (helmertContrast n : List (List K)) i j * b j := by
    rw [Finset.sum_range_add_sum_Ico _ (by omega)]
  rw [h1]
  have h2 : ∑ j ∈ Finset.Ico i (n - 1), entry (helmertContrast n : List (List K)) i j * b j =
      - ∑ j ∈ Finset.Ico i (n - 1), b j := by
    rw [← Finset.sum_neg_distrib]
    apply Finset.sum_congr rfl
    intro j hj
    rw [Finset.mem_Ico] at hj
    rw [entry_helmert hi hj.2, if_pos hj.1]
    ring
  rw [h2, sub_eq_add_neg]
  congr 1
  cases i with
  | zero => simp
  | succ i =>
    rw [if_neg (by omega), Finset.sum_eq_single_of_mem i (by simp)]
    · rw [entry_helmert hi (by omega), if_neg (by omega), if_pos rfl]
      simp
    · intro j hj hji
      rw [Finset.mem_range] at hj
      rw [entry_helmert hi (by omega), if_neg (by omega), if_neg (by omega), zero_mul]

theorem helmert_reduced [CharZero K] {n : Nat} (hn : 0 < n) {s : List String} (hs : s.length = n - 1) :
    IsReduced (⟨helmertContrast n, n - 1, s⟩ : ContrastMatrix K) n (meanOf n)
      (fun v j => (v (j + 1) - meanOf (j + 1) v) / (j + 2)) := by
  refine ⟨matOf_length _ _ _, matOf_cols _ _ _, rfl, hs, ?_⟩
  have hc : ∀ k : Nat, ((k + 1 : Nat) : K) ≠ 0 := fun k => Nat.cast_ne_zero.mpr (by omega)
  have forward : ∀ (v : Nat → K) (a : K) (b : Nat → K),
      (∀ i < n, v i = a + ∑ j ∈ range (n - 1), entry (helmertContrast n : List (List K)) i j * b j) →
      a = meanOf n v ∧ ∀ j < n - 1, b j = (v (j + 1) - meanOf (j + 1) v) / (j + 2) := by
    intro v a b h
    have hsum : ∀ k < n, ∑ i ∈ range (k + 1), v i = (k + 1) * (a - ∑ j ∈ Finset.Ico k (n - 1), b j) := by
      intro k
      induction k with
      | zero =>
        intro h0
        have := h 0 h0
        rw [helmert_row b h0] at this
        simp at this
        simp [this]
        ring
      | succ k ih =>
        intro hk
        have := h (k + 1) hk
        rw [helmert_row b hk, if_neg (by omega)] at this
        rw [sum_range_succ, ih (by omega), this, Finset.sum_eq_sum_Ico_succ_bot (by omega : k < n - 1)]
        push_cast
        ring
    constructor
    · have := hsum (n - 1) (by omega)
      rw [Nat.sub_add_cancel (by omega), Finset.Ico_self, Finset.sum_empty, Nat.cast_sub (by omega)] at this
      rw [meanOf, this]
      have : (n : K) ≠ 0 := Nat.cast_ne_zero.mpr (by omega)
      field_simp
      push_cast
      ring
    · intro j hj
      have h1 := hsum j (by omega)
      have h2 := h (j + 1) (by omega)
      rw [helmert_row b (by omega), if_neg (by omega)] at h2
      rw [Finset.sum_eq_sum_Ico_succ_bot (by omega : j < n - 1)] at h1
      rw [meanOf, h1, h2]
      have e1 : ((j : K) + 1) ≠ 0 := by exact_mod_cast hc j
      have e2 : ((j : K) + 2) ≠ 0 := by
        have := hc (j + 1)
        push_cast at this
        rwa [add_assoc, one_add_one_eq_two] at this
      simp only [Nat.add_sub_cancel]
      push_cast
      field_simp
      ring
  intro v a b
  refine ⟨forward v a b, ?_⟩
  rintro ⟨ha, hb⟩
  simp only
  set w : Nat → K := fun i => a + ∑ j ∈ range (n - 1), entry (helmertContrast n : List (List K)) i j * b j
    with hw
  obtain ⟨ha', hb'⟩ := forward w a b fun i _ => rfl
  have hnn : (n : K) ≠ 0 := Nat.cast_ne_zero.mpr (by omega)
  have hsumeq : ∑ i ∈ range n, v i = ∑ i ∈ range n, w i := by
    have := ha.symm.trans ha'
    rw [meanOf, meanOf] at this
    field_simp at this
    exact this
  -- all partial sums of the difference are multiples of its first value
  have hdiff : ∀ k < n, ∑ i ∈ range (k + 1), (v i - w i) = (k + 1) * (v 0 - w 0) := by
    intro k
    induction k with
    | zero => intro _; simp
    | succ k ih =>
      intro hk
      have h1 := (hb k (by omega)).symm.trans (hb' k (by omega))
      have e2 : ((k : K) + 2) ≠ 0 := by
        have := hc (k + 1)
        push_cast at this
        rwa [add_assoc, one_add_one_eq_two] at this
      have e1 : ((k : K) + 1) ≠ 0 := by exact_mod_cast hc k
      have h2 : v (k + 1) - meanOf (k + 1) v = w (k + 1) - meanOf (k + 1) w := by
        field_simp at h1
        exact h1
      have h3 : meanOf (k + 1) v - meanOf (k + 1) w = v 0 - w 0 := by
        rw [meanOf, meanOf, ← sub_div, ← Finset.sum_sub_distrib, ih (by omega)]
        push_cast
        field_simp
      rw [sum_range_succ, ih (by omega)]
      push_cast
      linear_combination h2 + h3
  have h0 : v 0 - w 0 = 0 := by
    have := hdiff (n - 1) (by omega)
    rw [Nat.sub_add_cancel (by omega), Finset.sum_sub_distrib, hsumeq, sub_self] at this
    have e : (((n - 1 : Nat) : K) + 1) ≠ 0 := by exact_mod_cast hc (n - 1)
    rcases mul_eq_zero.mp this.symm with h | h
    · exact absurd h e
    · exact h
  intro i hi
  have hzero : ∀ k < n, ∑ i ∈ range (k + 1), (v i - w i) = 0 := fun k hk => by rw [hdiff k hk, h0, mul_zero]
  have : v i - w i = 0 := by
    cases i with
    | zero => exact h0
    | succ i =>
      have h1 := hzero (i + 1) hi
      rw [sum_range_succ, hzero i (by omega), zero_add] at h1
      exact h1
  exact sub_eq_zero.mp this

/-- C26/C27, Helmert: the intercept is the mean of the cell means; the coefficient of column `j` is the
difference between level `j + 1` and the mean of all the levels before it, divided by `j + 2`. -/
theorem helmert_meaning [CharZero K] (readable : PyVal → String) {levels : List PyVal} (hne : levels ≠ []) :
    (∃ c : ContrastMatrix K, helmertWithout readable levels = .ok c ∧
      c.suffixes = (levels.drop 1).map (fun l => "[H." ++ readable l ++ "]") ∧
      IsReduced c levels.length (meanOf levels.length)
        (fun v j => (v (j + 1) - meanOf (j + 1) v) / (j + 2))) ∧
    ∃ c : ContrastMatrix K, helmertWith readable levels = .ok c ∧
      c.suffixes = "[H.intercept]" :: (levels.drop 1).map (fun l => "[H." ++ readable l ++ "]") ∧
      IsFull c levels.length fun v j =>
        if j = 0 then meanOf levels.length v
        else (v (j - 1 + 1) - meanOf (j - 1 + 1) v) / ((j - 1 : Nat) + 2) := by
  have hpos : 0 < levels.length := List.length_pos_iff.mpr hne
  have hnames : (nameLevels readable "H." (levels.drop 1)).length = levels.length - 1 := by
    simp [nameLevels]
  have hnames' : ("[H.intercept]" :: nameLevels readable "H." (levels.drop 1)).length = levels.length := by
    rw [List.length_cons, hnames]; omega
  refine ⟨⟨_, ?_, rfl, helmert_reduced hpos hnames⟩, ⟨_, ?_, rfl,
    isFull_withOnes hpos (helmert_reduced hpos hnames) hnames'⟩⟩
  · rw [helmertWithout, if_neg (by omega)]
    exact make_ok hnames
  · rw [helmertWith, if_neg (by omega)]
    exact make_ok hnames'

/-! ### Diff -/

theorem diff_reduced [CharZero K] {argsort : List Nat → List Nat} (hs : IsArgsort argsort) {n : Nat} (hn : 0 < n)
    {s : List String} (hlen : s.length = n - 1) :
    IsReduced (⟨diffContrast argsort n, n - 1, s⟩ : ContrastMatrix K) n (meanOf n)
      (fun v j => v (j + 1) - v j) := by
  refine ⟨matOf_length _ _ _, matOf_cols _ _ _, rfl, hlen, ?_⟩
  have hnn : (n : K) ≠ 0 := Nat.cast_ne_zero.mpr (by omega)
  have colsum : ∀ j < n - 1, ∑ i ∈ range n, entry (diffContrast argsort n : List (List K)) i j = 0 := by
    intro j hj
    have h1 : ∑ i ∈ range n, entry (diffContrast argsort n : List (List K)) i j =
        ∑ i ∈ range (j + 1), (((j + 1 : Nat) : K) - n) / n + ∑ i ∈ Finset.Ico (j + 1) n, ((j + 1 : Nat) : K) / n := by
      rw [← Finset.sum_range_add_sum_Ico _ (by omega : j + 1 ≤ n)]
      congr 1
      · apply Finset.sum_congr rfl
        intro i hi
        rw [Finset.mem_range] at hi
        rw [entry_diff hs (by omega) hj, if_pos (by omega)]
      · apply Finset.sum_congr rfl
        intro i hi
        rw [Finset.mem_Ico] at hi
        rw [entry_diff hs (by omega) hj, if_neg (by omega)]
    rw [h1, Finset.sum_const, Finset.sum_const, Finset.card_range, Nat.card_Ico, nsmul_eq_mul, nsmul_eq_mul,
      Nat.cast_sub (by omega)]
    field_simp
    ring
  have step : ∀ (b : Nat → K) (i : Nat), i < n - 1 →
      (∑ j ∈ range (n - 1), entry (diffContrast argsort n : List (List K)) (i + 1) j * b j) -
      ∑ j ∈ range (n - 1), entry (diffContrast argsort n : List (List K)) i j * b j = b i := by
    intro b i hi
    rw [← Finset.sum_sub_distrib, Finset.sum_eq_single_of_mem i (Finset.mem_range.mpr hi)]
    · rw [entry_diff hs (by omega) hi, entry_diff hs (by omega) hi, if_neg (by omega), if_pos le_rfl]
      field_simp
      ring
    · intro j hj hji
      rw [Finset.mem_range] at hj
      rw [entry_diff hs (by omega) hj, entry_diff hs (by omega) hj]
      rcases lt_or_gt_of_ne hji with h | h
      · rw [if_neg (by omega), if_neg (by omega)]
        ring
      · rw [if_pos (by omega), if_pos (by omega)]
        ring
  have total : ∀ (a : K) (b : Nat → K),
      ∑ i ∈ range n, (a + ∑ j ∈ range (n - 1), entry (diffContrast argsort n : List (List K)) i j * b j) = n * a := by
    intro a b
    rw [Finset.sum_add_distrib, Finset.sum_comm]
    have : ∑ j ∈ range (n - 1), ∑ i ∈ range n, entry (diffContrast argsort n : List (List K)) i j * b j = 0 := by
      apply Finset.sum_eq_zero
      intro j hj
      rw [← Finset.sum_mul, colsum j (Finset.mem_range.mp hj), zero_mul]
    rw [this]
    simp
  intro v a b
  simp only
  constructor
  · intro h
    constructor
    · rw [meanOf, Finset.sum_congr rfl fun i hi => h i (Finset.mem_range.mp hi), total]
      field_simp
    · intro j hj
      rw [h (j + 1) (by omega), h j (by omega), ← step b j hj]
      ring
  · rintro ⟨rfl, hb⟩
    apply eq_of_differences
    · intro j hj
      rw [← hb j hj, ← step b j hj]
      ring
    · rw [total, meanOf]
      field_simp

/-- C26/C27, Diff: the intercept is the mean of the cell means (not, as the documentation says at
contrasts.py:551-552, the mean of the first level); the coefficients are the successive differences.  The
result does not depend on how `argsort` treats equal values. -/
theorem diff_meaning [CharZero K] (readable : PyVal → String) {argsort : List Nat → List Nat}
    (hs : IsArgsort argsort) {levels : List PyVal} (hne : levels ≠ []) :
    (∃ c : ContrastMatrix K, diffWithout readable argsort levels = .ok c ∧
      c.suffixes = levels.dropLast.map (fun l => "[D." ++ readable l ++ "]") ∧
      IsReduced c levels.length (meanOf levels.length) (fun v j => v (j + 1) - v j)) ∧
    ∃ c : ContrastMatrix K, diffWith readable argsort levels = .ok c ∧
      c.suffixes = levels.map (fun l => "[D." ++ readable l ++ "]") ∧
      IsFull c levels.length fun v j =>
        if j = 0 then meanOf levels.length v else v (j - 1 + 1) - v (j - 1) := by
  have hpos : 0 < levels.length := List.length_pos_iff.mpr hne
  have hnames : (nameLevels readable "D." levels.dropLast).length = levels.length - 1 := by
    simp [nameLevels]
  have hnames' : (nameLevels readable "D." levels).length = levels.length := by
    simp [nameLevels]
  refine ⟨⟨_, ?_, rfl, diff_reduced hs hpos hnames⟩, ⟨_, ?_, rfl,
    isFull_withOnes hpos (diff_reduced hs hpos hnames) hnames'⟩⟩
  · rw [diffWithout, if_neg (by omega)]
    exact make_ok hnames
  · rw [diffWith, if_neg (by omega)]
    exact make_ok hnames'

example : ∃ c : ContrastMatrix ℚ, helmertWithout (fun _ => "x") [.str "a", .str "b", .str "c"] = .ok c ∧
    IsReduced c 3 (meanOf 3) (fun v j => (v (j + 1) - meanOf (j + 1) v) / (j + 2)) := by
  obtain ⟨⟨c, h1, -, h2⟩, -⟩ := helmert_meaning (K := ℚ) (fun _ => "x")
    (levels := [.str "a", .str "b", .str "c"]) (by simp)
  exact ⟨c, h1, h2⟩

/-- A sorting algorithm that meets the contract of `argsort`: insertion of the positions. -/
def sampleArgsort (l : List Nat) : List Nat :=
  (List.range l.length).insertionSort fun i j => l[i]?.getD 0 ≤ l[j]?.getD 0

theorem sampleArgsort_isArgsort : IsArgsort sampleArgsort := by
  intro l
  refine ⟨List.perm_insertionSort _ _, ?_⟩
  rw [sampleArgsort, List.pairwise_map]
  have : Std.Total (fun i j : Nat => l[i]?.getD 0 ≤ l[j]?.getD 0) := ⟨fun a b => le_total _ _⟩
  have : IsTrans Nat (fun i j => l[i]?.getD 0 ≤ l[j]?.getD 0) := ⟨fun a b c h1 h2 => le_trans h1 h2⟩
  exact List.pairwise_insertionSort (fun i j : Nat => l[i]?.getD 0 ≤ l[j]?.getD 0) (List.range l.length)

example : ∃ c : ContrastMatrix ℚ, diffWithout (fun _ => "x") sampleArgsort [.str "a", .str "b", .str "c"] = .ok c ∧
    IsReduced c 3 (meanOf 3) (fun v j => v (j + 1) - v j) := by
  obtain ⟨⟨c, h1, -, h2⟩, -⟩ := diff_meaning (K := ℚ) (fun _ => "x") sampleArgsort_isArgsort
    (levels := [.str "a", .str "b", .str "c"]) (by simp)
  exact ⟨c, h1, h2⟩

/-! ### `code_contrast_matrix` -/

/-- Without a contrast the default is used; classes are instantiated; matrices are taken as they are, whatever
is requested; anything else is asked for the requested kind of coding. -/
theorem code_contrast_matrix_cases {K : Type} (intercept : Bool) (levels : List PyVal) (default : Spec K)
    (w wo : List PyVal → Except Err (ContrastMatrix K)) (m : ContrastMatrix K) (ncols : Nat) (rows : List (List K)) :
    codeContrastMatrix intercept levels .none (.callable (.coding w wo)) =
      (if intercept then w levels else wo levels) ∧
    codeContrastMatrix intercept levels (.coding w wo) default = (if intercept then w levels else wo levels) ∧
    codeContrastMatrix intercept levels (.callable (.coding w wo)) default =
      (if intercept then w levels else wo levels) ∧
    codeContrastMatrix intercept levels (.matrix m) default = .ok m ∧
    codeContrastMatrix intercept levels (.array 2 ncols rows) default =
      .ok ⟨rows, ncols, (List.range ncols).map fun i => "[custom" ++ toString i ++ "]"⟩ := by
  refine ⟨rfl, rfl, rfl, rfl, ?_⟩
  simp only [codeContrastMatrix, Spec.call, Spec.apply]
  rw [if_neg (by omega)]
  exact make_ok (by simp)

end Patsy.Props
