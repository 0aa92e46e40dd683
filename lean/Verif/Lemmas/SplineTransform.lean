import Verif.Lemmas.SplineKnots
import Verif.Lemmas.CubicCyclic
import Verif.Lemmas.Columns
import Verif.Spec.SplineTransform

/-! # Sizes of the results of the spline transforms -/

namespace Patsy.SplineTransform

open Patsy.Desc (bind_ok pure_ok)
open Patsy.CubicSpline Patsy.Spec

theorem bound_lower {given : Option ℝ} {x : List ℝ} {l : ℝ} : bound given x.min? = .ok l ↔ LowerEnd given x l := by
  cases given with
  | some b => simp [bound, LowerEnd]
  | none =>
    rw [LowerEnd]
    simp only [reduceCtorEq, true_and, false_or]
    rw [← List.min?_eq_some_iff]
    cases x.min? <;> simp [bound]

theorem bound_upper {given : Option ℝ} {x : List ℝ} {u : ℝ} : bound given x.max? = .ok u ↔ UpperEnd given x u := by
  cases given with
  | some b => simp [bound, UpperEnd]
  | none =>
    rw [UpperEnd]
    simp only [reduceCtorEq, true_and, false_or]
    rw [← List.max?_eq_some_iff]
    cases x.max? <;> simp [bound]

theorem bound_unique {given c : Option ℝ} {a b : ℝ} (h1 : bound given c = .ok a) (h2 : bound given c = .ok b) : a = b := by
  rw [h1] at h2
  exact Except.ok.inj h2

/-- What is known about knots that are accepted. -/
theorem knots_accepted {x : List ℝ} {n : Option Int} {ks : Option (List ℝ)} {lower upper : Option ℝ} {all : List ℝ}
    (h : getAllSortedKnots x n ks lower upper = .ok all) :
    all.Pairwise (· < ·) ∧ 2 ≤ all.length ∧ (∀ m, n = some m → (all.length : Int) = m + 2) ∧
      (∀ k, ks = some k → all.length = k.toFinset.card + 2) ∧
      ∃ l u, LowerEnd lower x l ∧ UpperEnd upper x u ∧ l < u ∧ all.head? = some l ∧ all.getLast? = some u := by
  have h' := h
  simp only [getAllSortedKnots, bind_ok] at h'
  obtain ⟨l, hl, u, hu, h'⟩ := h'
  have hend : ∀ inner : List ℝ, (l :: (inner ++ [u])).head? = some l ∧ (l :: (inner ++ [u])).getLast? = some u := by
    intro inner
    constructor
    · rfl
    · rw [← List.cons_append, List.getLast?_concat]
  cases ks with
  | some k =>
    rw [knots_given x k n hl hu] at h
    split at h
    · rename_i hc
      obtain rfl := Except.ok.inj h
      refine ⟨knots_sorted hc.2.1 (unique_lt k) fun a ha => hc.2.2 a (mem_unique.mp ha), by simp, ?_, ?_,
        l, u, bound_lower.mp hl, bound_upper.mp hu, hc.2.1, hend _⟩
      · intro m hm
        rw [hc.1 m hm]
        simp
        omega
      · intro k' hk'
        obtain rfl := Option.some.inj hk'
        simp [unique]
    · cases h
  | none =>
    cases n with
    | none =>
      split at h'
      · cases h'
      · simp [innerKnots, bind, Except.bind] at h'
    | some n =>
      rw [knots_computed x n hl hu] at h
      split at h
      · rename_i hc
        obtain rfl := Except.ok.inj h
        obtain ⟨m, rfl⟩ : ∃ m : Nat, n = m := ⟨n.toNat, (Int.toNat_of_nonneg hc.1).symm⟩
        refine ⟨?_, by simp, ?_, by simp, l, u, bound_lower.mp hl, bound_upper.mp hu, hc.2.1, hend _⟩
        · rw [if_neg (not_lt.mpr hc.2.1.le), bind_ok] at h'
          obtain ⟨inner, -, h'⟩ := h'
          split_ifs at h'
          rw [← Except.ok.inj h']
          exact unique_lt _
        · rintro m' hm'
          obtain rfl := Option.some.inj hm'
          simp [length_fractions]
          omega
      · cases h

theorem knotsIncrease_of_lt {ks : List ℝ} (h : ks.Pairwise (· < ·)) : KnotsIncrease ks.length fun i => ks.getD i 0 :=
  fun _ _ hij hj => getD_lt h hij hj

theorem freeRow_length {cyclic : Bool} {ks : List ℝ} (h2 : 2 ≤ ks.length) {x : ℝ} {row : List ℝ}
    (h : freeRow cyclic ks x = .ok row) : row.length = dfBefore cyclic ks := by
  cases cyclic with
  | true =>
    simp only [freeRow, if_true] at h
    cases e : cyclicRow (ks.length - 1) (fun i => ks.getD i 0) x with
    | error e' => rw [e] at h; cases h
    | ok r =>
      rw [e] at h
      rw [← Except.ok.inj h]
      simp [dfBefore]
  | false =>
    simp only [freeRow, Bool.false_eq_true, if_false] at h
    cases e : naturalRow (ks.length - 2) (fun i => ks.getD i 0) x with
    | error e' => rw [e] at h; cases h
    | ok r =>
      rw [e] at h
      rw [← Except.ok.inj h]
      simp [dfBefore]
      omega

theorem freeRow_ok_iff {cyclic : Bool} {ks : List ℝ} (hs : ks.Pairwise (· < ·)) (h2 : 2 ≤ ks.length) (x : ℝ) :
    (∃ row, freeRow cyclic ks x = .ok row) ↔ (cyclic = true ∨ 3 ≤ ks.length) := by
  cases cyclic with
  | true =>
    simp only [true_or, iff_true]
    have hk := knotsIncrease_of_lt hs
    rw [show ks.length = ks.length - 1 + 1 by omega] at hk
    obtain ⟨row, h, -⟩ := cyclicRow_sum (show 0 < ks.length - 1 by omega) hk (fun _ => 0) x
    exact ⟨List.ofFn row, by simp only [freeRow, if_true]; rw [h]; rfl⟩
  | false =>
    simp only [freeRow, Bool.false_eq_true, if_false, false_or, naturalRow]
    by_cases h : ks.length - 2 = 0
    · rw [if_pos h]
      constructor
      · rintro ⟨row, h⟩; cases h
      · intro; omega
    · rw [if_neg h]
      exact ⟨fun _ => by omega, fun _ => ⟨_, rfl⟩⟩

theorem freeRow_two {ks : List ℝ} (h2 : ks.length = 2) (x : ℝ) : freeRow false ks x = .error .valueError := by
  simp only [freeRow, Bool.false_eq_true, if_false, naturalRow]
  rw [if_pos (by omega)]
  rfl

/-- The number of rows of the constraints. -/
def consRows : Option Cons → Nat
  | none => 0
  | some c => c.rows

theorem absorbAny_length {qr : QR} {c : Option Cons} {row out : List ℝ} (h : absorbAny qr c row = .ok out) :
    out.length = row.length - consRows c := by
  cases c with
  | none =>
    rw [← Except.ok.inj h]
    simp [consRows]
  | some c =>
    simp only [absorbAny, absorb] at h
    split at h
    · cases h
    · rename_i hl
      rw [← Except.ok.inj h]
      simp only [consRows, List.length_map, List.length_range]
      have := not_not.mp hl
      omega

theorem crFinish_ok {cyclic : Bool} {args : CrArgs} {x : List ℝ} {s : CrState} (h : crFinish cyclic args x = .ok s) :
    ∃ nc n, countConstraints args.constraints = .ok nc ∧ countInner cyclic nc args.df = .ok n ∧
      getAllSortedKnots x n args.knots args.lower args.upper = .ok s.knots ∧
      finishConstraints cyclic s.knots x args.constraints = .ok s.constraints := by
  simp only [crFinish] at h
  split at h
  · cases h
  · simp only [bind_ok, pure_ok] at h
    obtain ⟨nc, h1, n, h2, ks, h3, c, h4, rfl⟩ := h
    exact ⟨nc, n, h1, h2, h3, h4⟩

theorem finishConstraints_rows {cyclic : Bool} {ks x : List ℝ} {k : Constraints} {c : Option Cons} {nc : Int}
    (h : finishConstraints cyclic ks x k = .ok c) (hn : countConstraints k = .ok nc) :
    (consRows c : Int) = nc ∧ ∀ c', c = some c' → c'.cols = dfBefore cyclic ks := by
  cases k with
  | none =>
    rw [← Except.ok.inj h, ← Except.ok.inj hn]
    simp [consRows]
  | center =>
    simp only [finishConstraints, bind_ok, pure_ok] at h
    obtain ⟨rows, -, rfl⟩ := h
    rw [← Except.ok.inj hn]
    simp [consRows]
  | array rows cols entry =>
    simp only [finishConstraints] at h
    split at h
    · cases h
    · rename_i hc
      rw [← Except.ok.inj h, ← Except.ok.inj hn]
      refine ⟨rfl, ?_⟩
      rintro c' ⟨⟩
      exact not_not.mp hc
  | manyDims => cases h

theorem crRow_length {qr : QR} {cyclic : Bool} {args : CrArgs} {x : List ℝ} {s : CrState}
    (h : crFinish cyclic args x = .ok s) {y : ℝ} {row : List ℝ} (hr : crRow qr cyclic s y = .ok row) :
    row.length = dfBefore cyclic s.knots - consRows s.constraints := by
  obtain ⟨nc, n, h1, h2, h3, h4⟩ := crFinish_ok h
  obtain ⟨k1, k2, -⟩ := knots_accepted h3
  simp only [crRow, bind_ok] at hr
  obtain ⟨r, hr1, hr2⟩ := hr
  rw [absorbAny_length hr2, freeRow_length k2 hr1]

theorem countInner_ok {cyclic : Bool} {nc d : Int} {n : Option Int} (h : countInner cyclic nc (some d) = .ok n) :
    1 ≤ d ∧ n = some (d - 2 + nc + if cyclic then 1 else 0) := by
  rw [countInner] at h
  by_cases hm : d < (if !cyclic && decide (nc = 0) then 2 else 1)
  · rw [if_pos hm] at h
    cases h
  · rw [if_neg hm] at h
    refine ⟨?_, (Except.ok.inj h).symm⟩
    split at hm <;> omega

theorem bsInner_ok {args : BsArgs} {x inner : List ℝ} {d : Int} (hd : args.df = some d) (h : bsInner args x = .ok inner) :
    (inner.length : Int) = d - (args.degree + 1) + if args.includeIntercept then 0 else 1 := by
  simp only [bsInner, hd] at h
  generalize hn : d - (args.degree + 1) + (if args.includeIntercept then 0 else 1 : Int) = n at h ⊢
  by_cases h0 : n < 0
  · rw [if_pos h0] at h
    cases h
  · rw [if_neg h0] at h
    cases hk : args.knots with
    | some ks =>
      rw [hk] at h
      simp only at h
      split at h
      · cases h
      · rename_i he
        rw [← Except.ok.inj h]
        exact not_not.mp he
    | none =>
      rw [hk] at h
      simp only at h
      split at h
      · cases h
      · rw [← Except.ok.inj h, List.length_map, length_fractions, Int.toNat_of_nonneg (not_lt.mp h0)]

/-- A remembered spline can be evaluated everywhere unless it is a natural spline with two knots. -/
theorem crRow_ok_iff {qr : QR} {cyclic : Bool} {args : CrArgs} {x : List ℝ} {s : CrState}
    (h : crFinish cyclic args x = .ok s) (y : ℝ) :
    (∃ row, crRow qr cyclic s y = .ok row) ↔ (cyclic = true ∨ 3 ≤ s.knots.length) := by
  obtain ⟨nc, n, h1, h2, h3, h4⟩ := crFinish_ok h
  obtain ⟨k1, k2, -⟩ := knots_accepted h3
  rw [← freeRow_ok_iff k1 k2 y]
  constructor
  · rintro ⟨row, hr⟩
    simp only [crRow, bind_ok] at hr
    obtain ⟨r, hr1, hr2⟩ := hr
    exact ⟨r, hr1⟩
  · rintro ⟨r, hr⟩
    obtain ⟨-, hcols⟩ := finishConstraints_rows h4 h1
    cases e : s.constraints with
    | none => exact ⟨r, by simp [crRow, hr, e, absorbAny, bind, Except.bind]⟩
    | some c =>
      have : r.length = c.cols := by rw [freeRow_length k2 hr, hcols c e]
      refine ⟨(List.range (c.cols - c.rows)).map fun j =>
        ∑ k ∈ Finset.range c.cols, r.getD k 0 * qr c k (c.rows + j), ?_⟩
      simp only [crRow, hr, e, absorbAny, bind, Except.bind, absorb]
      rw [if_neg (not_not.mpr this)]

/-! ### Sizes of B-spline bases -/

theorem sorted_length (l : List ℝ) : (sorted l).length = l.length := (sorted_perm l).length_eq

theorem bsFinish_ok {args : BsArgs} {x : List ℝ} {s : BsState} (h : bsFinish args x = .ok s) :
    0 ≤ args.degree ∧ ∃ inner l u, bsInner args x = .ok inner ∧ LowerEnd args.lower x l ∧ UpperEnd args.upper x u ∧
      l ≤ u ∧ (∀ k ∈ inner, l ≤ k ∧ k ≤ u) ∧ s = ⟨args.degree.toNat,
        sorted ((List.replicate (args.degree.toNat + 1) [l, u]).flatten ++ inner)⟩ := by
  simp only [bsFinish] at h
  split at h
  · cases h
  · rename_i hd
    refine ⟨not_lt.mp hd, ?_⟩
    simp only [bind_ok] at h
    obtain ⟨inner, h1, l, h2, u, h3, h⟩ := h
    split at h
    · cases h
    · rename_i hlu
      split at h
      · cases h
      · rename_i ha
        split at h
        · cases h
        · rename_i hb
          refine ⟨inner, l, u, h1, bound_lower.mp h2, bound_upper.mp h3, not_lt.mp hlu, ?_, (pure_ok.mp h).symm⟩
          intro k hk
          constructor
          · by_contra hlt
            exact ha (List.any_eq_true.mpr ⟨k, hk, by simpa using hlt⟩)
          · by_contra hlt
            exact hb (List.any_eq_true.mpr ⟨k, hk, by simpa using hlt⟩)

theorem bsFinish_of {args : BsArgs} {x inner : List ℝ} {l u : ℝ} (hd : 0 ≤ args.degree) (hi : bsInner args x = .ok inner)
    (hl : LowerEnd args.lower x l) (hu : UpperEnd args.upper x u) (hlu : l ≤ u) (hb : ∀ k ∈ inner, l ≤ k ∧ k ≤ u) :
    bsFinish args x = .ok ⟨args.degree.toNat,
      sorted ((List.replicate (args.degree.toNat + 1) [l, u]).flatten ++ inner)⟩ := by
  simp only [bsFinish]
  rw [if_neg (not_lt.mpr hd), hi]
  simp only [bind, Except.bind, bound_lower.mpr hl, bound_upper.mpr hu]
  rw [if_neg (not_lt.mpr hlu), if_neg, if_neg]
  · rfl
  · intro h
    obtain ⟨k, hk, h⟩ := List.any_eq_true.mp h
    simp only [decide_eq_true_eq] at h
    linarith [(hb k hk).2]
  · intro h
    obtain ⟨k, hk, h⟩ := List.any_eq_true.mp h
    simp only [decide_eq_true_eq] at h
    linarith [(hb k hk).1]

/-- The sorted knots of a B-spline basis. -/
theorem mem_bsKnots {p : Nat} {l u : ℝ} {inner : List ℝ} (hb : ∀ k ∈ inner, l ≤ k ∧ k ≤ u) (hlu : l ≤ u) :
    (sorted ((List.replicate (p + 1) [l, u]).flatten ++ inner)).length = 2 * (p + 1) + inner.length ∧
    l ∈ sorted ((List.replicate (p + 1) [l, u]).flatten ++ inner) ∧
    u ∈ sorted ((List.replicate (p + 1) [l, u]).flatten ++ inner) ∧
    ∀ k ∈ sorted ((List.replicate (p + 1) [l, u]).flatten ++ inner), l ≤ k ∧ k ≤ u := by
  refine ⟨?_, ?_, ?_, ?_⟩
  · rw [sorted_length]
    simp
    ring
  · rw [(sorted_perm _).mem_iff]
    simp
  · rw [(sorted_perm _).mem_iff]
    simp
  · intro k hk
    rw [(sorted_perm _).mem_iff] at hk
    simp only [List.mem_append, List.mem_flatten, List.mem_replicate] at hk
    rcases hk with ⟨l', ⟨-, rfl⟩, h⟩ | h
    · simp only [List.mem_cons, List.not_mem_nil, or_false] at h
      rcases h with rfl | rfl
      · exact ⟨le_rfl, hlu⟩
      · exact ⟨hlu, le_rfl⟩
    · exact hb k h

theorem sorted_sorted (l : List ℝ) : sorted (sorted l) = sorted l := by
  apply List.mergeSort_of_pairwise
  exact (sorted_le l).imp fun h => by simpa using h

/-- What `bs` computes for points, given the range of the knots. -/
theorem evalBasis_eq (splev : Splev) {ks : List ℝ} {l u : ℝ} (hl : l ∈ ks) (hu : u ∈ ks) (hb : ∀ k ∈ ks, l ≤ k ∧ k ≤ u)
    (p : Nat) {y : List ℝ} (hy : y ≠ []) :
    evalBasis splev y ks p = if ∀ v ∈ y, l ≤ v ∧ v ≤ u then .ok (y.map (basisRow splev (sorted ks) p))
      else .error .notImplementedError := by
  obtain ⟨a, ha⟩ : ∃ a, y.min? = some a := by
    cases h : y.min? with
    | none => exact absurd (List.min?_eq_none_iff.mp h) hy
    | some a => exact ⟨a, rfl⟩
  obtain ⟨b, hb'⟩ : ∃ b, y.max? = some b := by
    cases h : y.max? with
    | none => exact absurd (List.max?_eq_none_iff.mp h) hy
    | some a => exact ⟨a, rfl⟩
  have hmin : (sorted ks).min? = some l := by
    rw [List.min?_eq_some_iff]
    exact ⟨(sorted_perm ks).mem_iff.mpr hl, fun k hk => (hb k ((sorted_perm ks).mem_iff.mp hk)).1⟩
  have hmax : (sorted ks).max? = some u := by
    rw [List.max?_eq_some_iff]
    exact ⟨(sorted_perm ks).mem_iff.mpr hu, fun k hk => (hb k ((sorted_perm ks).mem_iff.mp hk)).2⟩
  simp only [evalBasis, ha, hb', hmin, hmax, bound, bind, Except.bind]
  rw [List.min?_eq_some_iff] at ha
  rw [List.max?_eq_some_iff] at hb'
  by_cases h : a < l ∨ b > u
  · rw [if_pos h, if_neg]
    intro hall
    rcases h with h | h
    · linarith [(hall a ha.1).1]
    · linarith [(hall b hb'.1).2]
  · rw [if_neg h, if_pos]
    · rfl
    · intro v hv
      simp only [not_or, not_lt] at h
      exact ⟨h.1.trans (ha.2 v hv), (hb'.2 v hv).trans h.2⟩

/-- A quantile of data lies between the smallest and the largest datum. -/
theorem quantile_within {x : List ℝ} (hx : x ≠ []) {l u : ℝ} (hb : ∀ v ∈ x, l ≤ v ∧ v ≤ u) {t : ℝ} (h0 : 0 ≤ t)
    (h1 : t ≤ 1) : l ≤ quantile x t ∧ quantile x t ≤ u := by
  have hlen : 0 < (sorted x).length := by rw [sorted_length]; exact List.length_pos_iff.mpr hx
  have hget : ∀ i, i < (sorted x).length → l ≤ (sorted x).getD i 0 ∧ (sorted x).getD i 0 ≤ u := by
    intro i hi
    rw [List.getD_eq_getElem _ _ hi]
    exact hb _ ((sorted_perm x).mem_iff.mp (List.getElem_mem hi))
  have hN : (0 : ℝ) ≤ ((sorted x).length : ℝ) - 1 := by
    have : (1 : ℝ) ≤ (sorted x).length := by exact_mod_cast hlen
    linarith
  have hv0 : 0 ≤ t * (((sorted x).length : ℝ) - 1) := mul_nonneg h0 hN
  have hv1 : t * (((sorted x).length : ℝ) - 1) ≤ ((sorted x).length : ℝ) - 1 := by
    have := mul_le_mul_of_nonneg_right h1 hN
    linarith
  simp only [quantile]
  set v := t * (((sorted x).length : ℝ) - 1)
  obtain ⟨i, hi⟩ : ∃ i : Nat, ⌊v⌋ = i := ⟨⌊v⌋.toNat, (Int.toNat_of_nonneg (Int.floor_nonneg.mpr hv0)).symm⟩
  have a1 : (i : ℝ) ≤ v := by have := Int.floor_le v; rw [hi] at this; exact_mod_cast this
  have a2 : v < (i : ℝ) + 1 := by have := Int.lt_floor_add_one v; rw [hi] at this; exact_mod_cast this
  rw [hi]
  simp only [Int.toNat_natCast]
  have hil : i < (sorted x).length := by
    have : (i : ℝ) < (sorted x).length := by linarith
    exact_mod_cast this
  obtain ⟨b1, b2⟩ := hget i hil
  obtain ⟨c1, c2⟩ := hget (min (i + 1) ((sorted x).length - 1)) (by omega)
  set p := (sorted x).getD i 0
  set q := (sorted x).getD (min (i + 1) ((sorted x).length - 1)) 0
  have e : p + (q - p) * (v - i) = (1 - (v - i)) * p + (v - i) * q := by ring
  rw [e]
  have w0 : 0 ≤ v - i := by linarith
  have w1 : 0 ≤ 1 - (v - i) := by linarith
  constructor
  · nlinarith [mul_le_mul_of_nonneg_left b1 w1, mul_le_mul_of_nonneg_left c1 w0]
  · nlinarith [mul_le_mul_of_nonneg_left b2 w1, mul_le_mul_of_nonneg_left c2 w0]

end Patsy.SplineTransform
