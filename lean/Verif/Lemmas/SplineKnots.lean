import Mathlib.Data.List.GetD
import Verif.Model.SplineTransform
import Verif.Lemmas.CubicSpline
import Verif.Lemmas.Desc

/-! # Knots that are computed from data -/

namespace Patsy.SplineTransform

open Patsy.Desc (bind_ok pure_ok)

/-! ### Distinct elements -/

theorem mem_unique {l : List ℝ} {a : ℝ} : a ∈ unique l ↔ a ∈ l := by simp [unique]

theorem unique_lt (l : List ℝ) : (unique l).Pairwise (· < ·) := (Finset.sortedLT_sort l.toFinset).pairwise

theorem eq_of_sorted_of_mem {l m : List ℝ} (hl : l.Pairwise (· < ·)) (hm : m.Pairwise (· < ·))
    (h : ∀ a, a ∈ l ↔ a ∈ m) : l = m := by
  have e : l.toFinset = m.toFinset := by ext a; simp [h]
  have f : ∀ {l : List ℝ}, l.Pairwise (· < ·) → l.toFinset.sort (· ≤ ·) = l := fun {l} hl =>
    (List.toFinset_sort (r := (· ≤ · : ℝ → ℝ → Prop)) (hl.imp fun h => ne_of_lt h)).mpr (hl.imp fun h => le_of_lt h)
  rw [← f hl, ← f hm, e]

theorem unique_eq {l m : List ℝ} (hm : m.Pairwise (· < ·)) (h : ∀ a, a ∈ m ↔ a ∈ l) : unique l = m :=
  eq_of_sorted_of_mem (unique_lt l) hm fun a => mem_unique.trans (h a).symm

theorem sorted_of_lt {l : List ℝ} (hl : l.Pairwise (· < ·)) : sorted l = l := by
  apply List.mergeSort_of_pairwise
  exact hl.imp fun h => by simpa using le_of_lt h

theorem sorted_perm (l : List ℝ) : (sorted l).Perm l := List.mergeSort_perm _ _

theorem sorted_le (l : List ℝ) : (sorted l).Pairwise (· ≤ ·) := by
  have := List.pairwise_mergeSort (le := fun a b : ℝ => decide (a ≤ b)) (by
    intro a b c h1 h2
    simp only [decide_eq_true_eq] at *
    exact h1.trans h2) (by
    intro a b
    simpa using le_total a b) l
  exact this.imp fun h => by simpa using h

/-! ### Quantiles -/

section
variable {s : List ℝ} (hs : s.Pairwise (· < ·))
include hs

theorem getD_lt {i j : Nat} (hij : i < j) (hj : j < s.length) : s.getD i 0 < s.getD j 0 := by
  rw [List.getD_eq_getElem _ _ (by omega), List.getD_eq_getElem _ _ hj]
  exact List.pairwise_iff_getElem.mp hs i j (by omega) hj hij

theorem getD_le {i j : Nat} (hij : i ≤ j) (hj : j < s.length) : s.getD i 0 ≤ s.getD j 0 := by
  rcases Nat.lt_or_eq_of_le hij with h | h
  · exact (getD_lt hs h hj).le
  · rw [h]

theorem quantile_eq (t : ℝ) : quantile s t = s.getD ⌊t * ((s.length : ℝ) - 1)⌋.toNat 0 +
    (s.getD (min (⌊t * ((s.length : ℝ) - 1)⌋.toNat + 1) (s.length - 1)) 0 - s.getD ⌊t * ((s.length : ℝ) - 1)⌋.toNat 0) *
      (t * ((s.length : ℝ) - 1) - ⌊t * ((s.length : ℝ) - 1)⌋.toNat) := by
  simp only [quantile, sorted_of_lt hs]

theorem quantile_zero : quantile s 0 = s.getD 0 0 := by
  rw [quantile_eq hs]
  simp

theorem quantile_one (h : 1 ≤ s.length) : quantile s 1 = s.getD (s.length - 1) 0 := by
  have e : (1 : ℝ) * ((s.length : ℝ) - 1) = ((s.length - 1 : Nat) : ℝ) := by push_cast [h]; ring
  rw [quantile_eq hs, e]
  simp

theorem quantile_lt (h2 : 2 ≤ s.length) {t t' : ℝ} (h0 : 0 ≤ t) (htt : t < t') (h1 : t' ≤ 1) :
    quantile s t < quantile s t' := by
  have hN : (0 : ℝ) < (s.length : ℝ) - 1 := by
    have : (2 : ℝ) ≤ s.length := by exact_mod_cast h2
    linarith
  rw [quantile_eq hs, quantile_eq hs]
  set v := t * ((s.length : ℝ) - 1) with hv
  set w := t' * ((s.length : ℝ) - 1) with hw
  have hvw : v < w := mul_lt_mul_of_pos_right htt hN
  have hv0 : 0 ≤ v := mul_nonneg h0 hN.le
  have hwN : w ≤ (s.length : ℝ) - 1 := by
    have := mul_le_mul_of_nonneg_right h1 hN.le
    linarith
  obtain ⟨i, hi⟩ : ∃ i : Nat, ⌊v⌋ = i := ⟨⌊v⌋.toNat, (Int.toNat_of_nonneg (Int.floor_nonneg.mpr hv0)).symm⟩
  obtain ⟨k, hk⟩ : ∃ k : Nat, ⌊w⌋ = k :=
    ⟨⌊w⌋.toNat, (Int.toNat_of_nonneg (Int.floor_nonneg.mpr (hv0.trans hvw.le))).symm⟩
  have a1 : (i : ℝ) ≤ v := by have := Int.floor_le v; rw [hi] at this; exact_mod_cast this
  have a2 : v < (i : ℝ) + 1 := by have := Int.lt_floor_add_one v; rw [hi] at this; exact_mod_cast this
  have b1 : (k : ℝ) ≤ w := by have := Int.floor_le w; rw [hk] at this; exact_mod_cast this
  have b2 : w < (k : ℝ) + 1 := by have := Int.lt_floor_add_one w; rw [hk] at this; exact_mod_cast this
  rw [hi, hk]
  simp only [Int.toNat_natCast]
  have hiN : i + 1 < s.length := by
    have : (i : ℝ) + 1 < s.length := by linarith
    exact_mod_cast this
  have hkN : k < s.length := by
    have : (k : ℝ) < s.length := by linarith
    exact_mod_cast this
  rw [show min (i + 1) (s.length - 1) = i + 1 by omega]
  have di := getD_lt hs (show i < i + 1 by omega) hiN
  by_cases hik : i = k
  · subst hik
    rw [show min (i + 1) (s.length - 1) = i + 1 by omega]
    have : (s.getD (i + 1) 0 - s.getD i 0) * (v - i) < (s.getD (i + 1) 0 - s.getD i 0) * (w - i) :=
      mul_lt_mul_of_pos_left (by linarith) (by linarith)
    linarith
  · have hlt : i < k := by
      have : (i : ℝ) < k + 1 := by linarith
      have : i < k + 1 := by exact_mod_cast this
      omega
    have c1 : (s.getD (i + 1) 0 - s.getD i 0) * (v - i) < (s.getD (i + 1) 0 - s.getD i 0) * 1 :=
      mul_lt_mul_of_pos_left (by linarith) (by linarith)
    have c2 := getD_le hs (show i + 1 ≤ k by omega) hkN
    have c3 := getD_le hs (show k ≤ min (k + 1) (s.length - 1) by omega) (by omega)
    have c4 : 0 ≤ (s.getD (min (k + 1) (s.length - 1)) 0 - s.getD k 0) * (w - k) :=
      mul_nonneg (by linarith) (by linarith)
    linarith

end

theorem quantile_single (c t : ℝ) : quantile [c] t = c := by
  rw [quantile_eq (List.pairwise_singleton _ _)]
  simp

theorem fractions_mem {n : Nat} {t : ℝ} (h : t ∈ fractions n) : 0 < t ∧ t < 1 := by
  obtain ⟨i, hi, rfl⟩ := List.mem_map.mp h
  have : (i : ℝ) + 1 ≤ n := by exact_mod_cast List.mem_range.mp hi
  have hn : (0 : ℝ) < (n : ℝ) + 1 := by positivity
  constructor
  · positivity
  · rw [div_lt_one hn]
    linarith

theorem fractions_lt (n : Nat) : (fractions n).Pairwise (· < ·) := by
  rw [fractions, List.pairwise_map]
  refine List.pairwise_lt_range.imp fun {a b} h => ?_
  have hn : (0 : ℝ) < (n : ℝ) + 1 := by positivity
  have : (a : ℝ) < b := by exact_mod_cast h
  exact div_lt_div_of_pos_right (by linarith) hn

theorem length_fractions (n : Nat) : (fractions n).length = n := by simp [fractions]

/-- The quantiles of at least two distinct numbers are distinct and between the smallest and the largest. -/
theorem quantiles_between {s : List ℝ} (hs : s.Pairwise (· < ·)) (h2 : 2 ≤ s.length) (n : Nat) :
    ((fractions n).map (quantile s)).Pairwise (· < ·) ∧
      ∀ q ∈ (fractions n).map (quantile s), s.getD 0 0 < q ∧ q < s.getD (s.length - 1) 0 := by
  constructor
  · rw [List.pairwise_map]
    refine (fractions_lt n).imp_of_mem fun {a b} ha hb hab => ?_
    exact quantile_lt hs h2 (fractions_mem ha).1.le hab (fractions_mem hb).2.le
  · intro q hq
    obtain ⟨t, ht, rfl⟩ := List.mem_map.mp hq
    obtain ⟨h0, h1⟩ := fractions_mem ht
    rw [← quantile_zero hs, ← quantile_one hs (by omega)]
    exact ⟨quantile_lt hs h2 le_rfl h0 h1.le, quantile_lt hs h2 h0.le h1 le_rfl⟩

/-! ### All knots -/

theorem knots_sorted {l u : ℝ} {inner : List ℝ} (hlu : l < u) (hi : inner.Pairwise (· < ·))
    (hb : ∀ k ∈ inner, l < k ∧ k < u) : (l :: (inner ++ [u])).Pairwise (· < ·) := by
  rw [List.pairwise_cons, List.pairwise_append]
  refine ⟨?_, hi, by simp, ?_⟩
  · intro a ha
    rcases List.mem_append.mp ha with h | h
    · exact (hb a h).1
    · rw [List.mem_singleton.mp h]; exact hlu
  · intro a ha b hb'
    rw [List.mem_singleton.mp hb']
    exact (hb a ha).2

theorem unique_all {l u : ℝ} {inner : List ℝ} (hlu : l < u) (hi : inner.Pairwise (· < ·))
    (hb : ∀ k ∈ inner, l < k ∧ k < u) : unique ([l, u] ++ inner) = l :: (inner ++ [u]) := by
  apply unique_eq (knots_sorted hlu hi hb)
  intro a
  simp only [List.mem_cons, List.mem_append, List.not_mem_nil, or_false]
  tauto

theorem length_unique_le (l : List ℝ) : (unique l).length ≤ l.length := by
  rw [unique, Finset.length_sort]
  exact l.toFinset_card_le

/-- If as many distinct knots are found as there should be, then nothing coincides. -/
theorem all_distinct {l u : ℝ} {inner : List ℝ} (h : (unique ([l, u] ++ inner)).length = inner.length + 2) :
    ([l, u] ++ inner).Nodup := by
  have h2 : ([l, u] ++ inner).toFinset.card = ([l, u] ++ inner).length := by
    rw [unique, Finset.length_sort] at h
    rw [h]
    simp
  exact Multiset.coe_nodup.mp (Multiset.toFinset_card_eq_card_iff_nodup.mp h2)

/-- Knots that are given. -/
theorem knots_given (x ks : List ℝ) (n : Option Int) {lower upper : Option ℝ} {l u : ℝ} (hl : bound lower x.min? = .ok l)
    (hu : bound upper x.max? = .ok u) :
    getAllSortedKnots x n (some ks) lower upper =
      if (∀ m, n = some m → m = (unique ks).length) ∧ l < u ∧ ∀ k ∈ ks, l < k ∧ k < u then .ok (l :: (unique ks ++ [u]))
      else .error .valueError := by
  simp only [getAllSortedKnots, hl, hu, bind, Except.bind, innerKnots]
  by_cases hlu : u < l
  · rw [if_pos hlu, if_neg fun h => by linarith [h.2.1]]
  · rw [if_neg hlu]
    by_cases h1 : (n.any fun n => decide (n ≠ ((unique ks).length : Int))) = true
    · rw [if_pos h1, if_neg]
      rintro ⟨h, -⟩
      cases n with
      | none => simp at h1
      | some m => simp [h m rfl] at h1
    · rw [if_neg h1]
      have hn : ∀ m, n = some m → m = ((unique ks).length : Int) := by
        rintro m rfl
        simpa using h1
      by_cases h2 : ((unique ks).any fun k => decide (k < l)) = true
      · rw [if_pos h2, if_neg]
        rintro ⟨-, -, h⟩
        obtain ⟨k, hk, hkl⟩ := List.any_eq_true.mp h2
        have := (h k (mem_unique.mp hk)).1
        simp only [decide_eq_true_eq] at hkl
        linarith
      · rw [if_neg h2]
        by_cases h3 : ((unique ks).any fun k => decide (k > u)) = true
        · rw [if_pos h3, if_neg]
          rintro ⟨-, -, h⟩
          obtain ⟨k, hk, hku⟩ := List.any_eq_true.mp h3
          have := (h k (mem_unique.mp hk)).2
          simp only [decide_eq_true_eq] at hku
          linarith
        · rw [if_neg h3]
          by_cases hgood : l < u ∧ ∀ k ∈ ks, l < k ∧ k < u
          · rw [if_pos ⟨hn, hgood⟩]
            have hb : ∀ k ∈ unique ks, l < k ∧ k < u := fun k hk => hgood.2 k (mem_unique.mp hk)
            simp only [unique_all hgood.1 (unique_lt ks) hb]
            rw [if_neg (by simp; omega)]
          · rw [if_neg fun h => hgood h.2]
            simp only
            rw [if_pos]
            intro hlen
            apply hgood
            have hnd := all_distinct (l := l) (u := u) (inner := unique ks) (by exact_mod_cast hlen)
            have hne : l ≠ u := by
              rintro rfl
              simp at hnd
            refine ⟨lt_of_le_of_ne (not_lt.mp hlu) hne, fun k hk => ?_⟩
            have hk' := mem_unique.mpr hk
            have k1 : ¬ k < l := fun h => h2 (List.any_eq_true.mpr ⟨k, hk', by simpa using h⟩)
            have k2 : ¬ k > u := fun h => h3 (List.any_eq_true.mpr ⟨k, hk', by simpa using h⟩)
            have kl : k ≠ l := by
              rintro rfl
              simp [hk'] at hnd
            have ku : k ≠ u := by
              rintro rfl
              simp [hk'] at hnd
            exact ⟨lt_of_le_of_ne (not_lt.mp k1) (Ne.symm kl), lt_of_le_of_ne (not_lt.mp k2) ku⟩

/-- The distinct data between the bounds. -/
noncomputable def inRange (x : List ℝ) (l u : ℝ) : List ℝ :=
  unique (x.filter fun v => decide (l ≤ v) && decide (v ≤ u))

theorem mem_inRange {x : List ℝ} {l u a : ℝ} : a ∈ inRange x l u ↔ a ∈ x ∧ l ≤ a ∧ a ≤ u := by
  simp [inRange, mem_unique]

theorem two_le_inRange {x : List ℝ} {l u : ℝ} :
    2 ≤ (inRange x l u).length ↔ ∃ a ∈ x, ∃ b ∈ x, l ≤ a ∧ a < b ∧ b ≤ u := by
  constructor
  · intro h
    have hlt := List.pairwise_iff_getElem.mp (unique_lt (x.filter fun v => decide (l ≤ v) && decide (v ≤ u))) 0 1
      (by rw [← inRange]; omega) (by rw [← inRange]; omega) (by omega)
    have h0 := mem_inRange.mp (List.getElem_mem (l := inRange x l u) (n := 0) (by omega))
    have h1 := mem_inRange.mp (List.getElem_mem (l := inRange x l u) (n := 1) (by omega))
    exact ⟨_, h0.1, _, h1.1, h0.2.1, hlt, h1.2.2⟩
  · rintro ⟨a, ha, b, hb, h1, h2, h3⟩
    have ma := mem_inRange.mpr (⟨ha, h1, (by linarith : a ≤ u)⟩ : a ∈ x ∧ l ≤ a ∧ a ≤ u)
    have mb := mem_inRange.mpr (⟨hb, (by linarith : l ≤ b), h3⟩ : b ∈ x ∧ l ≤ b ∧ b ≤ u)
    by_contra hlt
    obtain ⟨i, hi, ei⟩ := List.getElem_of_mem ma
    obtain ⟨j, hj, ej⟩ := List.getElem_of_mem mb
    have : i = j := by omega
    subst this
    rw [ei] at ej
    linarith

/-- Knots that are computed. -/
theorem knots_computed (x : List ℝ) (n : Int) {lower upper : Option ℝ} {l u : ℝ} (hl : bound lower x.min? = .ok l)
    (hu : bound upper x.max? = .ok u) :
    getAllSortedKnots x (some n) none lower upper =
      if 0 ≤ n ∧ l < u ∧ (n = 0 ∨ (∃ a ∈ x, ∃ b ∈ x, l ≤ a ∧ a < b ∧ b ≤ u) ∨ n = 1 ∧ ∃ c ∈ x, l < c ∧ c < u) then
        .ok (l :: ((fractions n.toNat).map (quantile (inRange x l u)) ++ [u]))
      else .error .valueError := by
  simp only [getAllSortedKnots, hl, hu, bind, Except.bind, innerKnots]
  by_cases hlu : u < l
  · rw [if_pos hlu, if_neg fun h => by linarith [h.2.1]]
  · rw [if_neg hlu]
    by_cases hn : n < 0
    · rw [if_pos hn, if_neg fun h => by omega]
    · rw [if_neg hn]
      obtain ⟨m, rfl⟩ : ∃ m : Nat, n = m := ⟨n.toNat, (Int.toNat_of_nonneg (not_lt.mp hn)).symm⟩
      rw [← inRange]
      simp only [Int.toNat_natCast]
      by_cases hD : inRange x l u = []
      · rw [if_neg (not_not.mpr hD)]
        have hnone : ∀ c ∈ x, l ≤ c → c ≤ u → False := by
          intro c hc h1 h2
          have := mem_inRange.mpr ⟨hc, h1, h2⟩
          rw [hD] at this
          simp at this
        by_cases h0 : (m : Int) = 0
        · obtain rfl : m = 0 := by omega
          rw [if_pos h0]
          simp only [fractions, List.range_zero, List.map_nil, List.nil_append, List.append_nil, Nat.cast_zero]
          by_cases hne : l = u
          · subst hne
            have : unique [l, l] = [l] := unique_eq (by simp) (by simp)
            rw [if_pos (by simp [this]), if_neg (by simp)]
          · have hlt : l < u := lt_of_le_of_ne (not_lt.mp hlu) hne
            have := unique_all (inner := []) hlt (by simp) (by simp)
            simp only [List.append_nil, List.nil_append] at this
            rw [this]
            simp [hlt]
        · rw [if_neg h0, if_neg]
          rintro ⟨-, -, h | ⟨a, ha, b, hb, h1, h2, h3⟩ | ⟨-, c, hc, h1, h2⟩⟩
          · exact h0 h
          · exact hnone a ha h1 (by linarith)
          · exact hnone c hc h1.le h2.le
      · rw [if_pos hD]
        simp only
        have key : ∀ hlt : l < u, (∀ q ∈ (fractions m).map (quantile (inRange x l u)), l < q ∧ q < u) →
            ((fractions m).map (quantile (inRange x l u))).Pairwise (· < ·) →
            (if ((unique ([l, u] ++ (fractions m).map (quantile (inRange x l u)))).length : Int) ≠ (m : Int) + 2 then
              (Except.error Err.valueError : Except Err (List ℝ))
            else .ok (unique ([l, u] ++ (fractions m).map (quantile (inRange x l u))))) =
            .ok (l :: ((fractions m).map (quantile (inRange x l u)) ++ [u])) := by
          intro hlt hb hi
          rw [unique_all hlt hi hb, if_neg]
          simp [length_fractions]
          omega
        have hs : (inRange x l u).Pairwise (· < ·) := unique_lt _
        have hmem : ∀ i, i < (inRange x l u).length → l ≤ (inRange x l u).getD i 0 ∧ (inRange x l u).getD i 0 ≤ u := by
          intro i hi
          rw [List.getD_eq_getElem _ _ hi]
          exact (mem_inRange.mp (List.getElem_mem hi)).2
        have hlen : 0 < (inRange x l u).length := List.length_pos_iff.mpr hD
        by_cases h2 : 2 ≤ (inRange x l u).length
        · obtain ⟨q1, q2⟩ := quantiles_between hs h2 m
          have hlt : l < u := by
            have := getD_lt hs (show 0 < 1 by omega) (show 1 < (inRange x l u).length by omega)
            have := (hmem 0 (by omega)).1
            have := (hmem 1 (by omega)).2
            linarith
          rw [if_pos (c := 0 ≤ (m : Int) ∧ _) ⟨by omega, hlt, Or.inr (Or.inl (two_le_inRange.mp h2))⟩]
          refine key hlt (fun q hq => ?_) q1
          obtain ⟨a, b⟩ := q2 q hq
          exact ⟨lt_of_le_of_lt (hmem 0 hlen).1 a, lt_of_lt_of_le b (hmem _ (by omega)).2⟩
        · -- a single value
          obtain ⟨c, hc⟩ : ∃ c, inRange x l u = [c] := List.length_eq_one_iff.mp (by omega)
          have hq : ∀ q ∈ (fractions m).map (quantile (inRange x l u)), q = c := by
            intro q hq
            obtain ⟨t, -, rfl⟩ := List.mem_map.mp hq
            rw [hc, quantile_single]
          have hno2 : ¬ ∃ a ∈ x, ∃ b ∈ x, l ≤ a ∧ a < b ∧ b ≤ u := fun h => h2 (two_le_inRange.mpr h)
          have hcm := mem_inRange.mp (show c ∈ inRange x l u by rw [hc]; simp)
          by_cases hgood : l < u ∧ (m = 0 ∨ m = 1 ∧ l < c ∧ c < u)
          · rw [if_pos (c := 0 ≤ (m : Int) ∧ _)]
            · refine key hgood.1 (fun q hq' => ?_) ?_
              · rcases hgood.2 with h | h
                · subst h; simp [fractions] at hq'
                · rw [hq q hq']; exact h.2
              · rcases hgood.2 with h | h
                · subst h; simp [fractions]
                · rw [h.1]; simp [fractions]
            · refine ⟨by omega, hgood.1, ?_⟩
              rcases hgood.2 with h | h
              · exact Or.inl (by omega)
              · exact Or.inr (Or.inr ⟨by omega, c, hcm.1, h.2⟩)
          · rw [if_neg (c := 0 ≤ (m : Int) ∧ _)]
            · rw [if_pos]
              intro hcard
              apply hgood
              have hnd := all_distinct (l := l) (u := u) (inner := (fractions m).map (quantile (inRange x l u))) (by
                rw [List.length_map, length_fractions]
                exact_mod_cast hcard)
              have hne : l ≠ u := by
                rintro rfl
                simp at hnd
              refine ⟨lt_of_le_of_ne (not_lt.mp hlu) hne, ?_⟩
              have hm1 : m ≤ 1 := by
                by_contra hm
                have hnd2 := (List.nodup_append.mp hnd).2.1
                have h01 := List.pairwise_iff_getElem.mp hnd2 0 1 (by simp [length_fractions]; omega)
                  (by simp [length_fractions]; omega) (by omega)
                exact h01 ((hq _ (List.getElem_mem _)).trans (hq _ (List.getElem_mem _)).symm)
              rcases Nat.eq_zero_or_pos m with h | h
              · exact Or.inl h
              · right
                obtain rfl : m = 1 := by omega
                have hin : c ∈ (fractions 1).map (quantile (inRange x l u)) := by
                  rw [hc]
                  simp [fractions, quantile_single]
                refine ⟨rfl, lt_of_le_of_ne hcm.2.1 ?_, lt_of_le_of_ne hcm.2.2 ?_⟩
                · rintro rfl
                  simp only [List.cons_append, List.nil_append, List.nodup_cons, List.mem_cons, not_or] at hnd
                  exact hnd.1.2 hin
                · rintro rfl
                  simp only [List.cons_append, List.nil_append, List.nodup_cons, List.mem_cons, not_or] at hnd
                  exact hnd.2.1 hin
            · rintro ⟨-, hlt, h | h | ⟨h, d, hd, h1, h3⟩⟩
              · exact hgood ⟨hlt, Or.inl (by omega)⟩
              · exact hno2 h
              · have : d ∈ inRange x l u := mem_inRange.mpr ⟨hd, h1.le, h3.le⟩
                rw [hc, List.mem_singleton] at this
                subst this
                exact hgood ⟨hlt, Or.inr ⟨by omega, h1, h3⟩⟩

end Patsy.SplineTransform
